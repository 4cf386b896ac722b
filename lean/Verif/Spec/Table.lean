import Verif.Model.Table
import Verif.Spec.Extension
import Verif.Spec.Pixels
/-
What the values of a binary table are (FITS 7.3), independently of the way they are read.  The types of values and
`BinTable` are taken from the model.
-/

namespace Fitsrs.Spec

/-- The `n` bytes at offset `o`. -/
def bytesAt (unit : List UInt8) (o n : Nat) : List UInt8 := (unit.drop o).take n

/-- Where a column starts in a row. -/
def colStart (ts : List TForm) (c : Nat) : Nat := total ((ts.map colBytes).take c)

/-- A value in range for an element type.  A logical value is read from one byte. -/
def CellOk : ElemTy → Cell → Prop
  | .L, .logical _ => True
  | .X, .bits n => n < 2 ^ 8
  | .B, .ubyte n => n < 2 ^ 8
  | .I, .short n => -(2 ^ 15) ≤ n ∧ n < 2 ^ 15
  | .J, .integer n => -(2 ^ 31) ≤ n ∧ n < 2 ^ 31
  | .K, .long n => -(2 ^ 63) ≤ n ∧ n < 2 ^ 63
  | .A, .char n => n < 2 ^ 8
  | .E, .float n => n < 2 ^ 32
  | .D, .double n => n < 2 ^ 64
  | .C, .cfloat a b => a < 2 ^ 32 ∧ b < 2 ^ 32
  | .M, .cdouble a b => a < 2 ^ 64 ∧ b < 2 ^ 64
  | _, _ => False

/-- The bytes of a value (FITS 7.3.3.1): big-endian, two's complement, IEEE-754; `T` and `F` for logical values. -/
def cellBytes : Cell → List UInt8
  | .logical b => if b then [0x54] else [0x46]
  | .bits n => bigEndian 1 n
  | .ubyte n => bigEndian 1 n
  | .short n => bigEndian 2 (n % 2 ^ 16).toNat
  | .integer n => bigEndian 4 (n % 2 ^ 32).toNat
  | .long n => bigEndian 8 (n % 2 ^ 64).toNat
  | .char n => bigEndian 1 n
  | .float n => bigEndian 4 n
  | .double n => bigEndian 8 n
  | .cfloat a b => bigEndian 4 a ++ bigEndian 4 b
  | .cdouble a b => bigEndian 8 a ++ bigEndian 8 b

/-- The elements of type `ty` found one after the other from offset `o`. -/
def elements (unit : List UInt8) (ty : ElemTy) (c o n : Nat) : List DataValue :=
  (List.range n).map fun i =>
    .cell c i (Cell.ofBytes ty (bytesAt unit (o + i * elemBytes ty) (elemBytes ty)))

/-- Number of values of a column in a row: bits come in bytes. -/
def count : ElemTy → Nat → Nat
  | .X, r => (r + 7) / 8
  | _, r => r

/-- The values of an array descriptor of `k + k` bytes at offset `o`: the elements it points to in the heap, or the
descriptor itself if the heap is not read. -/
def arrayValues (heap : Bool) (unit : List UInt8) (ty : ElemTy) (theap c k o : Nat) (mk : Nat → Nat → DataValue) :
    List DataValue :=
  let num := beNat (bytesAt unit o k)
  let offset := beNat (bytesAt unit (o + k) k)
  if heap then elements unit ty c (theap + offset) num else [mk num offset]

/-- The values of the cell at row `r` and column `c` of the table whose data unit is `unit`. -/
def cellValues (heap : Bool) (x : BinTable) (unit : List UInt8) (r c : Nat) : List DataValue :=
  let o := r * x.naxis1 + colStart x.tforms c
  match x.tforms[c]? with
  | some (.plain ty rep) => elements unit ty c o (count ty rep)
  | some (.P ty) => arrayValues heap unit ty x.theap c 4 o .vla32
  | some (.Q ty) => arrayValues heap unit ty x.theap c 8 o .vla64
  | none => []

/-- The values of a row in the columns `cols`. -/
def rowValues (heap : Bool) (x : BinTable) (unit : List UInt8) (cols : List Nat) (r : Nat) : List DataValue :=
  cols.flatMap (cellValues heap x unit r)

/-- The values of the table in the columns `cols`. -/
def tableValues (heap : Bool) (x : BinTable) (unit : List UInt8) (cols : List Nat) : List DataValue :=
  (List.range x.naxis2).flatMap (rowValues heap x unit cols)

/-- An array descriptor whose array is not empty and lies in the file. -/
def ArrayIn (unit : List UInt8) (ty : ElemTy) (theap k o : Nat) : Prop :=
  0 < beNat (bytesAt unit o k) ∧
    theap + beNat (bytesAt unit (o + k) k) + beNat (bytesAt unit o k) * elemBytes ty ≤ unit.length

/-- A cell that the library can read: a positive repeat count, not a multiple of 8 for bits, and a non-empty array. -/
def CellIn (heap : Bool) (x : BinTable) (unit : List UInt8) (r c : Nat) : Prop :=
  let o := r * x.naxis1 + colStart x.tforms c
  match x.tforms[c]? with
  | some (.plain ty rep) => 0 < rep ∧ (ty = .X → rep % 8 ≠ 0)
  | some (.P ty) => heap = true → ArrayIn unit ty x.theap 4 o
  | some (.Q ty) => heap = true → ArrayIn unit ty x.theap 8 o
  | none => False

/-- A table all of whose cells in the columns `cols` can be read. -/
structure Readable (heap : Bool) (x : BinTable) (data : List UInt8) (start : Nat) (cols : List Nat) : Prop where
  width : x.naxis1 = total (x.tforms.map colBytes)
  small : x.naxis1 < 2 ^ 60
  file : data.length < 2 ^ 60
  size : start + x.naxis1 * x.naxis2 < 2 ^ 60
  nonempty : cols ≠ []
  increasing : cols.Pairwise (· < ·)
  valid : ∀ c ∈ cols, c < x.tforms.length
  cells : ∀ r < x.naxis2, ∀ c ∈ cols, CellIn heap x (data.drop start) r c

/-! ### Writing a table -/

/-- The bytes of a row, given its columns. -/
def rowBytes (row : List (List Cell)) : List UInt8 := row.flatMap (·.flatMap cellBytes)

/-- The bytes of the main table, given its rows. -/
def mainBytes (rows : List (List (List Cell))) : List UInt8 := rows.flatMap rowBytes

/-- The values of a row have the format of the columns. -/
def RowOk (ts : List TForm) (row : List (List Cell)) : Prop :=
  row.length = ts.length ∧
    ∀ (c : Nat) (cells : List Cell), row[c]? = some cells →
      ∃ ty rep, ts[c]? = some (TForm.plain ty rep) ∧ cells.length = count ty rep ∧ ∀ v ∈ cells, CellOk ty v

/-- The values of a table in order, with their column and their index. -/
def tableOf (rows : List (List (List Cell))) : List DataValue :=
  rows.flatMap fun row => row.zipIdx.flatMap fun (cells, c) => cells.zipIdx.map fun (v, i) => .cell c i v

/-- The column of a value. -/
def column? : DataValue → Option Nat
  | .cell c _ _ => some c
  | _ => none

/-! ### Selecting columns -/

/-- A selector designates a column: by its index, or by its name, which is that of the first column so named. -/
def Selects (x : BinTable) : TableData.ColumnId → Nat → Prop
  | .index i, c => c = i ∧ i < x.tforms.length
  | .name s, c => x.ttypes[c]? = some (some s) ∧ ∀ d < c, x.ttypes[d]? ≠ some (some s)

/-- `sel` are the columns, in order, designated by the selectors. -/
def Selected (x : BinTable) (cs : List TableData.ColumnId) (sel : List Nat) : Prop :=
  sel.Pairwise (· < ·) ∧ ∀ c, c ∈ sel ↔ ∃ id ∈ cs, Selects x id c

/-- The value belongs to one of these columns. -/
def inColumns (cols : List Nat) (v : DataValue) : Bool := (column? v).any (fun c => decide (c ∈ cols))

/-! ### Iterating -/

/-- The results of `n` calls of an iterator over `vs`. -/
def scan (vs : List DataValue) (n : Nat) : List (Res (Option DataValue)) :=
  (vs.take n).map (fun v => .ok (some v)) ++ List.replicate (n - vs.length) (.ok none)

end Fitsrs.Spec

namespace Fitsrs

/-- The results of `n` calls of `next`. -/
def TableData.run (p : Profile) : Nat → TableData → List (Res (Option DataValue))
  | 0, _ => []
  | n + 1, t => (t.next p).1 :: TableData.run p n (t.next p).2

/-- The state after `n` calls of `next`. -/
def TableData.after (p : Profile) : Nat → TableData → TableData
  | 0, t => t
  | n + 1, t => TableData.after p n (t.next p).2

/-- A call on a table. -/
inductive TableOp where
  | next
  | seek (row : Nat)

/-- The result of such a call. -/
inductive TableOut where
  | value (v : Res (Option DataValue))
  | sought (ok : Bool)
  | panicked
  deriving DecidableEq, Repr

/-- A call. -/
def TableData.op (p : Profile) (t : TableData) : TableOp → TableOut × TableData
  | .next => (.value (t.next p).1, (t.next p).2)
  | .seek r =>
    (match (t.seekToRow p r).1 with
      | .ok _ => .sought true
      | .err _ => .sought false
      | .panic => .panicked, (t.seekToRow p r).2)

/-- The results of a history of calls. -/
def TableData.ops (p : Profile) : TableData → List TableOp → List TableOut
  | _, [] => []
  | t, o :: os => (t.op p o).1 :: TableData.ops p (t.op p o).2 os

namespace Spec

/-- What a history of calls gives when `left` are the values left and `rows` are the values of each row. -/
def tableRun (rows : List (List DataValue)) : List DataValue → List TableOp → List TableOut
  | _, [] => []
  | left, .next :: os => .value (.ok left.head?) :: tableRun rows left.tail os
  | left, .seek r :: os =>
    if r < rows.length then .sought true :: tableRun rows (rows.drop r).flatten os
    else .sought false :: tableRun rows left os

end Spec

/-- The results of `n` calls of the row iterator, with the given fuel for each. -/
def TableRows.run (p : Profile) (fuel : Nat) : Nat → TableRows → List (Option (Res (Option (List DataValue))))
  | 0, _ => []
  | n + 1, t =>
    match t.next p fuel with
    | none => [none]
    | some (r, t') => some r :: TableRows.run p fuel n t'

end Fitsrs

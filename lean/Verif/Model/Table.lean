import Verif.Model.Iter
/-
Model of src/hdu/data/bintable/data.rs, row.rs and mod.rs: the values of a binary table.
-/

namespace Fitsrs

/-- The value part of `DataValue` (src/hdu/data/bintable/mod.rs:25-144).  Simplifications: bytes and characters are
represented by their code, floating-point numbers by their bit pattern. -/
inductive Cell where
  | logical (b : Bool)
  | bits (byte : Nat)
  | ubyte (n : Nat)
  | short (n : Int)
  | integer (n : Int)
  | long (n : Int)
  | char (n : Nat)
  | float (n : Nat)
  | double (n : Nat)
  | cfloat (re im : Nat)
  | cdouble (re im : Nat)
  deriving DecidableEq, Repr

/-- `DataValue` (src/hdu/data/bintable/mod.rs:25-144): a value with its column and its index in the column, or an
array descriptor. -/
inductive DataValue where
  | cell (column idx : Nat) (v : Cell)
  | vla32 (num offset : Nat)
  | vla64 (num offset : Nat)
  deriving DecidableEq, Repr

/-- The value decoded from the bytes of an element, the same in the main table and in the heap
(src/hdu/data/bintable/data.rs:485-592 and 615-796). -/
def Cell.ofBytes : ElemTy → List UInt8 → Cell
  | .L, bs => .logical (beNat bs != 0)
  | .X, bs => .bits (beNat bs)
  | .B, bs => .ubyte (beNat bs)
  | .I, bs => .short (toSigned 16 (beNat bs))
  | .J, bs => .integer (toSigned 32 (beNat bs))
  | .K, bs => .long (toSigned 64 (beNat bs))
  | .A, bs => .char (beNat bs)
  | .E, bs => .float (beNat bs)
  | .D, bs => .double (beNat bs)
  | .C, bs => .cfloat (beNat (bs.take 4)) (beNat (bs.drop 4))
  | .M, bs => .cdouble (beNat (bs.take 8)) (beNat (bs.drop 8))

/-- `x as usize` for an `i64`. -/
def asU64 (x : Int) : Nat := (x % 2 ^ 64).toNat

/-- `DataReaderState::HEAP` (src/hdu/data/bintable/data.rs:103-117). -/
structure HeapState where
  ty : ElemTy
  mainPos : Nat
  left : Nat
  num : Nat
  size : Nat
  deriving DecidableEq, Repr

/-- `TableData` (src/hdu/data/bintable/data.rs:125-158); `inHeap = none` is the state `MainTable`. -/
structure TableData where
  rd : Reader
  inHeap : Option HeapState
  cols : List Nat
  offsets : List Nat
  ctx : BinTable
  col : Nat
  item : Nat
  byteOffset : Nat
  mainSize : Nat
  startPos : Nat
  seekFirst : Bool
  row : Nat
  heap : Bool
  deriving DecidableEq, Repr

namespace TableData

/-- Offsets of the columns in a row (src/hdu/data/bintable/data.rs:203-212). -/
def columnOffsets (p : Profile) : List TForm → Nat → Res (List Nat)
  | [], _ => .ok []
  | t :: ts, acc => do
    let n ← t.numBytes p
    let a ← uadd p acc n
    let rest ← columnOffsets p ts a
    .ok (acc :: rest)

/-- `TableData::new` (src/hdu/data/bintable/data.rs:196-239). -/
def new (p : Profile) (rd : Reader) (ctx : BinTable) (startPos : Nat) : Res TableData := do
  let offsets ← columnOffsets p ctx.tforms 0
  let mainSize ← umul p ctx.naxis1 ctx.naxis2
  .ok { rd, inHeap := none, cols := List.range ctx.tforms.length, offsets, ctx, col := 0, item := 0, byteOffset := 0
        mainSize, startPos, seekFirst := false, row := 0, heap := true }

/-- `read_the_heap` (src/hdu/data/bintable/data.rs:241-243). -/
def readTheHeap (heap : Bool) (t : TableData) : TableData := { t with heap }

/-- `raw_bytes` (src/hdu/data/bintable/data.rs:165-173). -/
def rawBytes (p : Profile) (t : TableData) : Res (List UInt8) := do
  let n ← t.ctx.numBytes p
  slice p t.rd.data t.startPos n

/-- `ColumnId` (src/hdu/data/bintable/mod.rs:14-21). -/
inductive ColumnId where
  | index (i : Nat)
  | name (s : Str)

/-- Insertion in a sorted list. -/
def insertSorted (x : Nat) : List Nat → List Nat
  | [] => [x]
  | y :: ys => if x ≤ y then x :: y :: ys else y :: insertSorted x ys

/-- `sort_unstable` on indices. -/
def sort (l : List Nat) : List Nat := l.foldr insertSorted []

/-- The column a selector stands for (src/hdu/data/bintable/data.rs:258-279). -/
def resolve (ctx : BinTable) : ColumnId → Option Nat
  | .index i => if i ≥ ctx.tforms.length then none else some i
  | .name s => findFieldByTtype ctx.ttypes s

/-- `select_fields` (src/hdu/data/bintable/data.rs:255-287). -/
def selectFields (cs : List ColumnId) (t : TableData) : TableData :=
  { t with cols := sort (cs.filterMap (resolve t.ctx)), seekFirst := true }

/-- The relative offset computed by `seek_to_next_col` when there is another cell
(src/hdu/data/bintable/data.rs:308-324). -/
def nextOffset (p : Profile) (t : TableData) (col : Nat) : Res Int :=
  match t.cols[col]? with
  | none => .panic
  | some c =>
    match t.offsets[c]? with
    | none => .panic
    | some o =>
      if t.ctx.naxis1 = 0 then .panic
      else do
        let rel ← i64op p (asI64 o - (asI64 t.byteOffset).tmod (asI64 t.ctx.naxis1))
        if rel < 0 then i64op p (rel + asI64 t.ctx.naxis1) else .ok rel

/-- Seek and update the byte offset (src/hdu/data/bintable/data.rs:326-330). -/
def advance (p : Profile) (off : Int) (t : TableData) : Res Unit × TableData :=
  match t.rd.seekRelative off with
  | (.ok _, rd) =>
    match uadd p t.byteOffset (asU64 off) with
    | .ok b => (.ok (), { t with rd, byteOffset := b })
    | .err e => (.err e, { t with rd })
    | .panic => (.panic, { t with rd })
  | (.err e, rd) => (.err e, { t with rd })
  | (.panic, rd) => (.panic, { t with rd })

/-- The end of `seek_to_next_col`, once it is known whether this is the last column and the last row
(src/hdu/data/bintable/data.rs:298-330). -/
def seekNext (p : Profile) (lastCol lastRow : Bool) (t : TableData) : Res Unit × TableData :=
  let t := if lastCol then { t with row := t.row + 1 } else t
  if lastCol && lastRow then
    match i64op p (asI64 t.mainSize - asI64 t.byteOffset) with
    | .ok off => t.advance p off
    | .err e => (.err e, t)
    | .panic => (.panic, t)
  else
    let col := (t.col + 1) % t.cols.length
    let t := { t with col, item := 0 }
    match t.nextOffset p col with
    | .ok off => t.advance p off
    | .err e => (.err e, t)
    | .panic => (.panic, t)

/-- `seek_to_next_col` (src/hdu/data/bintable/data.rs:294-331). -/
def seekToNextCol (p : Profile) (t : TableData) : Res Unit × TableData :=
  match usub p t.cols.length 1, usub p t.ctx.naxis2 1 with
  | .ok lc, .ok lr => t.seekNext p (t.col == lc) (t.row == lr)
  | _, _ => (.panic, t)

/-- `seek_to_row` (src/hdu/data/bintable/data.rs:337-364). -/
def seekToRow (p : Profile) (idx : Nat) (t : TableData) : Res Unit × TableData :=
  if idx ≥ t.ctx.naxis2 then
    (.err (.static "The row index specified is > than the number of rows of the table"), t)
  else
    let t := { t with col := 0, row := idx, item := 0 }
    match t.cols[0]?.bind (t.offsets[·]?) with
    | none => (.panic, t)
    | some o =>
      match i64op p (asI64 idx * asI64 t.ctx.naxis1) >>= fun a => i64op p (a + asI64 o) with
      | .ok new =>
        match i64op p (- asI64 t.byteOffset) >>= fun a => i64op p (a + new) with
        | .ok off =>
          match t.rd.seekRelative off with
          | (.ok _, rd) => (.ok (), { t with rd, byteOffset := asU64 new })
          | (.err e, rd) => (.err e, { t with rd })
          | (.panic, rd) => (.panic, { t with rd })
        | .err e => (.err e, t)
        | .panic => (.panic, t)
      | .err e => (.err e, t)
      | .panic => (.panic, t)

/-- The relative offset computed by `jump_to_heap` (src/hdu/data/bintable/data.rs:395-401). -/
def heapOffset (p : Profile) (byteOffset theap offset : Nat) : Res Int := do
  let a ← i64op p (- asI64 byteOffset)
  let b ← i64op p (a + asI64 theap)
  i64op p (b + asI64 offset)

/-- `jump_to_heap` (src/hdu/data/bintable/data.rs:379-420), from the main table; it does nothing from the heap, where
it is never called. -/
def jumpToHeap (p : Profile) (ty : ElemTy) (offset num size : Nat) (t : TableData) : Res Unit × TableData :=
  match t.inHeap with
  | some _ => (.ok (), t)
  | none =>
    match heapOffset p t.byteOffset t.ctx.theap offset with
    | .ok off =>
      match t.rd.seekRelative off with
      | (.ok _, rd) =>
        match umul p num size with
        | .ok left => (.ok (), { t with rd, inHeap := some { ty, mainPos := t.rd.pos, left, num, size } })
        | .err e => (.err e, { t with rd })
        | .panic => (.panic, { t with rd })
      | (.err e, rd) => (.err e, { t with rd })
      | (.panic, rd) => (.panic, { t with rd })
    | .err e => (.err e, t)
    | .panic => (.panic, t)

/-- `jump_to_main_table` (src/hdu/data/bintable/data.rs:422-437). -/
def jumpToMainTable (t : TableData) : TableData :=
  match t.inHeap with
  | some h => { t with rd := t.rd.seekStart h.mainPos, inHeap := none }
  | none => t

/-- The result of `next` when its last step is a call followed by `.ok()?`: `None` if the call failed. -/
def finish (v : DataValue) (r : Res Unit × TableData) : Res (Option DataValue) × TableData :=
  match r with
  | (.ok _, t) => (.ok (some v), t)
  | (.err _, t) => (.ok none, t)
  | (.panic, t) => (.panic, t)

/-- `next` in the heap (src/hdu/data/bintable/data.rs:472-601). -/
def nextInHeap (p : Profile) (c : Nat) (h : HeapState) (t : TableData) : Res (Option DataValue) × TableData :=
  match usub p h.num (h.left / h.size) with
  | .ok idx =>
    match t.rd.readExact h.ty.bytes with
    | (.ok bs, rd) =>
      match usub p h.left h.ty.bytes with
      | .ok left =>
        let t := { t with rd, inHeap := some { h with left } }
        let v := DataValue.cell c idx (Cell.ofBytes h.ty bs)
        if left = 0 then finish v (t.jumpToMainTable.seekToNextCol p) else (.ok (some v), t)
      | .err _ => (.ok none, { t with rd })
      | .panic => (.panic, { t with rd })
    | (_, rd) => (.ok none, { t with rd })
  | .err _ => (.ok none, t)
  | .panic => (.panic, t)

/-- Number of values read in a column: the repeat count, or `repeat / 8 + 1` bytes for bits
(src/hdu/data/bintable/data.rs:622, 638, ...). -/
def itemCount : ElemTy → Nat → Nat
  | .X, r => r / 8 + 1
  | _, r => r

/-- `next` on a column of plain values (src/hdu/data/bintable/data.rs:609-796). -/
def nextPlain (p : Profile) (c : Nat) (ty : ElemTy) (rep : Nat) (t : TableData) :
    Res (Option DataValue) × TableData :=
  match t.rd.readExact ty.bytes with
  | (.ok bs, rd) =>
    let v := DataValue.cell c t.item (Cell.ofBytes ty bs)
    let t := { t with rd, byteOffset := t.byteOffset + ty.bytes, item := t.item + 1 }
    if t.item = itemCount ty rep then finish v (t.seekToNextCol p) else (.ok (some v), t)
  | (_, rd) => (.ok none, { t with rd })

/-- `next` on an array descriptor of `k + k` bytes (src/hdu/data/bintable/data.rs:797-853); `mk` builds the value
returned when the heap is not read. -/
def nextArray (p : Profile) (c : Nat) (ty : ElemTy) (k : Nat) (mk : Nat → Nat → DataValue) (t : TableData) :
    Res (Option DataValue) × TableData :=
  match t.rd.readExact (k + k) with
  | (.ok bs, rd) =>
    let num := beNat (bs.take k)
    let offset := beNat (bs.drop k)
    let t := { t with rd, byteOffset := t.byteOffset + (k + k) }
    if t.heap then
      match t.jumpToHeap p ty offset num ty.bytes with
      | (.ok _, t) =>
        match t.inHeap with
        | some h => t.nextInHeap p c h
        | none => (.ok none, t)
      | (.err _, t) => (.ok none, t)
      | (.panic, t) => (.panic, t)
    else finish (mk num offset) (t.seekToNextCol p)
  | (_, rd) => (.ok none, { t with rd })

/-- The seek to the first selected column (src/hdu/data/bintable/data.rs:459-468); `none` as a result: go on. -/
def toFirstCol (p : Profile) (c : Nat) (t : TableData) : Option (Res (Option DataValue)) × TableData :=
  if t.seekFirst then
    let t := { t with seekFirst := false }
    match t.offsets[c]? with
    | none => (some .panic, t)
    | some o =>
      match t.advance p (asI64 o) with
      | (.ok _, t) => (none, t)
      | (.err _, t) => (some (.ok none), t)
      | (.panic, t) => (some .panic, t)
  else (none, t)

/-- The main part of `next` (src/hdu/data/bintable/data.rs:471-857). -/
def nextAt (p : Profile) (c : Nat) (t : TableData) : Res (Option DataValue) × TableData :=
  match t.inHeap with
  | some h => t.nextInHeap p c h
  | none =>
    if t.byteOffset = t.mainSize then (.ok none, t)
    else
      match t.ctx.tforms[c]? with
      | none => (.panic, t)
      | some (.plain ty rep) => t.nextPlain p c ty rep
      | some (.P ty) => t.nextArray p c ty 4 .vla32
      | some (.Q ty) => t.nextArray p c ty 8 .vla64

/-- `TableData::next` (src/hdu/data/bintable/data.rs:455-858).  The two reads of complex values and array descriptors
are merged: when one of them fails the reader is left at the end in both cases.  The byte offset is not checked for
overflow when values are read, as it cannot exceed the size of the file. -/
def next (p : Profile) (t : TableData) : Res (Option DataValue) × TableData :=
  match t.cols[t.col]? with
  | none => (.panic, t)
  | some c =>
    match t.toFirstCol p c with
    | (some r, t) => (r, t)
    | (none, t) => t.nextAt p c

end TableData

/-- `Fits::get_data` for a binary table (src/fits.rs:96-105, src/hdu/data/bintable/data.rs:57-80): the table given by
`table_data`.  For a tile-compressed image it is the table of compressed tiles, whose arrays are not read
(src/hdu/data/bintable/tile_compressed/pixels.rs:73-114); the preparation of the pixels, which `get_data` does as well,
is left out. -/
def Fits.getTable (p : Profile) (f : Fits) (h : Hdu BinTable) : Res TableData := do
  let t ← TableData.new p f.rd h.header.xtension f.posStart
  .ok (if h.header.xtension.zImage.isSome then t.readTheHeap false else t)

/-- `TableRowData` (src/hdu/data/bintable/row.rs:8-12). -/
structure TableRows where
  data : TableData
  row : Nat
  deriving DecidableEq, Repr

namespace TableRows

/-- `TableRowData::new` (src/hdu/data/bintable/row.rs:15-17). -/
def new (data : TableData) : TableRows := { data, row := 0 }

/-- The loop of `next` (src/hdu/data/bintable/row.rs:50-57), with at most `fuel` turns; `none`: the loop has not
finished. -/
def collect (p : Profile) : (fuel : Nat) → (row : Nat) → TableData → List DataValue →
    Option (Res (Option (List DataValue)) × TableData)
  | 0, _, _, _ => none
  | fuel + 1, row, t, acc =>
    if t.row = row then
      match t.next p with
      | (.ok (some v), t) => collect p fuel row t (acc ++ [v])
      | (.ok none, t) => some (.ok none, t)
      | (.err e, t) => some (.err e, t)
      | (.panic, t) => some (.panic, t)
    else some (.ok (some acc), t)

/-- `TableRowData::next` (src/hdu/data/bintable/row.rs:46-60).  Simplification: the loop is given a fuel; `none` means
that it has not finished with that fuel. -/
def next (p : Profile) (fuel : Nat) (r : TableRows) : Option (Res (Option (List DataValue)) × TableRows) :=
  match collect p fuel r.row r.data [] with
  | none => none
  | some (.ok (some vs), t) => some (.ok (some vs), { data := t, row := r.row + 1 })
  | some (res, t) => some (res, { r with data := t })

end TableRows

end Fitsrs

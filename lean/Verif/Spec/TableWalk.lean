import Verif.Spec.TablePlain
/-
Which bytes are read when the cells of a list of columns are read one after the other, each at the first place where its
column is found.
-/

namespace Fitsrs.Spec

/-- The first place, at or after byte `b`, where the column that starts at byte `o` of rows of `w` bytes is found. -/
def land (w b o : Nat) : Nat := b + (o + w - b % w) % w

/-- Number of bytes read for a cell. -/
def bytesRead (x : BinTable) (c : Nat) : Nat :=
  match x.tforms[c]? with
  | some (.plain ty rep) => itemsRead (.plain ty rep) * elemBytes ty
  | _ => 0

/-- The values read for a cell of column `c` that is read from byte `s`. -/
def cellReads (x : BinTable) (c s : Nat) : List Visit :=
  match x.tforms[c]? with
  | some (.plain ty rep) => (List.range (itemsRead (.plain ty rep))).map fun i => ⟨c, i, ty, s + i * elemBytes ty⟩
  | _ => []

/-- The values read for cells of the columns `cs` after byte `b`. -/
def walk (x : BinTable) : Nat → List Nat → List Visit
  | _, [] => []
  | b, c :: cs =>
    cellReads x c (land x.naxis1 b (colStart x.tforms c)) ++
      walk x (land x.naxis1 b (colStart x.tforms c) + bytesRead x c) cs

/-- Where the last cell read ends. -/
def walkEnd (x : BinTable) : Nat → List Nat → Nat
  | b, [] => b
  | b, c :: cs => walkEnd x (land x.naxis1 b (colStart x.tforms c) + bytesRead x c) cs

/-- The same when the first cell is read from byte `s`, whatever is there. -/
def walkFrom (x : BinTable) (s : Nat) : List Nat → List Visit
  | [] => []
  | c :: cs => cellReads x c s ++ walk x (s + bytesRead x c) cs

def walkFromEnd (x : BinTable) (s : Nat) : List Nat → Nat
  | [] => s
  | c :: cs => walkEnd x (s + bytesRead x c) cs

/-- The columns, as often as there are rows from row `r` on. -/
def columnsFrom (x : BinTable) (cols : List Nat) (r : Nat) : List Nat :=
  (List.replicate (x.naxis2 - r) cols).flatten

/-- All the columns of the list hold plain values, at least one each. -/
def PlainIn (x : BinTable) (cols : List Nat) : Prop :=
  ∀ c ∈ cols, ∃ ty rep, x.tforms[c]? = some (.plain ty rep) ∧ 0 < rep

/-- The columns that the selectors designate, one after the other; those that designate none are skipped. -/
inductive Designated (x : BinTable) : List TableData.ColumnId → List Nat → Prop
  | nil : Designated x [] []
  | take {id : TableData.ColumnId} {c : Nat} {cs : List TableData.ColumnId} {l : List Nat} :
    Selects x id c → Designated x cs l → Designated x (id :: cs) (c :: l)
  | skip {id : TableData.ColumnId} {cs : List TableData.ColumnId} {l : List Nat} :
    (∀ c, ¬ Selects x id c) → Designated x cs l → Designated x (id :: cs) l

/-- The columns in the order in which they are read, as often as they are designated. -/
def ReadOrder (x : BinTable) (cs : List TableData.ColumnId) (cols : List Nat) : Prop :=
  cols.Pairwise (· ≤ ·) ∧ ∃ l, Designated x cs l ∧ cols.Perm l

end Fitsrs.Spec

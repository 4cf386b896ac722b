import Verif.Spec.Table
/-
Which bytes the scan of a table of plain values reads, whatever the repeat counts of its bit columns.
-/

namespace Fitsrs.Spec

/-- A value read in the scan of a table: column, index, type, and byte from the start of the data unit. -/
structure Visit where
  col : Nat
  item : Nat
  ty : ElemTy
  pos : Nat
deriving DecidableEq

/-- A column of bits whose repeat count is a multiple of 8: one byte more is read than the column has. -/
def isOver : TForm → Bool
  | .plain .X rep => rep % 8 == 0
  | _ => false

/-- Number of such columns among the first `c`. -/
def overBefore (ts : List TForm) (c : Nat) : Nat := ((ts.take c).filter isOver).length

/-- Number of values read in a column. -/
def itemsRead : TForm → Nat
  | .plain .X rep => rep / 8 + 1
  | .plain _ rep => rep
  | _ => 0

/-- The row from which the cell of row `r` and column `c` is taken: each cell read too far moves those after it by one
row. -/
def rowTaken (x : BinTable) (r c : Nat) : Nat :=
  r * (1 + overBefore x.tforms x.tforms.length) + overBefore x.tforms c

/-- The values read for a cell. -/
def cellVisits (x : BinTable) (r c : Nat) : List Visit :=
  match x.tforms[c]? with
  | some (.plain ty rep) => (List.range (itemsRead (.plain ty rep))).map fun i =>
      ⟨c, i, ty, rowTaken x r c * x.naxis1 + colStart x.tforms c + i * elemBytes ty⟩
  | _ => []

/-- The values read for a row. -/
def rowVisits (x : BinTable) (r : Nat) : List Visit := (List.range x.tforms.length).flatMap (cellVisits x r)

/-- The values that would be read in a long enough file. -/
def tableVisits (x : BinTable) : List Visit := (List.range x.naxis2).flatMap (rowVisits x)

/-- The value is read: it is in the file, and does not start just at the end of the main table. -/
def legible (x : BinTable) (unit : List UInt8) (v : Visit) : Bool :=
  decide (v.pos ≠ x.naxis1 * x.naxis2) && decide (v.pos + elemBytes v.ty ≤ unit.length)

/-- The value. -/
def Visit.value (unit : List UInt8) (v : Visit) : DataValue :=
  .cell v.col v.item (Cell.ofBytes v.ty (bytesAt unit v.pos (elemBytes v.ty)))

/-- All the columns hold plain values, at least one each. -/
def AllPlain (x : BinTable) : Prop :=
  ∀ c < x.tforms.length, ∃ ty rep, x.tforms[c]? = some (.plain ty rep) ∧ 0 < rep

end Fitsrs.Spec

import Verif.Spec.Tile
/-
Where a table stands after calls of `next` and `seek_to_row`, row by row.
-/

namespace Fitsrs.Spec

/-- The number of rows before the current one, and the values of the current row that have not been given.  After the last
row, the first number is the number of rows. -/
abbrev Place := Nat × List DataValue

/-- The place after an operation on a table with these rows. -/
def placeStep (rows : List (List DataValue)) (s : Place) : TableOp → Place
  | .next =>
    match s.2 with
    | [] => s
    | [_] => (s.1 + 1, rows[s.1 + 1]?.getD [])
    | _ :: v :: vs => (s.1, v :: vs)
  | .seek r => if r < rows.length then (r, rows[r]?.getD []) else s

/-- The place after several operations. -/
def placeAfter (rows : List (List DataValue)) : Place → List TableOp → Place
  | s, [] => s
  | s, o :: os => placeAfter rows (placeStep rows s o) os

/-- The rows given by an iterator over rows that is made at a place: an empty one for each row before it. -/
def rowsFrom (rows : List (List DataValue)) (s : Place) : List (List DataValue) :=
  List.replicate s.1 [] ++ if s.1 < rows.length then s.2 :: rows.drop (s.1 + 1) else []

/-- The place in the data unit of the bytes of a value of row `r`: in its cell, or in the heap if it is in an array, where the
descriptor of the array stands for the first element. -/
def valueOffset (x : BinTable) (unit : List UInt8) (r : Nat) : DataValue → Nat
  | .cell c i _ =>
    match x.tforms[c]? with
    | some (.plain ty _) => r * x.naxis1 + colStart x.tforms c + i * elemBytes ty
    | some (.P ty) | some (.Q ty) =>
      if i = 0 then r * x.naxis1 + colStart x.tforms c else x.theap + (descriptor x unit r c).2 + i * elemBytes ty
    | none => 0
  | _ => 0

/-- The place in the data unit of the next value; after the last row, that of the end of the main table. -/
def placeOffset (x : BinTable) (unit : List UInt8) (s : Place) : Nat :=
  match s.2 with
  | [] => s.1 * x.naxis1
  | v :: _ => valueOffset x unit s.1 v

end Fitsrs.Spec

namespace Fitsrs
open Spec

/-- The table after several operations. -/
def TableData.afterOps (p : Profile) (t : TableData) : List TableOp → TableData
  | [] => t
  | .next :: os => TableData.afterOps p (t.next p).2 os
  | .seek r :: os => TableData.afterOps p (t.seekToRow p r).2 os

end Fitsrs

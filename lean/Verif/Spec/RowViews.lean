import Verif.Model.RowViews
import Verif.Spec.Table
/-
The values that a program gets from the values and the rows of a table.
-/

namespace Fitsrs.Spec

/-- The values given by a call; `none` if the call says that there are no more, or fails. -/
def valuesGiven : Res ViewAnswer → Option (List DataValue)
  | .ok (.value (some v)) => some [v]
  | .ok (.row (some vs)) => some vs
  | .ok .unit => some []
  | _ => none

/-- A row is given. -/
def isRow : Res ViewAnswer → Bool
  | .ok (.row (some _)) => true
  | _ => false

/-- All these values, one after the other. -/
def allOf (vs : List DataValue) : List (Res (Option DataValue)) := vs.map fun v => .ok (some v)

end Fitsrs.Spec

import Verif.Model.Position
/-
The position of the data unit, from what a program has seen.
-/

namespace Fitsrs.Spec

/-- The HDU given by a call. -/
def hduGiven : Option (Res Seen) → Option HDU
  | some (.ok (.hdu (some h))) => some h
  | _ => none

/-- The HDU given by a call on any reader. -/
def rawGiven : RawOut → Option HDU
  | .hdu (some (.ok h)) => some h
  | _ => none

/-- After each call, where the data of the HDU given last begin, `last` being it before the first call. -/
def offsets : (last : Nat) → List (Option HDU) → List Nat
  | _, [] => []
  | _, some h :: os => h.dataOffset :: offsets h.dataOffset os
  | last, none :: os => last :: offsets last os

end Fitsrs.Spec

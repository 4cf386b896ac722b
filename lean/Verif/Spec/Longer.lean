import Verif.Model.Session
/-
Which results of a program on a truncated file can be relied on.
-/

namespace Fitsrs.Spec

/-- A result that is neither an error, nor an end, nor a panic, nor a byte of a table. -/
def Sure : Option (Res Seen) → Bool
  | some (.ok (.hdu (some _))) => true
  | some (.ok (.pixel (some _))) => true
  | some (.ok (.value (some _))) => true
  | some (.ok (.row (some _))) => true
  | some (.ok (.tilePixel (some _))) => true
  | some (.ok (.raw _)) => true
  | some (.ok .unit) => true
  | some (.ok .illTyped) => true
  | _ => false

/-- The same, with the bytes of tables. -/
def SureOrByte : Option (Res Seen) → Bool
  | some (.ok (.byte (some _))) => true
  | x => Sure x

/-- The bytes a decoder produces from more bytes begin with those it produces from fewer. -/
def Streaming (gz : Gunzip) : Prop := ∀ xs ys, gz xs <+: gz (xs ++ ys)

end Fitsrs.Spec

import Verif.Model.Session
import Verif.Spec.History
/-
What programs see of the HDUs of a file.
-/

namespace Fitsrs
open Spec

/-- The HDUs among what a program sees. -/
def hdusSeen (seen : List (Option (Res Seen))) : List HDU :=
  seen.filterMap fun
    | some (.ok (.hdu h)) => h
    | _ => none

/-- The HDUs returned by at most `n` calls of the iterator, when nothing else is done with the file. -/
def plainHdus (p : Profile) (n : Nat) (f : Fits) : List HDU :=
  (f.collect p n).filterMap fun
    | .ok h => some h
    | _ => none

/-- The number of times a program asks for an HDU. -/
def Call.asksHdu : Call → Bool
  | .hdu => true
  | _ => false

/-- The number of HDUs that a program has asked for when it has seen `seen`. -/
def asked (calls : List Call) (seen : List (Option (Res Seen))) : Nat :=
  (calls.take seen.length).countP Call.asksHdu

/-- The reader stands where it can be moved to the next HDU: within the data unit of the last HDU, or anywhere without
overflow checks, with offsets that fit in a signed 64-bit integer. -/
structure Ready (p : Profile) (f : Fits) : Prop where
  small : f.rd.pos < 2 ^ 63
  fits : f.posStart + roundUp2880 f.numBytes < 2 ^ 63
  inside : p = .checked → f.posStart ≤ f.rd.pos ∧ f.rd.pos ≤ f.posStart + f.numBytes

/-- Whenever a program asks for an HDU after the first one, the reader is ready. -/
def ReadyRun (p : Profile) (gz : Gunzip) (fuel : Nat) : List Call → Session → Prop
  | [], _ => True
  | c :: cs, s =>
    (c = .hdu → s.close.fits.start = true ∨ s.close.fits.errored = true ∨ Ready p s.close.fits) ∧
    match s.call p gz fuel c with
    | some (.ok _, s') => ReadyRun p gz fuel cs s'
    | some (.err _, s') => ReadyRun p gz fuel cs s'
    | _ => True

end Fitsrs

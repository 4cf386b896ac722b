import Verif.Spec.AsyncFail
import Verif.Spec.Pixels
/-
What a program on an asynchronous file knows from what it was told.
-/

namespace Fitsrs.Spec

/-- What the program was told about the HDUs. -/
def hduPolls : List AOut → List (StreamPoll AHdu)
  | [] => []
  | .hdu x :: os => x :: hduPolls os
  | .value _ :: os => hduPolls os
  | .nothing :: os => hduPolls os

/-- The number of bytes of the data unit of the last HDU of which the program was not given the value; `n` before the
answers of the list. -/
def leftAfter (p : Profile) : (n : Nat) → List AOut → Nat
  | n, [] => n
  | n, .hdu (.ready (some (.ok h))) :: os =>
    match h.dataSize p with
    | .ok sz => leftAfter p sz os
    | _ => leftAfter p n os
  | n, .value (.ready (some (.ok v))) :: os => leftAfter p (n - (pixelBytes v).length) os
  | n, _ :: os => leftAfter p n os

/-- The program polls for an HDU. -/
def isNext : AOp → Bool
  | .next => true
  | .value => false

/-- The stream of HDUs has failed. -/
def hduFailed : AOut → Bool
  | .hdu (.ready (some (.err _))) => true
  | _ => false

end Fitsrs.Spec

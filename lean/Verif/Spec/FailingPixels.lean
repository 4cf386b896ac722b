import Verif.Model.InputData
import Verif.Spec.Pixels
/-
Iterators over pixels whose reads may fail.
-/

namespace Fitsrs

/-- The reader after some calls, whatever they gave. -/
def Input.after {σ : Type} (S : Input σ) (p : Profile) : List RawCall → Input.File σ → Input.File σ
  | [], f => f
  | c :: cs, f => S.after p cs (S.raw p f c).2

/-- What `m` calls of an iterator over pixels give, on any reader.  (The calls do not panic: the model gives a panic to a read only if
the bound of its recursion were too small.) -/
def Input.pixels {σ : Type} (S : Input σ) : Nat → It → σ → List (Option Pixel)
  | 0, _, _ => []
  | m + 1, it, s =>
    match it.nextP.on S s with
    | ((.ok (v, it), _), s) => v :: S.pixels m it s
    | _ => []

namespace Spec

/-- Values read one after the other from the bytes of a file, from `pos` on; `left` is how many more calls there are before the
iteration is over.  A call that gives no value leaves out some bytes, fewer than a value has. -/
inductive PixelsFrom (b : Bitpix) (data : List UInt8) : (pos left : Nat) → List (Option Pixel) → Prop
  | nil (pos left : Nat) : PixelsFrom b data pos left []
  | over {pos : Nat} {out : List (Option Pixel)} (h : PixelsFrom b data pos 0 out) : PixelsFrom b data pos 0 (none :: out)
  | given {pos left : Nat} {out : List (Option Pixel)} (v : Pixel) (hv : PixelOk b v)
    (hb : pixelBytes v = (data.drop pos).take (pixelSize b)) (h : PixelsFrom b data (pos + pixelSize b) left out) :
    PixelsFrom b data pos (left + 1) (some v :: out)
  | lost {pos left : Nat} {out : List (Option Pixel)} (l : Nat) (hl : l < pixelSize b) (h : PixelsFrom b data (pos + l) left out) :
    PixelsFrom b data pos (left + 1) (none :: out)

end Spec
end Fitsrs

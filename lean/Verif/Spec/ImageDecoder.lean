import Verif.Model.ImageDecoder
import Verif.Spec.Pixels
/-
What an image decoder has to put in the buffer of its caller.  The types of iterators are taken from the model.
-/

namespace Fitsrs.Spec

/-- Sample `k` of a buffer of samples of `size` bytes. -/
def sampleAt (size : Nat) (buf : List UInt8) (k : Nat) : List UInt8 := (buf.drop (k * size)).take size

/-- The iterator has nothing more to give in the states that satisfy `ended`. -/
def Exhausted {σ : Type} (next : Source σ) (ended : σ → Prop) : Prop :=
  ∀ s, ended s → ∃ s', next s = some (.ok none, s') ∧ ended s'

/-- The iterator gives the samples `vs` one after the other, and is then exhausted. -/
inductive Yields {σ : Type} (next : Source σ) (ended : σ → Prop) : σ → List (List UInt8) → Prop
  | nil {s} : ended s → Yields next ended s []
  | cons {s s' v vs} : next s = some (.ok (some v), s') → Yields next ended s' vs → Yields next ended s (v :: vs)

/-- Planes of an image: a colour image has three. -/
def planes (rgb : Bool) : Nat := if rgb then 3 else 1

/-- Channels of a pixel, and bytes of a sample, for each colour type of the `image` crate. -/
def channels : ColorType → Nat
  | .l8 | .l16 => 1
  | .rgb8 | .rgb16 | .rgb32F => 3

def channelBytes : ColorType → Nat
  | .l8 | .rgb8 => 1
  | .l16 | .rgb16 => 2
  | .rgb32F => 4

/-- The axes of the images that can be shown: two axes, and possibly a third one of length 1 or 3. -/
def Shape (axes : List Nat) (w h : Nat) (rgb : Bool) : Prop :=
  (rgb = false ∧ (axes = [w, h] ∨ axes = [w, h, 1])) ∨ (rgb = true ∧ axes = [w, h, 3])

/-- An HDU that can be shown: an image that is not empty, or a compressed image. -/
def showable (p : Profile) : HDU → Bool
  | .primary x | .image x => decide (x.header.xtension.numBytes p ≠ .ok 0)
  | .binTable x => x.header.xtension.zImage.isSome
  | .asciiTable _ => false

/-- The image shown for an HDU. -/
def Shows : HDU → ImageKind → Prop
  | .primary x, k | .image x, k => k = .image x
  | .binTable x, k => k = .tiles x
  | .asciiTable _, _ => False

/-- The axes and the type of pixels of the image shown. -/
def ImageAxes : ImageKind → List Nat → Bitpix → Prop
  | .image x, ns, b => x.header.xtension.naxisn = ns ∧ x.header.xtension.bitpix = b
  | .tiles x, ns, b => ∃ z, x.header.xtension.zImage = some z ∧ z.zNaxisn = ns ∧ z.zBitpix = b

/-- The colour types: 8-bit and 16-bit integers keep their size, the other types become 32-bit colours. -/
def colorOf : Bitpix → Bool → ColorType
  | .u8, false => .l8
  | .u8, true => .rgb8
  | .i16, false => .l16
  | .i16, true => .rgb16
  | _, _ => .rgb32F

end Fitsrs.Spec

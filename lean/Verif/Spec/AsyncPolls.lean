import Verif.Model.Async
import Verif.Spec.Pixels
/-
Polling for the values of a data unit of an asynchronous source that may be late or fail at any point.
-/

namespace Fitsrs

/-- What `m` polls for a value give, whatever the ones before have given. -/
def St.polls (p : Profile) : (m : Nat) → St → List (StreamPoll Pixel)
  | 0, _ => []
  | m + 1, s => (s.pollNext p).1 :: St.polls p m (s.pollNext p).2

namespace Spec

/-- The values among what some polls have given. -/
def valuesOf : List (StreamPoll Pixel) → List Pixel
  | [] => []
  | .ready (some (.ok v)) :: xs => v :: valuesOf xs
  | _ :: xs => valuesOf xs

/-- A poll that gives neither a value nor the end: the source is late, or has failed. -/
def GivesNone (x : StreamPoll Pixel) : Prop := x = .pending ∨ ∃ e, x = .ready (some (.err e))

/-- Values made of bytes one after the other; `left` is how many values are to come.  A poll that gives no value leaves out some
bytes, fewer than a value has. -/
inductive PolledFrom (b : Bitpix) : (bytes : List UInt8) → (left : Nat) → List (StreamPoll Pixel) → Prop
  | nil (bytes : List UInt8) (left : Nat) : PolledFrom b bytes left []
  | over {bytes : List UInt8} {out : List (StreamPoll Pixel)} (h : PolledFrom b bytes 0 out) : PolledFrom b bytes 0 (.ready none :: out)
  | given {bytes : List UInt8} {left : Nat} {out : List (StreamPoll Pixel)} (v : Pixel) (hv : PixelOk b v)
    (hb : pixelBytes v = bytes.take (pixelSize b)) (h : PolledFrom b (bytes.drop (pixelSize b)) left out) :
    PolledFrom b bytes (left + 1) (.ready (some (.ok v)) :: out)
  | lost {bytes : List UInt8} {left : Nat} {x : StreamPoll Pixel} {out : List (StreamPoll Pixel)} (hx : GivesNone x) (l : Nat)
    (hl : l < pixelSize b) (h : PolledFrom b (bytes.drop l) (left + 1) out) : PolledFrom b bytes (left + 1) (x :: out)

/-- The source is late or fails only at some positions in the stream, `pos` being the position of the first event. -/
def StopsAt (S : Nat → Prop) : (pos : Nat) → List Event → Prop
  | _, [] => True
  | pos, .pending :: es => S pos ∧ StopsAt S pos es
  | pos, .fail _ :: es => S pos ∧ StopsAt S pos es
  | pos, .chunk _ bs :: es => StopsAt S (pos + (bs.length + 1)) es

/-- How often the source is late or fails. -/
def stops : List Event → Nat
  | [] => 0
  | .pending :: es => stops es + 1
  | .fail _ :: es => stops es + 1
  | .chunk _ _ :: es => stops es

end Spec
end Fitsrs

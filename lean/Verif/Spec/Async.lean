import Verif.Model.Async
import Verif.Spec.Hdu
/-
Schedules of an asynchronous source.
-/

namespace Fitsrs.Spec

/-- The number of times the source is not ready. -/
def pendings : List Event → Nat
  | [] => 0
  | .pending :: es => pendings es + 1
  | .fail _ :: es => pendings es
  | .chunk _ _ :: es => pendings es

/-- Bytes are delivered. -/
def isChunk : Event → Bool
  | .chunk _ _ => true
  | _ => false

/-- The source fails. -/
def isFail : Event → Bool
  | .fail _ => true
  | _ => false

/-- The source is always ready, and never fails. -/
def Ready (es : List Event) : Prop := ∀ e ∈ es, isChunk e = true

instance (es : List Event) : Decidable (Ready es) := inferInstanceAs (Decidable (∀ e ∈ es, isChunk e = true))

/-- The source never fails. -/
def Healthy (es : List Event) : Prop := ∀ e ∈ es, isFail e = false

instance (es : List Event) : Decidable (Healthy es) := inferInstanceAs (Decidable (∀ e ∈ es, isFail e = false))

/-- The source never fails, and is not ready only at some positions in the stream, `pos` being the position of the first
event. -/
def PendingsAt (S : Nat → Prop) : (pos : Nat) → List Event → Prop
  | _, [] => True
  | pos, .pending :: es => S pos ∧ PendingsAt S pos es
  | _, .fail _ :: _ => False
  | pos, .chunk _ bs :: es => PendingsAt S (pos + bs.length + 1) es

/-- A source that delivers the given buffers one after the other; an empty one stands for a delay. -/
def deliver : List (List UInt8) → List Event
  | [] => []
  | [] :: bufs => .pending :: deliver bufs
  | (b :: bs) :: bufs => .chunk b bs :: deliver bufs

end Fitsrs.Spec

namespace Fitsrs
open Spec

/-- What an asynchronous HDU keeps of an HDU: its kind and its header. -/
def HDU.forget : HDU → AHdu
  | .primary h => .primary h.header
  | .image h => .image h.header
  | .binTable h => .binTable h.header
  | .asciiTable h => .asciiTable h.header

/-- The stream of the values of an HDU that has just been returned. -/
def AFits.dataOf (f : AFits) : AHdu → St
  | .primary h | .image h => f.getImage h
  | .binTable _ | .asciiTable _ => f.getBytes

/-- Taking `k` values. -/
def St.takeN (p : Profile) : Nat → St → St
  | 0, s => s
  | k + 1, s => St.takeN p k (s.pollNext p).2

/-- Walking the HDUs, and taking a number of values of each (the successive numbers of the list), with a source that is
always ready.  Returns the HDUs up to the end of the stream, a failure, a delay or a panic. -/
def AFits.collectTaking (p : Profile) : List Nat → AFits → List AHdu
  | [], _ => []
  | k :: ks, f =>
    match f.pollNext p with
    | (.ready (some (.ok h)), f) => h :: collectTaking p ks (f.giveBack ((f.dataOf h).takeN p k))
    | _ => []

/-- The two readers give the same HDU, or both fail, or both panic. -/
inductive Agree : Res HDU → Res AHdu → Prop
  | ok (h : HDU) : Agree (.ok h) (.ok h.forget)
  | err (e e' : Err) : Agree (.err e) (.err e')
  | panic : Agree .panic .panic

/-- Two sequences of items that agree one by one. -/
inductive SameItems : List (Res HDU) → List (Res AHdu) → Prop
  | nil : SameItems [] []
  | cons {x y xs ys} : Agree x y → SameItems xs ys → SameItems (x :: xs) (y :: ys)

/-- The data unit of an HDU is in the file, and after its last block there is nothing, or a whole record. -/
structure CompleteIn (p : Profile) (data : List UInt8) (h : HDU) : Prop where
  size : ∀ sz, h.dataSize p = .ok sz → h.dataOffset + sz ≤ data.length
  rest : ∀ sz, h.dataSize p = .ok sz → data.length ≤ h.dataOffset + roundUp2880 sz ∨
    h.dataOffset + roundUp2880 sz + 80 ≤ data.length

/-- If the first card of a header is a true logical value, it is named `SIMPLE`. -/
def FirstSimple (data : List UInt8) : Prop :=
  ∀ name c, recordCard (recordAt data 0 0) = .ok (.value name (.logical true c)) → name = "SIMPLE".toList

end Fitsrs

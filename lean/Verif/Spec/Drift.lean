import Verif.Model.InputData
import Verif.Spec.Pixels
/-
Calls of an iterator over pixels whose reads may fail, and the place that its values come from.
-/

namespace Fitsrs
open Spec

/-- What calls of `next` and `read_value` give, on any reader. -/
def Input.pixelCalls {σ : Type} (S : Input σ) (p : Profile) : List PixelOp → It → σ → List PixelOut
  | [], _, _ => []
  | .next :: ops, it, s =>
    match it.nextP.on S s with
    | ((.ok (v, it), _), s) => .item v :: S.pixelCalls p ops it s
    | _ => [.panicked]
  | .read i :: ops, it, s =>
    match (it.readValueP p i).on S s with
    | ((.ok (.ok v, it), _), s) => .value (some v) :: S.pixelCalls p ops it s
    | ((.ok (.err _, it), _), s) => .value none :: S.pixelCalls p ops it s
    | _ => [.panicked]

namespace Spec

/-- The pixel that a call asks for. -/
def asked (cur : Nat) : PixelOp → Nat
  | .next => cur
  | .read i => i

/-- What a call gives. -/
def answer : PixelOp → Option Pixel → PixelOut
  | .next, v => .item v
  | .read _, v => .value v

/-- The values of an image of `n` pixels whose data unit begins at `start`, read `drift` bytes away from their places.  A read that fails
adds to the drift: the bytes that it has taken, less those of a pixel. -/
inductive Drifting (b : Bitpix) (data : List UInt8) (start n : Nat) : (cur : Nat) → (drift : Int) → List PixelOp → List PixelOut → Prop
  | nil (cur : Nat) (drift : Int) : Drifting b data start n cur drift [] []
  | over {drift : Int} {ops : List PixelOp} {out : List PixelOut} (h : Drifting b data start n n drift ops out) :
    Drifting b data start n n drift (.next :: ops) (.item none :: out)
  | outside {cur : Nat} {drift : Int} {i : Nat} {ops : List PixelOp} {out : List PixelOut} (hi : n ≤ i)
    (h : Drifting b data start n cur drift ops out) : Drifting b data start n cur drift (.read i :: ops) (.value none :: out)
  | refused {cur : Nat} {drift : Int} {i : Nat} {ops : List PixelOp} {out : List PixelOut}
    (hi : (start : Int) + (i * pixelSize b : Nat) + drift < 0) (h : Drifting b data start n cur drift ops out) :
    Drifting b data start n cur drift (.read i :: ops) (.value none :: out)
  | given {cur : Nat} {drift : Int} {op : PixelOp} {ops : List PixelOp} {out : List PixelOut} (hi : asked cur op < n) (pos : Nat)
    (hp : (pos : Int) = start + (asked cur op * pixelSize b : Nat) + drift) (v : Pixel) (hv : PixelOk b v)
    (hb : pixelBytes v = (data.drop pos).take (pixelSize b)) (h : Drifting b data start n (asked cur op + 1) drift ops out) :
    Drifting b data start n cur drift (op :: ops) (answer op (some v) :: out)
  | lost {cur : Nat} {drift : Int} {op : PixelOp} {ops : List PixelOp} {out : List PixelOut} (hi : asked cur op < n) (l : Nat)
    (hl : l < pixelSize b) (h : Drifting b data start n (asked cur op + 1) (drift + l - pixelSize b) ops out) :
    Drifting b data start n cur drift (op :: ops) (answer op none :: out)

end Spec
end Fitsrs

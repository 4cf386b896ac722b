import Verif.Model.Iter
/-
How pixels are written in a FITS file, and what a random access iterator is.  The types `Pixel` and `Bitpix` are
taken from the model.
-/

namespace Fitsrs.Spec

/-- Bytes of a pixel of each type. -/
def pixelSize : Bitpix → Nat
  | .u8 => 1 | .i16 => 2 | .i32 => 4 | .i64 => 8 | .f32 => 4 | .f64 => 8

/-- A pixel of type `b`, in range. -/
def PixelOk : Bitpix → Pixel → Prop
  | .u8, .u8 n => n < 2 ^ 8
  | .i16, .i16 n => -(2 ^ 15) ≤ n ∧ n < 2 ^ 15
  | .i32, .i32 n => -(2 ^ 31) ≤ n ∧ n < 2 ^ 31
  | .i64, .i64 n => -(2 ^ 63) ≤ n ∧ n < 2 ^ 63
  | .f32, .f32 n => n < 2 ^ 32
  | .f64, .f64 n => n < 2 ^ 64
  | _, _ => False

instance (b : Bitpix) (v : Pixel) : Decidable (PixelOk b v) := by
  cases b <;> cases v <;> unfold PixelOk <;> infer_instance

/-- The last `k` base-256 digits of a number, most significant first. -/
def bigEndian : Nat → Nat → List UInt8
  | 0, _ => []
  | k + 1, n => bigEndian k (n / 256) ++ [UInt8.ofNat (n % 256)]

/-- The bytes of a pixel (FITS 5.1-5.3): big-endian, two's complement for signed integers, IEEE-754 for
floating-point numbers. -/
def pixelBytes : Pixel → List UInt8
  | .u8 n => bigEndian 1 n
  | .i16 n => bigEndian 2 (n % 2 ^ 16).toNat
  | .i32 n => bigEndian 4 (n % 2 ^ 32).toNat
  | .i64 n => bigEndian 8 (n % 2 ^ 64).toNat
  | .f32 n => bigEndian 4 n
  | .f64 n => bigEndian 8 n

/-- The bytes of an array of pixels. -/
def arrayBytes (ps : List Pixel) : List UInt8 := ps.flatMap pixelBytes

/-- Operations on a pixel iterator. -/
inductive PixelOp where
  | next
  | read (i : Nat)

/-- What the operations return: `next` may return nothing, `read` an error. -/
inductive PixelOut where
  | item (v : Option Pixel)
  | value (v : Option Pixel)
  | panicked
  deriving DecidableEq

/-- A sequence of pixels with a cursor, the behaviour expected of the iterator: `next` returns the pixel at the
cursor, `read i` pixel `i` if there is one, and the cursor moves after the pixel returned. -/
def pixelStep (ps : List Pixel) (cursor : Nat) : PixelOp → PixelOut × Nat
  | .next => (.item ps[cursor]?, if cursor < ps.length then cursor + 1 else cursor)
  | .read i => (.value ps[i]?, if i < ps.length then i + 1 else cursor)

/-- The results of a sequence of operations. -/
def pixelRun (ps : List Pixel) : Nat → List PixelOp → List PixelOut
  | _, [] => []
  | c, o :: os => (pixelStep ps c o).1 :: pixelRun ps (pixelStep ps c o).2 os

/-- The cursor after a sequence of operations. -/
def pixelAfter (ps : List Pixel) : Nat → List PixelOp → Nat
  | c, [] => c
  | c, o :: os => pixelAfter ps (pixelStep ps c o).2 os

end Fitsrs.Spec

namespace Fitsrs
open Spec

/-- An operation on the iterator of the model. -/
def It.step (p : Profile) (it : It) : PixelOp → PixelOut × It
  | .next => (.item it.next.1, it.next.2)
  | .read i =>
    (match (it.readValue p i).1 with
      | .ok v => .value (some v)
      | .err _ => .value none
      | .panic => .panicked, (it.readValue p i).2)

/-- The results of a sequence of operations on the iterator of the model. -/
def It.run (p : Profile) : It → List PixelOp → List PixelOut
  | _, [] => []
  | it, o :: os => (it.step p o).1 :: It.run p (it.step p o).2 os

/-- The state after a sequence of operations. -/
def It.after (p : Profile) : It → List PixelOp → It
  | it, [] => it
  | it, o :: os => It.after p (it.step p o).2 os

end Fitsrs

namespace Fitsrs.Spec

/-- Does a sequence of operations ask for one of the pixels that are announced (`n`) but not in the file, which has
only the pixels `ps`? -/
def asksMissing (ps : List Pixel) (n : Nat) : Nat → List PixelOp → Prop
  | _, [] => False
  | c, .next :: os => (ps.length ≤ c ∧ c < n) ∨ asksMissing ps n (pixelStep ps c .next).2 os
  | c, .read i :: os => (ps.length ≤ i ∧ i < n) ∨ asksMissing ps n (pixelStep ps c (.read i)).2 os

end Fitsrs.Spec

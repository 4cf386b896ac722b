import Verif.Model.Rice
/-
The RICE_1 format of 32-bit integers (FITS 10.4.1), independently of the way it is decoded.
-/

namespace Fitsrs.Spec

/-- The `w` lowest bits of a number, most significant first. -/
def bitsOf : Nat → Nat → List Bool
  | 0, _ => []
  | w + 1, n => decide (n / 2 ^ w % 2 = 1) :: bitsOf w n

/-- The bits of a list of bytes. -/
def byteBits (bytes : List UInt8) : List Bool := bytes.flatMap (fun b => bitsOf 8 b.toNat)

/-- The 32-bit signed integer equal to `x` modulo `2^32`. -/
def wrap32 (x : Int) : Int := (x + 2 ^ 31) % 2 ^ 32 - 2 ^ 31

/-- Mapping of signed to unsigned numbers: 0, -1, 1, -2, 2 ... to 0, 1, 2, 3, 4 ... -/
def zigzag (d : Int) : Nat := if 0 ≤ d then (2 * d).toNat else (-2 * d - 1).toNat

/-- The differences of a list of pixels with the pixel before, mapped to unsigned numbers. -/
def diffs : Int → List Int → List Nat
  | _, [] => []
  | last, v :: vs => zigzag (wrap32 (v - last)) :: diffs v vs

/-- How a block is coded: no difference at all, differences split after their `fs` lowest bits, differences as they
are. -/
inductive Coding where
  | low
  | split (fs : Nat)
  | high
  deriving DecidableEq, Repr

/-- The codings that the format permits for some differences. -/
def Coding.Permits : Coding → List Nat → Prop
  | .low, ds => ∀ d ∈ ds, d = 0
  | .split fs, _ => fs ≤ 24
  | .high, _ => True

/-- A difference split after its `fs` lowest bits: the upper part in unary, then the lower part. -/
def splitBits (fs d : Nat) : List Bool := List.replicate (d / 2 ^ fs) false ++ true :: bitsOf fs d

/-- The bits of a block. -/
def blockBits : Coding → List Nat → List Bool
  | .low, _ => bitsOf 5 0
  | .split fs, ds => bitsOf 5 (fs + 1) ++ ds.flatMap (splitBits fs)
  | .high, ds => bitsOf 5 26 ++ ds.flatMap (bitsOf 32)

/-- The bits code the pixels, by blocks of `nblock` pixels (the last one may be shorter), after the pixel `last`. -/
inductive Blocks (nblock : Nat) : Int → List Int → List Bool → Prop
  | nil {last : Int} : Blocks nblock last [] []
  | block {last : Int} {block rest : List Int} {bits : List Bool} (c : Coding) (h0 : block ≠ [])
    (h1 : block.length = nblock ∨ (block.length ≤ nblock ∧ rest = [])) (h2 : c.Permits (diffs last block))
    (h3 : Blocks nblock (block.getLast h0) rest bits) :
    Blocks nblock last (block ++ rest) (blockBits c (diffs last block) ++ bits)

/-- The bytes code the pixels: the first pixel as it is, then all the pixels by blocks, then anything. -/
def IsRice (nblock : Nat) (pixels : List Int) (bytes : List UInt8) : Prop :=
  ∃ first bits pad, pixels.head? = some first ∧ Blocks nblock first pixels bits ∧
    byteBits bytes = bitsOf 32 (first % 2 ^ 32).toNat ++ bits ++ pad

/-- 32-bit signed integers. -/
def InI32 (v : Int) : Prop := -(2 ^ 31) ≤ v ∧ v < 2 ^ 31

/-- Consecutive pixels differ by less than `2^30 - 8`. -/
def Smooth : List Int → Prop
  | a :: b :: vs => (b - a).natAbs < 2 ^ 30 - 8 ∧ Smooth (b :: vs)
  | _ => True

end Fitsrs.Spec

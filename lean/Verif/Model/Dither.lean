/-
Model of src/hdu/data/bintable/tile_compressed/dithering.rs: the random numbers of subtractive dithering.
Non-negative floating-point numbers are dyadic rationals, rounded to nearest even after each operation.
-/

namespace Fitsrs

/-- The non-negative number `m * 2^e`.  Simplification: the range of the exponent is not bounded; the numbers occurring
here are far from overflow and underflow. -/
structure Dyadic where
  m : Nat
  e : Int
  deriving DecidableEq, Repr

namespace Dyadic

/-- The exponent `k` with `2^k ≤ num / den < 2^(k+1)`, for positive numbers. -/
def exponent (num den : Nat) : Int :=
  let k : Int := (num.log2 : Int) - den.log2
  if den * 2 ^ k.toNat ≤ num * 2 ^ (-k).toNat then k else k - 1

/-- `n / d` rounded to the nearest integer, to the even one in the middle. -/
def nearest (n d : Nat) : Nat :=
  if 2 * (n % d) > d ∨ (2 * (n % d) = d ∧ n / d % 2 = 1) then n / d + 1 else n / d

/-- `num / den` rounded to `prec` significant bits: 53 for `f64`, 24 for `f32`. -/
def round (prec num den : Nat) : Dyadic :=
  if num = 0 then ⟨0, 0⟩
  else
    let e := exponent num den - (prec - 1 : Int)
    ⟨nearest (num * 2 ^ (-e).toNat) (den * 2 ^ e.toNat), e⟩

/-- The integer part. -/
def floor (x : Dyadic) : Nat := x.m * 2 ^ x.e.toNat / 2 ^ (-x.e).toNat

/-- `x as f32` for an `f64`. -/
def toF32 (x : Dyadic) : Dyadic :=
  let y := round 24 x.m 1
  ⟨y.m, y.e + x.e⟩

/-- `x * n` for an `f32` and a constant `f32`. -/
def mulF32 (x : Dyadic) (n : Nat) : Dyadic :=
  let y := round 24 (x.m * n) 1
  ⟨y.m, y.e + x.e⟩

/-- The number is less than 1. -/
def LtOne (x : Dyadic) : Prop := x.m * 2 ^ x.e.toNat < 2 ^ (-x.e).toNat

end Dyadic

namespace Dither

/-- `N_RANDOM` (src/hdu/data/bintable/tile_compressed/dithering.rs:1). -/
def nRandom : Nat := 10000

/-- The modulus (src/hdu/data/bintable/tile_compressed/dithering.rs:7). -/
def modulus : Nat := 2147483647

/-- The next seed (src/hdu/data/bintable/tile_compressed/dithering.rs:14-15).  Simplification: the products and the
difference are exact, as they are integers less than `2^53` (lemma `Dither.exact`); the quotient is rounded, then
truncated to an `i32`, saturating. -/
def nextSeed (seed : Nat) : Nat :=
  let temp := 16807 * seed
  temp - modulus * min ((Dyadic.round 53 temp modulus).floor) (2 ^ 31 - 1)

/-- The seed after `k` turns of the loop (src/hdu/data/bintable/tile_compressed/dithering.rs:8-19). -/
def seed : Nat → Nat
  | 0 => 1
  | k + 1 => nextSeed (seed k)

/-- `RAND_VALUES[i]` (src/hdu/data/bintable/tile_compressed/dithering.rs:16, 24), for `i < N_RANDOM`. -/
def rand (i : Nat) : Dyadic := (Dyadic.round 53 (seed (i + 1)) modulus).toF32

/-- The index of the first random number used for a tile
(src/hdu/data/bintable/tile_compressed/pixels.rs:541, 546, 720, 725). -/
def first (i0 : Nat) : Nat := ((rand i0).mulF32 500).floor

end Dither

end Fitsrs

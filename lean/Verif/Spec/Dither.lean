/-
Correct rounding to floating-point numbers (IEEE 754, round to nearest, ties to even), without bounds on the exponent.
-/

namespace Fitsrs.Spec

/-- The number `m * 2^e` is `num / den` rounded to `prec` bits: the exponent is that of a number of `prec` bits, the distance
is at most half a unit of the last place, and `m` is even when it is half a unit.  (`m` may be `2^prec` after rounding
up.) -/
structure Rounded (prec num den m : Nat) (e : Int) : Prop where
  low : 2 ^ (prec - 1) * (den * 2 ^ e.toNat) ≤ num * 2 ^ (-e).toNat
  high : num * 2 ^ (-e).toNat < 2 ^ prec * (den * 2 ^ e.toNat)
  above : 2 * m * (den * 2 ^ e.toNat) ≤ 2 * (num * 2 ^ (-e).toNat) + den * 2 ^ e.toNat
  below : 2 * (num * 2 ^ (-e).toNat) ≤ (2 * m + 1) * (den * 2 ^ e.toNat)
  tieAbove : 2 * m * (den * 2 ^ e.toNat) = 2 * (num * 2 ^ (-e).toNat) + den * 2 ^ e.toNat → m % 2 = 0
  tieBelow : 2 * (num * 2 ^ (-e).toNat) = (2 * m + 1) * (den * 2 ^ e.toNat) → m % 2 = 0

end Fitsrs.Spec

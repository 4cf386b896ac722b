import Verif.Spec.Tile
/-
Decompressions and iterations over compressed images that come to an end.
-/

namespace Fitsrs

/-- The decoding of a tile of `n` pixels by blocks of `nblock` ends: from some number of turns of its loop on, more turns
do not matter. -/
def Spec.RiceEnds (p : Profile) (nblock n : Nat) (bytes : List UInt8) : Prop := ∃ k, ∀ fuel, k ≤ fuel → Rice.tile p fuel nblock n bytes ≠ none

/-- One of the calls of `next` gives no pixel: `None`, or it panics.  Each of these calls finishes its loops. -/
def TileIt.Ends (p : Profile) (gz : Gunzip) (it : TileIt) : Prop :=
  ∃ fuel n r, some r ∈ it.run p gz fuel n ∧ none ∉ it.run p gz fuel n ∧ ∀ x, r ≠ .ok (some x)

/-- The tiles are not too large for the indices of the RICE decoder, which are signed numbers of 32 bits. -/
def Spec.RiceFits (nblock n : Nat) : Prop := n + nblock ≤ 2 ^ 31 ∧ n < 2 ^ 31

end Fitsrs

import Verif.Model.Session
/-
How far the calls on a data unit can move the reader.
-/

namespace Fitsrs.Spec
open Fitsrs

/-- The descriptors of a binary table are of 32 bits, and its rows, its columns, and the start of its heap with the 4 GB that a
descriptor can add, are within `M` bytes; if it is a compressed image, so are `K` rows. -/
structure TableReach (K M : Nat) (x : BinTable) : Prop where
  noQ : ∀ ty, .Q ty ∉ x.tforms
  theap : x.theap + 2 ^ 32 ≤ M
  main : x.naxis1 * x.naxis2 ≤ M
  cols : ∀ l, TableData.columnOffsets .wrapping x.tforms 0 = .ok l → ∀ o ∈ l, o + x.naxis1 * (x.naxis2 + 1) ≤ M
  tiles : x.zImage ≠ none → K * x.naxis1 ≤ M

/-- A call on the data of the HDU moves the reader by at most `M` bytes forwards, or by `M` bytes from the place where it found
it in a data unit that it leaves: its data unit with its fill has at most `M` bytes, and so it is for what a table designates.
`K` is a number of calls. -/
def Reach (K M : Nat) (h : HDU) : Prop :=
  (∀ n, h.dataSize .wrapping = .ok n → n + 2880 ≤ M) ∧ ∀ t, h = .binTable t → TableReach K M t.header.xtension

end Fitsrs.Spec

import Verif.Spec.Table
/-
Iterations over the values and the rows of a table that come to an end.
-/

namespace Fitsrs

/-- One of the calls of `next` gives no value: `None`, or it panics. -/
def TableData.Ends (p : Profile) (t : TableData) : Prop := ∃ n r, r ∈ t.run p n ∧ ∀ v, r ≠ .ok (some v)

/-- The same for rows; each of these calls finishes its loop. -/
def TableRows.Ends (p : Profile) (t : TableRows) : Prop :=
  ∃ fuel n r, some r ∈ t.run p fuel n ∧ none ∉ t.run p fuel n ∧ ∀ vs, r ≠ .ok (some vs)

end Fitsrs

import Verif.Model.Basic
/-
Helper lemmas: outcomes, machine arithmetic, reader.
-/

namespace Fitsrs

namespace Res

theorem map_eq_ok {α β : Type} {f : α → β} {r : Res α} {b : β} :
    r.map f = ok b ↔ ∃ a, r = ok a ∧ f a = b := by
  cases r <;> simp [map]

theorem map_eq_err {α β : Type} {f : α → β} {r : Res α} {e : Err} :
    r.map f = err e ↔ r = err e := by
  cases r <;> simp [map]

theorem map_eq_panic {α β : Type} {f : α → β} {r : Res α} :
    r.map f = panic ↔ r = panic := by
  cases r <;> simp [map]

theorem bind_eq_ok {α β : Type} {f : α → Res β} {r : Res α} {b : β} :
    (r >>= f) = ok b ↔ ∃ a, r = ok a ∧ f a = ok b := by
  cases r <;> simp

theorem bind_eq_panic {α β : Type} {f : α → Res β} {r : Res α} :
    (r >>= f) = panic ↔ r = panic ∨ ∃ a, r = ok a ∧ f a = panic := by
  cases r <;> simp

theorem bind_eq_err {α β : Type} {f : α → Res β} {r : Res α} {e : Err} :
    (r >>= f) = err e ↔ r = err e ∨ ∃ a, r = ok a ∧ f a = err e := by
  cases r <;> simp

end Res

theorem umul_ok {p : Profile} {a b : Nat} (h : a * b < two64) : umul p a b = .ok (a * b) := by
  simp [umul, h]

theorem uadd_ok {p : Profile} {a b : Nat} (h : a + b < two64) : uadd p a b = .ok (a + b) := by
  simp only [uadd, h, if_true]

theorem usub_ok {p : Profile} {a b : Nat} (h : b ≤ a) : usub p a b = .ok (a - b) := by
  simp [usub, h]

theorem umul_not_err {p : Profile} {a b : Nat} {e : Err} : umul p a b ≠ .err e := by
  unfold umul; split <;> (try cases p) <;> simp

theorem uadd_not_err {p : Profile} {a b : Nat} {e : Err} : uadd p a b ≠ .err e := by
  unfold uadd; split <;> (try cases p) <;> simp

theorem usub_not_err {p : Profile} {a b : Nat} {e : Err} : usub p a b ≠ .err e := by
  unfold usub; split <;> (try cases p) <;> simp

namespace Reader

theorem readExact_ok_iff {n : Nat} {r : Reader} {s : List UInt8} {r' : Reader} :
    r.readExact n = (.ok s, r') ↔
      s = (r.data.drop r.pos).take n ∧ s.length = n ∧ r' = { r with pos := r.pos + n } := by
  unfold readExact
  simp only
  split
  · rename_i h
    constructor
    · intro h'
      simp only [Prod.mk.injEq, Res.ok.injEq] at h'
      exact ⟨h'.1.symm, h'.1 ▸ h, h'.2.symm⟩
    · rintro ⟨rfl, -, rfl⟩; rfl
  · rename_i h
    constructor
    · intro h'; simp at h'
    · rintro ⟨rfl, h', -⟩; exact absurd h' h

theorem readExact_of_le {n : Nat} {r : Reader} (h : r.pos + n ≤ r.data.length) :
    r.readExact n = (.ok ((r.data.drop r.pos).take n), { r with pos := r.pos + n }) := by
  rw [readExact_ok_iff]
  refine ⟨rfl, ?_, rfl⟩
  simp [List.length_take, List.length_drop]; omega

theorem readExact_of_gt {n : Nat} {r : Reader} (hn : 0 < n) (h : r.data.length < r.pos + n) :
    r.readExact n =
      (.err (.io .unexpectedEof), { r with pos := max r.pos r.data.length }) := by
  unfold readExact
  have : ¬ ((r.data.drop r.pos).take n).length = n := by
    simp [List.length_take, List.length_drop]; omega
  simp only [this, if_false]

/-- Reading exactly the block `B` that follows the prefix `A`. -/
theorem readExact_append (A B C : List UInt8) (pos : Nat) (hp : pos = A.length) :
    readExact B.length ⟨A ++ B ++ C, pos⟩ = (.ok B, ⟨A ++ B ++ C, A.length + B.length⟩) := by
  subst hp
  rw [readExact_ok_iff]
  refine ⟨?_, rfl, rfl⟩
  simp

end Reader

end Fitsrs

import Verif.Lemmas.Card
/-
Helper lemmas on the place of the comment in a value field.
-/

namespace Fitsrs
open Spec

/-- The generalisation of `FirstSlash` to a scan that starts inside (`b`) or outside a string. -/
def FirstSlashFrom (b : Nat) (s pre rest : Str) : Prop :=
  s = pre ++ '/' :: rest ∧ (b + pre.count '\'') % 2 = 0 ∧
    ∀ p q, pre = p ++ '/' :: q → (b + p.count '\'') % 2 = 1

theorem firstSlash_iff (s pre rest : Str) : FirstSlash s pre rest ↔ FirstSlashFrom 0 s pre rest := by
  constructor
  · rintro ⟨a, b, c⟩; exact ⟨a, by omega, fun p q h => by have := c p q h; omega⟩
  · rintro ⟨a, b, c⟩; exact ⟨a, by omega, fun p q h => by have := c p q h; omega⟩

theorem cut_some {b : Bool} {s pre rest : Str} (h : cut b s = (pre, some rest)) :
    FirstSlashFrom b.toNat s pre rest := by
  induction s generalizing b pre with
  | nil => simp [cut] at h
  | cons c s ih =>
    simp only [cut] at h
    split at h
    · rename_i hc
      obtain ⟨rfl, rfl⟩ := hc
      simp only [Prod.mk.injEq, Option.some.injEq] at h
      obtain ⟨rfl, rfl⟩ := h
      exact ⟨rfl, by simp, fun p q h => by simp at h⟩
    · rename_i hc
      simp only [Prod.mk.injEq] at h
      obtain ⟨rfl, h2⟩ := h
      obtain ⟨i1, i2, i3⟩ := ih (Prod.ext rfl h2)
      have hpar : ((if c = '\'' then !b else b).toNat + 0) % 2 = (b.toNat + [c].count '\'') % 2 := by
        by_cases hq : c = '\''
        · subst hq; cases b <;> simp
        · simp [hq]
      have hcons : ∀ l : Str, (c :: l).count '\'' = [c].count '\'' + l.count '\'' := by
        intro l
        rw [show c :: l = [c] ++ l from rfl, List.count_append]
      refine ⟨by rw [List.cons_append, ← i1], ?_, ?_⟩
      · rw [hcons]
        generalize List.count '\'' (cut (if c = '\'' then !b else b) s).fst = z at i2
        omega
      · intro p q hp
        cases p with
        | nil =>
          simp only [List.nil_append, List.cons.injEq] at hp
          obtain ⟨rfl, -⟩ := hp
          cases b
          · simp at hc
          · simp
        | cons d p =>
          simp only [List.cons_append, List.cons.injEq] at hp
          obtain ⟨rfl, hp⟩ := hp
          have := i3 p q hp
          rw [hcons]; omega

theorem cut_none {b : Bool} {s : Str} (h : (cut b s).2 = none) :
    (cut b s).1 = s ∧ ∀ p q, s = p ++ '/' :: q → (b.toNat + p.count '\'') % 2 = 1 := by
  induction s generalizing b with
  | nil => exact ⟨rfl, fun p q h => by simp at h⟩
  | cons c s ih =>
    simp only [cut] at h
    split at h
    · simp at h
    · rename_i hc
      obtain ⟨i1, i2⟩ := ih h
      refine ⟨by simp only [cut, if_neg hc, i1], ?_⟩
      have hpar : ((if c = '\'' then !b else b).toNat + 0) % 2 = (b.toNat + [c].count '\'') % 2 := by
        by_cases hq : c = '\''
        · subst hq; cases b <;> simp
        · simp [hq]
      have hcons : ∀ l : Str, (c :: l).count '\'' = [c].count '\'' + l.count '\'' := by
        intro l
        rw [show c :: l = [c] ++ l from rfl, List.count_append]
      intro p q hp
      cases p with
      | nil =>
        simp only [List.nil_append, List.cons.injEq] at hp
        obtain ⟨rfl, -⟩ := hp
        cases b
        · simp at hc
        · simp
      | cons d p =>
        simp only [List.cons_append, List.cons.injEq] at hp
        obtain ⟨rfl, hp⟩ := hp
        have := i2 p q hp
        rw [hcons]; omega

/-- The first slash outside quotes is unique, and `cut` finds it. -/
theorem cut_iff {s pre rest : Str} : cut false s = (pre, some rest) ↔ FirstSlash s pre rest := by
  rw [firstSlash_iff]
  constructor
  · exact cut_some
  · rintro ⟨h1, h2, h3⟩
    cases hc : (cut false s).2 with
    | none =>
      have := (cut_none hc).2 pre rest h1
      simp only [Bool.toNat_false] at this
      omega
    | some r =>
      obtain ⟨g1, g2, g3⟩ := cut_some (show cut false s = ((cut false s).1, some r) from Prod.ext rfl hc)
      generalize hp : (cut false s).1 = pre' at g1 g2 g3
      simp only [Bool.toNat_false] at g2 g3
      have hlen : pre = pre' := by
        rcases Nat.lt_trichotomy pre.length pre'.length with hl | hl | hl
        · exfalso
          have e : pre ++ '/' :: rest = pre' ++ '/' :: r := h1.symm.trans g1
          obtain ⟨t, ht⟩ : ∃ t, pre' = pre ++ '/' :: t := by
            rcases List.append_eq_append_iff.1 e with ⟨a, ha, hb⟩ | ⟨a, ha, hb⟩
            · cases a with
              | nil => simp at ha; rw [ha] at hl; omega
              | cons x a =>
                simp only [List.cons_append, List.cons.injEq] at hb
                exact ⟨a, by rw [ha, hb.1]⟩
            · rw [ha] at hl; simp at hl; omega
          have := g3 pre t ht
          omega
        · have e : pre ++ '/' :: rest = pre' ++ '/' :: r := h1.symm.trans g1
          exact (List.append_inj e hl).1
        · exfalso
          have e : pre' ++ '/' :: r = pre ++ '/' :: rest := g1.symm.trans h1
          obtain ⟨t, ht⟩ : ∃ t, pre = pre' ++ '/' :: t := by
            rcases List.append_eq_append_iff.1 e with ⟨a, ha, hb⟩ | ⟨a, ha, hb⟩
            · cases a with
              | nil => simp at ha; rw [ha] at hl; omega
              | cons x a =>
                simp only [List.cons_append, List.cons.injEq] at hb
                exact ⟨a, by rw [ha, hb.1]⟩
            · rw [ha] at hl; simp at hl; omega
          have := h3 pre' t ht
          omega
      subst hlen
      have e : pre ++ '/' :: rest = pre ++ '/' :: r := h1.symm.trans g1
      have := List.append_cancel_left e
      simp only [List.cons.injEq, true_and] at this
      exact Prod.ext hp (by rw [hc, this])

/-- The comment found by the automaton, on any text. -/
theorem splitLoop_comment {tic toc : Bool} {s v : Str} {r : Option Str} (hi : toc = true → tic = true)
    (h : splitLoop tic toc s = .ok (v, r)) : r = (cut (tic && !toc) s).2 := by
  induction s generalizing tic toc v with
  | nil => simp only [splitLoop, Res.ok.injEq, Prod.mk.injEq] at h; rw [← h.2]; rfl
  | cons c s ih =>
    by_cases hq : c = '\''
    · subst hq
      rw [splitLoop_quote] at h
      rw [cut_quote]
      cases tic <;> cases toc
      · obtain ⟨x, hx, h⟩ := Res.map_eq_ok.1 h
        rw [Prod.mk.injEq] at h
        exact ih (by simp) (hx.trans (by rw [← h.2]))
      · simp at hi
      · obtain ⟨x, hx, h⟩ := Res.map_eq_ok.1 h
        rw [Prod.mk.injEq] at h
        exact ih (by simp) (hx.trans (by rw [← h.2]))
      · exact ih (by simp) h
    by_cases hs : c = '/'
    · subst hs
      rw [splitLoop_slash] at h
      cases tic <;> cases toc
      · simp only [Res.ok.injEq, Prod.mk.injEq] at h; rw [← h.2]; simp [cut]
      · simp at hi
      · obtain ⟨x, hx, h⟩ := Res.map_eq_ok.1 h
        rw [Prod.mk.injEq] at h
        have := ih (by simp) (hx.trans (by rw [← h.2]))
        simpa [cut] using this
      · simp only [Res.ok.injEq, Prod.mk.injEq] at h; rw [← h.2]; simp [cut]
    · rw [cut_other hq hs]
      by_cases hp : isPrintable c = true
      · rw [splitLoop_other hq hs hp] at h
        obtain ⟨x, hx, h⟩ := Res.map_eq_ok.1 h
        have h2 : x.2 = r := (Prod.mk.inj h).2
        subst h2
        cases toc
        · rw [if_neg (by simp)] at hx
          exact ih (v := x.1) (by simp) hx
        · rw [if_pos rfl] at hx
          have := ih (v := x.1) (by simp) hx
          simpa using this
      · unfold splitLoop at h
        dsimp only at h
        rw [if_neg hq, if_neg hs, if_neg hp] at h
        split at h
        · obtain ⟨x, hx, h⟩ := Res.map_eq_ok.1 h
          rw [Prod.mk.injEq] at h
          exact ih hi (hx.trans (by rw [← h.2]))
        · simp at h

/-- An error is reported only for a character outside the printable ones before the comment. -/
theorem splitLoop_err {tic toc : Bool} {s : Str} {e : Err} (h : splitLoop tic toc s = .err e) :
    ∃ c ∈ (cut (tic && !toc) s).1, isPrintable c = false := by
  induction s generalizing tic toc with
  | nil => simp [splitLoop] at h
  | cons c s ih =>
    by_cases hq : c = '\''
    · subst hq
      rw [splitLoop_quote] at h
      rw [cut_quote]
      cases tic <;> cases toc
      · obtain ⟨x, hx, h⟩ := ih (Res.map_eq_err.1 h); exact ⟨x, by simp_all, h⟩
      · simp at h
      · obtain ⟨x, hx, h⟩ := ih (Res.map_eq_err.1 h); exact ⟨x, by simp_all, h⟩
      · obtain ⟨x, hx, h⟩ := ih h; exact ⟨x, by simp_all, h⟩
    by_cases hs : c = '/'
    · subst hs
      rw [splitLoop_slash] at h
      cases tic <;> cases toc
      · simp at h
      · simp at h
      · obtain ⟨x, hx, h⟩ := ih (Res.map_eq_err.1 h)
        refine ⟨x, ?_, h⟩
        simp only [cut]
        simp at hx
        simp [hx]
      · simp at h
    · rw [cut_other hq hs]
      by_cases hp : isPrintable c = true
      · rw [splitLoop_other hq hs hp] at h
        have h := Res.map_eq_err.1 h
        cases toc
        · rw [if_neg (by simp)] at h
          obtain ⟨x, hx, h⟩ := ih h
          exact ⟨x, List.mem_cons_of_mem _ hx, h⟩
        · rw [if_pos rfl] at h
          obtain ⟨x, hx, h⟩ := ih h
          refine ⟨x, ?_, h⟩
          simp at hx ⊢
          exact .inr hx
      · exact ⟨c, by simp, by simpa using hp⟩

end Fitsrs

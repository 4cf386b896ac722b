import Verif.Lemmas.EndRecord
/-
Helper lemmas: reading the records of a header.
-/

namespace Fitsrs
open Spec

theorem consumeNextCard_le {s : HState} (h : s.rd.pos + 80 ≤ s.rd.data.length) :
    consumeNextCard s = (.ok (recordAt s.rd.data s.rd.pos 0),
      { rd := { s.rd with pos := s.rd.pos + 80 }, nread := s.nread + 80 }) := by
  unfold consumeNextCard
  rw [Reader.readExact_of_le h]
  simp [recordAt]

theorem consumeNextCard_gt {s : HState} (h : s.rd.data.length < s.rd.pos + 80) :
    consumeNextCard s = (.err (.io .unexpectedEof),
      { rd := { s.rd with pos := max s.rd.pos s.rd.data.length }, nread := s.nread }) := by
  unfold consumeNextCard
  rw [Reader.readExact_of_gt (by omega) h]

theorem recordAt_shift (data : List UInt8) (pos i : Nat) :
    recordAt data (pos + 80) i = recordAt data pos (i + 1) := by
  unfold recordAt
  congr 2
  omega

/-- What a successful reading of the records of a header means. -/
theorem consumeCardsN_ok {fuel : Nat} {s s' : HState} {cards : List Card}
    (h : consumeCardsN fuel s = (.ok cards, s')) :
    0 < cards.length ∧
    s'.rd = { s.rd with pos := s.rd.pos + 80 * cards.length } ∧
    s'.nread = s.nread + 80 * cards.length ∧
    s.rd.pos + 80 * cards.length ≤ s.rd.data.length ∧
    (∀ i (hi : i < cards.length), recordCard (recordAt s.rd.data s.rd.pos i) = .ok cards[i]) ∧
    (∀ i (hi : i < cards.length), cards[i] = .end_ ↔ i + 1 = cards.length) := by
  induction fuel generalizing s cards with
  | zero => simp [consumeCardsN] at h
  | succ fuel ih =>
    unfold consumeCardsN at h
    by_cases hle : s.rd.pos + 80 ≤ s.rd.data.length
    · rw [consumeNextCard_le hle] at h
      simp only at h
      split at h
      · rename_i c hc
        split at h
        · rename_i hend
          simp only [Prod.mk.injEq, Res.ok.injEq] at h
          obtain ⟨rfl, rfl⟩ := h
          refine ⟨by simp, by simp, by simp, by simpa using hle, ?_, ?_⟩
          · intro i hi
            have : i = 0 := by simpa using hi
            subst this
            simpa using hc
          · intro i hi
            have : i = 0 := by simpa using hi
            subst this
            simpa using hend
        · rename_i hend
          cases hrec : consumeCardsN fuel { rd := { s.rd with pos := s.rd.pos + 80 }, nread := s.nread + 80 } with
          | mk r s2 =>
            rw [hrec] at h
            simp only [Prod.mk.injEq] at h
            obtain ⟨h1, rfl⟩ := h
            obtain ⟨cs, rfl, rfl⟩ := Res.map_eq_ok.1 h1
            obtain ⟨h2, h3, h4, h5, h6, h7⟩ := ih hrec
            refine ⟨by simp, ?_, ?_, ?_, ?_, ?_⟩
            · rw [h3]; simp only [List.length_cons, Reader.mk.injEq, true_and]; omega
            · rw [h4]; simp only [List.length_cons]; omega
            · simp only [List.length_cons] at h5 ⊢; omega
            · intro i hi
              cases i with
              | zero => simpa using hc
              | succ i =>
                have := h6 i (by simpa using hi)
                simp only [recordAt_shift] at this
                simpa using this
            · intro i hi
              cases i with
              | zero =>
                simp only [List.getElem_cons_zero, List.length_cons]
                constructor
                · intro h; exact absurd h hend
                · intro h; omega
              | succ i =>
                have := h7 i (by simpa using hi)
                simp only [List.getElem_cons_succ, List.length_cons]
                rw [this]; omega
      · rename_i e he; exact absurd he recordCard_ne_err
      · simp at h
    · rw [consumeNextCard_gt (by omega)] at h
      simp at h

/-- What an error while reading the records of a header means: end of file before any `END` record. -/
theorem consumeCardsN_err {fuel : Nat} {s s' : HState} {e : Err}
    (h : consumeCardsN fuel s = (.err e, s')) :
    e = .io .unexpectedEof ∧
    ∃ k, s'.nread = s.nread + 80 * k ∧
      s.rd.data.length < s.rd.pos + 80 * (k + 1) ∧
      (0 < k → s.rd.pos + 80 * k ≤ s.rd.data.length) ∧
      s'.rd = { s.rd with pos := max s.rd.pos s.rd.data.length } ∧
      ∀ i < k, ¬ IsEndRecord (recordAt s.rd.data s.rd.pos i) := by
  induction fuel generalizing s with
  | zero => simp [consumeCardsN] at h
  | succ fuel ih =>
    unfold consumeCardsN at h
    by_cases hle : s.rd.pos + 80 ≤ s.rd.data.length
    · rw [consumeNextCard_le hle] at h
      simp only at h
      split at h
      · rename_i c hc
        split at h
        · simp at h
        · rename_i hend
          cases hrec : consumeCardsN fuel { rd := { s.rd with pos := s.rd.pos + 80 }, nread := s.nread + 80 } with
          | mk r s2 =>
            rw [hrec] at h
            simp only [Prod.mk.injEq] at h
            obtain ⟨h1, rfl⟩ := h
            rw [Res.map_eq_err] at h1
            subst h1
            obtain ⟨rfl, k, h2, h3, h4, h5, h6⟩ := ih hrec
            refine ⟨rfl, k + 1, ?_, ?_, ?_, ?_, ?_⟩
            · rw [h2]; simp only; omega
            · simp only at h3; omega
            · intro _
              by_cases hk : 0 < k
              · have := h4 hk; simp only at this; omega
              · omega
            · rw [h5]; simp only [Reader.mk.injEq, true_and]; omega
            · intro i hi
              cases i with
              | zero =>
                intro hE
                rw [← recordCard_end_iff] at hE
                rw [hE] at hc
                exact hend (by simpa using hc.symm)
              | succ i =>
                have := h6 i (by omega)
                simp only [recordAt_shift] at this
                exact this
      · rename_i e he; exact absurd he recordCard_ne_err
      · simp at h
    · rw [consumeNextCard_gt (by omega)] at h
      simp only [Prod.mk.injEq, Res.err.injEq] at h
      obtain ⟨rfl, rfl⟩ := h
      refine ⟨rfl, 0, by simp, by omega, by simp, rfl, by simp⟩

/-- With enough fuel, a panic while reading the records comes from a record whose parsing panics. -/
theorem consumeCardsN_panic {fuel : Nat} {s s' : HState} (hf0 : 0 < fuel)
    (hf : s.rd.data.length < s.rd.pos + 80 * fuel)
    (h : consumeCardsN fuel s = (.panic, s')) :
    ∃ k, s.rd.pos + 80 * (k + 1) ≤ s.rd.data.length ∧
      recordCard (recordAt s.rd.data s.rd.pos k) = .panic ∧
      ∀ i < k, ¬ IsEndRecord (recordAt s.rd.data s.rd.pos i) := by
  induction fuel generalizing s with
  | zero => omega
  | succ fuel ih =>
    unfold consumeCardsN at h
    by_cases hle : s.rd.pos + 80 ≤ s.rd.data.length
    · rw [consumeNextCard_le hle] at h
      simp only at h
      split at h
      · rename_i c hc
        split at h
        · simp at h
        · rename_i hend
          cases hrec : consumeCardsN fuel { rd := { s.rd with pos := s.rd.pos + 80 }, nread := s.nread + 80 } with
          | mk r s2 =>
            rw [hrec] at h
            simp only [Prod.mk.injEq] at h
            obtain ⟨h1, rfl⟩ := h
            rw [Res.map_eq_panic] at h1
            subst h1
            obtain ⟨k, h2, h3, h4⟩ := ih (by omega) (by simp only; omega) hrec
            refine ⟨k + 1, ?_, ?_, ?_⟩
            · simp only at h2; omega
            · simp only [recordAt_shift] at h3; exact h3
            · intro i hi
              cases i with
              | zero =>
                intro hE
                rw [← recordCard_end_iff] at hE
                rw [hE] at hc
                exact hend (by simpa using hc.symm)
              | succ i =>
                have := h4 i (by omega)
                simp only [recordAt_shift] at this
                exact this
      · simp at h
      · rename_i hc
        exact ⟨0, by omega, hc, by simp⟩
    · rw [consumeNextCard_gt (by omega)] at h
      simp at h

/-- Reading the records of a header which is there. -/
theorem consumeCardsN_complete {fuel k : Nat} {s : HState} {cards : List Card} (hf : k < fuel)
    (hlen : s.rd.pos + 80 * (k + 1) ≤ s.rd.data.length) (hk : cards.length = k + 1)
    (hc : ∀ i (hi : i < cards.length), recordCard (recordAt s.rd.data s.rd.pos i) = .ok cards[i])
    (he : ∀ i (hi : i < cards.length), cards[i] = .end_ ↔ i + 1 = cards.length) :
    consumeCardsN fuel s = (.ok cards,
      { rd := { s.rd with pos := s.rd.pos + 80 * (k + 1) }, nread := s.nread + 80 * (k + 1) }) := by
  induction fuel generalizing s cards k with
  | zero => omega
  | succ fuel ih =>
    unfold consumeCardsN
    rw [consumeNextCard_le (by omega)]
    cases cards with
    | nil => simp at hk
    | cons c cs =>
      have hc0 : recordCard (recordAt s.rd.data s.rd.pos 0) = .ok c := hc 0 (by simp)
      simp only [hc0]
      have he0 := he 0 (by simp)
      simp only [List.getElem_cons_zero, List.length_cons] at he0
      cases k with
      | zero =>
        have : cs = [] := by simpa using hk
        subst this
        rw [if_pos (he0.2 (by simp))]
      | succ k =>
        have hk' : cs.length = k + 1 := by simpa using hk
        rw [if_neg (by rw [he0]; omega)]
        have := ih (k := k) (s := { rd := { s.rd with pos := s.rd.pos + 80 }, nread := s.nread + 80 })
          (cards := cs) (by omega) (by simp only; omega) hk'
          (by
            intro i hi
            have := hc (i + 1) (by simpa using hi)
            simp only [recordAt_shift]
            simpa using this)
          (by
            intro i hi
            have := he (i + 1) (by simpa using hi)
            simp only [List.getElem_cons_succ, List.length_cons] at this
            rw [this]; omega)
        rw [this]
        simp only [Res.map_ok, Prod.mk.injEq, HState.mk.injEq, Reader.mk.injEq, true_and]
        omega

theorem consumeCards_panic {s s' : HState} (h : consumeCards s = (.panic, s')) :
    ∃ k, s.rd.pos + 80 * (k + 1) ≤ s.rd.data.length ∧
      recordCard (recordAt s.rd.data s.rd.pos k) = .panic ∧
      ∀ i < k, ¬ IsEndRecord (recordAt s.rd.data s.rd.pos i) :=
  consumeCardsN_panic (by omega) (by omega) h

theorem consumeCards_complete {k : Nat} {s : HState} {cards : List Card}
    (hlen : s.rd.pos + 80 * (k + 1) ≤ s.rd.data.length) (hk : cards.length = k + 1)
    (hc : ∀ i (hi : i < cards.length), recordCard (recordAt s.rd.data s.rd.pos i) = .ok cards[i])
    (he : ∀ i (hi : i < cards.length), cards[i] = .end_ ↔ i + 1 = cards.length) :
    consumeCards s = (.ok cards,
      { rd := { s.rd with pos := s.rd.pos + 80 * (k + 1) }, nread := s.nread + 80 * (k + 1) }) :=
  consumeCardsN_complete (by omega) hlen hk hc he

end Fitsrs

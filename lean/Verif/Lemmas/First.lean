import Verif.Lemmas.Slash
import Verif.Lemmas.History
/-
Helper lemmas on the first record of a header.
-/

namespace Fitsrs
open Spec

/-- The first character of a lossy decoding, when it is ASCII, is the first byte. -/
theorem utf8Lossy_cons {b : UInt8} {bs : List UInt8} {c : Char} {cs : Str} (h : utf8Lossy (b :: bs) = c :: cs)
    (hc : c.toNat < 0x80) : b = UInt8.ofNat c.toNat ∧ utf8Lossy bs = cs := by
  unfold utf8Lossy at *
  by_cases hb : b.toNat < 0x80
  · simp only [lossyAux, utf8Step_ascii hb, Option.getD_some, List.cons.injEq] at h
    refine ⟨?_, h.2⟩
    rw [← h.1, toNat_ofNat_lt (by omega)]
    simp
  · exfalso
    simp only [lossyAux, List.cons.injEq] at h
    have h' := h.1
    cases hst : utf8Step b bs with
    | mk o k =>
      rw [hst] at h'
      cases o with
      | none =>
        simp only [Option.getD_none] at h'
        rw [← h'] at hc; revert hc; decide
      | some d =>
        have h1 := utf8Step_multi (by omega) hst
        simp only [Option.getD_some] at h'
        rw [h'] at h1; omega

theorem utf8Lossy_ne_nil {b : UInt8} {bs : List UInt8} : utf8Lossy (b :: bs) ≠ [] := by
  unfold utf8Lossy; simp [lossyAux]

/-- An ASCII prefix of a lossy decoding is a prefix of the bytes. -/
theorem utf8Lossy_prefix {bs : List UInt8} {a s : Str} (h : utf8Lossy bs = a ++ s)
    (ha : ∀ c ∈ a, c.toNat < 0x80) : ∃ bs', bs = toBytes a ++ bs' ∧ utf8Lossy bs' = s := by
  induction a generalizing bs with
  | nil => exact ⟨bs, rfl, h⟩
  | cons c a ih =>
    cases bs with
    | nil => simp [utf8Lossy, lossyAux] at h
    | cons b bs =>
      obtain ⟨h1, h2⟩ := utf8Lossy_cons h (ha c (by simp))
      obtain ⟨bs', h3, h4⟩ := ih h2 (fun d hd => ha d (by simp [hd]))
      exact ⟨bs', by rw [h1, h3]; rfl, h4⟩

theorem trimStr_cons {c : Char} {s : Str} (h : isWs c = false) : ∃ t, trimStr (c :: s) = c :: t := by
  unfold trimStr trimBy
  rw [dropWhile_of_head (by intro x hx; simp at hx; rw [← hx]; exact h)]
  obtain ⟨b, h1, h2, h3⟩ := trimEndBy_spec (p := isWs) (c :: s)
  cases hT : trimEndBy isWs (c :: s) with
  | nil =>
    rw [hT, List.nil_append] at h1
    have := h2 c (by rw [← h1]; simp)
    rw [h] at this; simp at this
  | cons d t =>
    rw [hT, List.cons_append] at h1
    injection h1 with h1 _
    exact ⟨t, by rw [h1]⟩

/-- The first character of the value of a field is its first byte that is not white space. -/
theorem split_first {buf : List UInt8} {ch : Char} {v : Str} {c : Option Str}
    (h : splitValueAndComment buf = .ok (ch :: v, c)) :
    0x20 ≤ ch.toNat ∧ ch.toNat ≤ 0x7E ∧
    ∃ bs w r, trimAscii buf = UInt8.ofNat ch.toNat :: bs ∧ trimStr (ch :: w) = ch :: v ∧
      splitLoop false false (ch :: utf8Lossy bs) = .ok (ch :: w, r) := by
  unfold splitValueAndComment at h
  obtain ⟨⟨w, r⟩, hw, h⟩ := Res.map_eq_ok.1 h
  have hvt : trimStr w = ch :: v := by
    revert h
    cases r <;> simp <;> intro h _ <;> exact h
  cases hb : trimAscii buf with
  | nil =>
    rw [hb] at hw
    simp [utf8Lossy, lossyAux, splitLoop] at hw
    rw [hw.1] at hvt
    simp [trimStr, trimBy, trimEndBy] at hvt
  | cons b bs =>
    rw [hb] at hw
    have hbw : isAsciiWs b = false := trimBy_head (p := isAsciiWs) buf b (by
      have : trimBy isAsciiWs buf = b :: bs := hb
      rw [this]; rfl)
    cases hl : utf8Lossy (b :: bs) with
    | nil => exact absurd hl utf8Lossy_ne_nil
    | cons d ds =>
      rw [hl] at hw
      have fin : ∀ w', w = d :: w' → 0x20 ≤ d.toNat ∧ d.toNat ≤ 0x7E → 
          0x20 ≤ ch.toNat ∧ ch.toNat ≤ 0x7E ∧
          ∃ bs_1 w r, b :: bs = UInt8.ofNat ch.toNat :: bs_1 ∧ trimStr (ch :: w) = ch :: v ∧
            splitLoop false false (ch :: utf8Lossy bs_1) = .ok (ch :: w, r) := by
        intro w' hw' hd
        obtain ⟨e1, e2⟩ := utf8Lossy_cons hl (by omega)
        have hdw : isWs d = false := by
          rw [isWs_printable hd]
          rw [e1, isAsciiWs_toByte hd] at hbw
          exact hbw
        obtain ⟨t, ht⟩ := trimStr_cons (s := w') hdw
        rw [hw', ht] at hvt
        injection hvt with h1 h2
        subst h1
        refine ⟨hd.1, hd.2, bs, w', r, by rw [← e1], by rw [ht, h2], ?_⟩
        rw [e2, hw, hw']
      by_cases hq : d = '\''
      · subst hq
        rw [splitLoop_quote] at hw
        obtain ⟨⟨w', r'⟩, -, hw⟩ := Res.map_eq_ok.1 hw
        injection hw with h1 h2
        exact fin w' h1.symm (by decide)
      by_cases hs : d = '/'
      · subst hs
        rw [splitLoop_slash] at hw
        simp at hw
        rw [hw.1] at hvt
        simp [trimStr, trimBy, trimEndBy] at hvt
      by_cases hp : isPrintable d = true
      · rw [splitLoop_other hq hs hp] at hw
        obtain ⟨⟨w', r'⟩, -, hw⟩ := Res.map_eq_ok.1 hw
        injection hw with h1 h2
        exact fin w' h1.symm ((isPrintable_iff d).1 hp)
      · conv at hw => lhs; unfold splitLoop
        dsimp only at hw
        rw [if_neg hq, if_neg hs, if_neg hp] at hw
        simp at hw

/-- Characters pushed inside a string are those read, up to the first quote or replaced character. -/
theorem splitLoop_inside {m s t : Str} {r : Option Str} (h : splitLoop true false s = .ok (m ++ '\'' :: t, r))
    (hm : ∀ c ∈ m, c ≠ '\'' ∧ c.toNat < 0x80) : ∃ s', s = m ++ '\'' :: s' := by
  induction m generalizing s with
  | nil =>
    cases s with
    | nil => simp [splitLoop] at h
    | cons d s =>
      by_cases hq : d = '\''
      · exact ⟨s, by rw [hq]; rfl⟩
      exfalso
      by_cases hs : d = '/'
      · subst hs
        rw [splitLoop_slash] at h
        obtain ⟨⟨w', r'⟩, -, h⟩ := Res.map_eq_ok.1 h
        simp at h
      by_cases hp : isPrintable d = true
      · rw [splitLoop_other hq hs hp] at h
        obtain ⟨⟨w', r'⟩, -, h⟩ := Res.map_eq_ok.1 h
        simp [hq] at h
      · conv at h => lhs; unfold splitLoop
        dsimp only at h
        rw [if_neg hq, if_neg hs, if_neg hp] at h
        simp only [if_true] at h
        obtain ⟨⟨w', r'⟩, -, h⟩ := Res.map_eq_ok.1 h
        simp at h
        exact absurd h.1.1 (by decide)
  | cons c m ih =>
    obtain ⟨hc1, hc2⟩ := hm c (by simp)
    have hm' : ∀ c ∈ m, c ≠ '\'' ∧ c.toNat < 0x80 := fun d hd => hm d (by simp [hd])
    cases s with
    | nil => simp [splitLoop] at h
    | cons d s =>
      by_cases hq : d = '\''
      · subst hq
        rw [splitLoop_quote] at h
        obtain ⟨⟨w', r'⟩, -, h⟩ := Res.map_eq_ok.1 h
        simp at h
        exact absurd h.1.1.symm hc1
      by_cases hs : d = '/'
      · subst hs
        rw [splitLoop_slash] at h
        obtain ⟨⟨w', r'⟩, hw, h⟩ := Res.map_eq_ok.1 h
        simp only [List.cons_append, Prod.mk.injEq, List.cons.injEq] at h
        obtain ⟨⟨h1, h2⟩, h3⟩ := h
        rw [h2, h3] at hw
        obtain ⟨s', hs'⟩ := ih hw hm'
        exact ⟨s', by rw [hs', ← h1]; rfl⟩
      by_cases hp : isPrintable d = true
      · rw [splitLoop_other hq hs hp] at h
        obtain ⟨⟨w', r'⟩, hw, h⟩ := Res.map_eq_ok.1 h
        simp only [List.cons_append, Prod.mk.injEq, List.cons.injEq] at h
        obtain ⟨⟨h1, h2⟩, h3⟩ := h
        rw [if_neg (by simp), h2, h3] at hw
        obtain ⟨s', hs'⟩ := ih hw hm'
        exact ⟨s', by rw [hs', ← h1]; rfl⟩
      · exfalso
        conv at h => lhs; unfold splitLoop
        dsimp only at h
        rw [if_neg hq, if_neg hs, if_neg hp] at h
        simp only [if_true] at h
        obtain ⟨⟨w', r'⟩, -, h⟩ := Res.map_eq_ok.1 h
        simp at h
        rw [← h.1.1] at hc2
        exact absurd hc2 (by decide)

end Fitsrs

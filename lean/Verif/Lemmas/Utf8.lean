import Verif.Lemmas.Card
import Verif.Spec.Utf8
/-
Helper lemmas on UTF-8: the decoders of the model and the encoding of the specification.
-/

namespace Fitsrs
open Spec

theorem char_valid (c : Char) : c.toNat < 0xD800 ∨ (0xDFFF < c.toNat ∧ c.toNat < 0x110000) := by
  have := c.valid
  exact this

theorem isCont_iff {b : UInt8} : isCont b = true ↔ 0x80 ≤ b.toNat ∧ b.toNat < 0xC0 := by
  unfold isCont
  simp

theorem ok3_iff {n : Nat} {b : UInt8} : ok3 n b = true ↔ 0x80 ≤ b.toNat ∧ b.toNat < 0xC0 ∧ (n = 0xE0 → 0xA0 ≤ b.toNat) ∧
    (n = 0xED → b.toNat ≤ 0x9F) := by
  unfold ok3
  split
  · simp; omega
  split
  · simp; omega
  · rw [isCont_iff]; omega

theorem ok4_iff {n : Nat} {b : UInt8} : ok4 n b = true ↔ 0x80 ≤ b.toNat ∧ b.toNat < 0xC0 ∧ (n = 0xF0 → 0x90 ≤ b.toNat) ∧
    (n = 0xF4 → b.toNat ≤ 0x8F) := by
  unfold ok4
  split
  · simp; omega
  split
  · simp; omega
  · rw [isCont_iff]; omega

theorem ofNat_eq {b : UInt8} {n : Nat} (h : b.toNat = n) : UInt8.ofNat n = b := by
  rw [← h]
  exact UInt8.ofNat_toNat

theorem utf8_two {c : Char} {n : Nat} (h : c.toNat = n) (h1 : 0x80 ≤ n) (h2 : n < 0x800) :
    utf8 c = [UInt8.ofNat (0xC0 + n / 64), UInt8.ofNat (0x80 + n % 64)] := by
  unfold utf8
  rw [h]
  dsimp only
  rw [if_neg (by omega), if_pos (by omega)]
  rfl

theorem utf8_three {c : Char} {n : Nat} (h : c.toNat = n) (h1 : 0x800 ≤ n) (h2 : n < 0x10000) :
    utf8 c = [UInt8.ofNat (0xE0 + n / 4096), UInt8.ofNat (0x80 + n / 64 % 64), UInt8.ofNat (0x80 + n % 64)] := by
  unfold utf8
  rw [h]
  dsimp only
  rw [if_neg (by omega), if_neg (by omega), if_pos (by omega)]
  rfl

theorem utf8_four {c : Char} {n : Nat} (h : c.toNat = n) (h1 : 0x10000 ≤ n) :
    utf8 c = [UInt8.ofNat (0xF0 + n / 262144), UInt8.ofNat (0x80 + n / 4096 % 64), UInt8.ofNat (0x80 + n / 64 % 64),
      UInt8.ofNat (0x80 + n % 64)] := by
  unfold utf8
  rw [h]
  dsimp only
  rw [if_neg (by omega), if_neg (by omega), if_neg (by omega)]
  rfl

/-- What a sequence of several bytes may be. -/
theorem step_high {b : UInt8} (h : 0x80 ≤ b.toNat) (bs : List UInt8) :
    (utf8Step b bs).2 ≤ bs.length ∧ (∀ x ∈ bs.take (utf8Step b bs).2, 0x80 ≤ x.toNat) ∧
      ∀ c, (utf8Step b bs).1 = some c → utf8 c = b :: bs.take (utf8Step b bs).2 := by
  have hb := b.toNat_lt
  have none0 : ∀ {bs : List UInt8}, (0 : Nat) ≤ bs.length ∧ (∀ x ∈ bs.take 0, 0x80 ≤ x.toNat) ∧
      ∀ c, (none : Option Char) = some c → utf8 c = b :: bs.take 0 :=
    ⟨Nat.zero_le _, fun x hx => (by cases hx), fun c hc => (by cases hc)⟩
  unfold utf8Step
  dsimp only
  rw [if_neg (by omega)]
  by_cases h2 : 0xC2 ≤ b.toNat ∧ b.toNat ≤ 0xDF
  · rw [if_pos h2]
    match bs with
    | [] => exact none0
    | b1 :: t =>
      dsimp only
      by_cases c1 : isCont b1 = true
      · rw [if_pos c1]
        rw [isCont_iff] at c1
        refine ⟨Nat.succ_le_succ (Nat.zero_le _), fun x hx => ?_, fun c hc => ?_⟩
        · simp at hx; subst hx; exact c1.1
        · rw [← Option.some.inj hc]
          rw [utf8_two (toNat_ofNat_valid (by unfold Nat.isValidChar; omega)) (by omega) (by omega)]
          simp only [List.take_succ_cons, List.take_zero]
          rw [ofNat_eq (b := b) (by omega), ofNat_eq (b := b1) (by omega)]
      · rw [if_neg c1]; exact none0
  rw [if_neg h2]
  by_cases h3 : 0xE0 ≤ b.toNat ∧ b.toNat ≤ 0xEF
  · rw [if_pos h3]
    match bs with
    | [] => exact none0
    | b1 :: t =>
      dsimp only
      by_cases c1 : ok3 b.toNat b1 = true
      · rw [if_pos c1]
        rw [ok3_iff] at c1
        have bad : (1 : Nat) ≤ (b1 :: t).length ∧ (∀ x ∈ (b1 :: t).take 1, 0x80 ≤ x.toNat) ∧
            ∀ c, (none : Option Char) = some c → utf8 c = b :: (b1 :: t).take 1 :=
          ⟨Nat.succ_le_succ (Nat.zero_le _), fun x hx => (by simp at hx; subst hx; exact c1.1), fun c hc => (by cases hc)⟩
        match t with
        | [] => exact bad
        | b2 :: u =>
          dsimp only
          by_cases c2 : isCont b2 = true
          · rw [if_pos c2]
            rw [isCont_iff] at c2
            refine ⟨by simp, fun x hx => ?_, fun c hc => ?_⟩
            · simp at hx
              rcases hx with rfl | rfl
              · exact c1.1
              · exact c2.1
            · rw [← Option.some.inj hc]
              rw [utf8_three (toNat_ofNat_valid (by unfold Nat.isValidChar; omega)) (by omega) (by omega)]
              simp only [List.take_succ_cons, List.take_zero]
              rw [ofNat_eq (b := b) (by omega), ofNat_eq (b := b1) (by omega), ofNat_eq (b := b2) (by omega)]
          · rw [if_neg c2]; exact bad
      · rw [if_neg c1]; exact none0
  rw [if_neg h3]
  by_cases h4 : 0xF0 ≤ b.toNat ∧ b.toNat ≤ 0xF4
  · rw [if_pos h4]
    match bs with
    | [] => exact none0
    | b1 :: t =>
      dsimp only
      by_cases c1 : ok4 b.toNat b1 = true
      · rw [if_pos c1]
        rw [ok4_iff] at c1
        have bad : (1 : Nat) ≤ (b1 :: t).length ∧ (∀ x ∈ (b1 :: t).take 1, 0x80 ≤ x.toNat) ∧
            ∀ c, (none : Option Char) = some c → utf8 c = b :: (b1 :: t).take 1 :=
          ⟨Nat.succ_le_succ (Nat.zero_le _), fun x hx => (by simp at hx; subst hx; exact c1.1), fun c hc => (by cases hc)⟩
        match t with
        | [] => exact bad
        | b2 :: u =>
          dsimp only
          by_cases c2 : isCont b2 = true
          · rw [if_pos c2]
            rw [isCont_iff] at c2
            have bad2 : (2 : Nat) ≤ (b1 :: b2 :: u).length ∧ (∀ x ∈ (b1 :: b2 :: u).take 2, 0x80 ≤ x.toNat) ∧
                ∀ c, (none : Option Char) = some c → utf8 c = b :: (b1 :: b2 :: u).take 2 :=
              ⟨by simp, fun x hx => (by
                simp at hx
                rcases hx with rfl | rfl
                · exact c1.1
                · exact c2.1), fun c hc => (by cases hc)⟩
            match u with
            | [] => exact bad2
            | b3 :: w =>
              dsimp only
              by_cases c3 : isCont b3 = true
              · rw [if_pos c3]
                rw [isCont_iff] at c3
                refine ⟨by simp, fun x hx => ?_, fun c hc => ?_⟩
                · simp at hx
                  rcases hx with rfl | rfl | rfl
                  · exact c1.1
                  · exact c2.1
                  · exact c3.1
                · rw [← Option.some.inj hc]
                  rw [utf8_four (toNat_ofNat_valid (by unfold Nat.isValidChar; omega)) (by omega)]
                  simp only [List.take_succ_cons, List.take_zero]
                  rw [ofNat_eq (b := b) (by omega), ofNat_eq (b := b1) (by omega), ofNat_eq (b := b2) (by omega),
                    ofNat_eq (b := b3) (by omega)]
              · rw [if_neg c3]; exact bad2
          · rw [if_neg c2]; exact bad
      · rw [if_neg c1]; exact none0
  · rw [if_neg h4]; exact none0

theorem utf8_ascii {c : Char} (h : c.toNat < 0x80) : utf8 c = [UInt8.ofNat c.toNat] := by
  unfold utf8
  dsimp only
  rw [if_pos h]
  rfl

/-- The first byte of a character, and those that follow. -/
theorem utf8_cons (c : Char) : ∃ b t, utf8 c = b :: t ∧ (c.toNat < 0x80 → b.toNat = c.toNat ∧ t = []) ∧
    (0x80 ≤ c.toNat → 0x80 ≤ b.toNat ∧ ∀ x ∈ t, 0x80 ≤ x.toNat) ∧ ∀ rest, utf8Step b (t ++ rest) = (some c, t.length) := by
  have hv := char_valid c
  have hc : Char.ofNat c.toNat = c := Char.ofNat_toNat c
  by_cases h1 : c.toNat < 0x80
  · refine ⟨_, _, utf8_ascii h1, fun _ => ⟨?_, rfl⟩, fun h => absurd h (by omega), fun rest => ?_⟩
    · rw [UInt8.toNat_ofNat']; omega
    · have e : (UInt8.ofNat c.toNat).toNat = c.toNat := by rw [UInt8.toNat_ofNat']; omega
      rw [utf8Step_ascii (by omega), e, hc]
      rfl
  unfold utf8
  dsimp only
  rw [if_neg h1]
  have of : ∀ m, m < 256 → (UInt8.ofNat m).toNat = m := fun m h => by rw [UInt8.toNat_ofNat']; omega
  by_cases h2 : c.toNat < 0x800
  · rw [if_pos h2]
    refine ⟨_, _, rfl, fun h => absurd h h1, fun _ => ⟨?_, fun x hx => ?_⟩, fun rest => ?_⟩
    · rw [of _ (by omega)]; omega
    · simp only [List.map_cons, List.map_nil, List.mem_cons, List.not_mem_nil, or_false] at hx
      subst hx
      rw [of _ (by omega)]; omega
    · unfold utf8Step
      simp only [List.map_cons, List.map_nil, List.cons_append, List.nil_append]
      rw [of _ (by omega), if_neg (by omega), if_pos (by omega), if_pos (by rw [isCont_iff, of _ (by omega)]; omega),
        of _ (by omega)]
      rw [show (0xC0 + c.toNat / 64 - 0xC0) * 64 + (0x80 + c.toNat % 64 - 0x80) = c.toNat by omega, hc]
      rfl
  rw [if_neg h2]
  by_cases h3 : c.toNat < 0x10000
  · rw [if_pos h3]
    refine ⟨_, _, rfl, fun h => absurd h h1, fun _ => ⟨?_, fun x hx => ?_⟩, fun rest => ?_⟩
    · rw [of _ (by omega)]; omega
    · simp only [List.map_cons, List.map_nil, List.mem_cons, List.not_mem_nil, or_false] at hx
      rcases hx with rfl | rfl <;> rw [of _ (by omega)] <;> omega
    · unfold utf8Step
      simp only [List.map_cons, List.map_nil, List.cons_append, List.nil_append]
      rw [of _ (by omega), if_neg (by omega), if_neg (by omega), if_pos (by omega),
        if_pos (by rw [ok3_iff, of _ (by omega)]; omega), if_pos (by rw [isCont_iff, of _ (by omega)]; omega),
        of _ (by omega), of _ (by omega)]
      rw [show (0xE0 + c.toNat / 4096 - 0xE0) * 4096 + (0x80 + c.toNat / 64 % 64 - 0x80) * 64 +
        (0x80 + c.toNat % 64 - 0x80) = c.toNat by omega, hc]
      rfl
  · rw [if_neg h3]
    refine ⟨_, _, rfl, fun h => absurd h h1, fun _ => ⟨?_, fun x hx => ?_⟩, fun rest => ?_⟩
    · rw [of _ (by omega)]; omega
    · simp only [List.map_cons, List.map_nil, List.mem_cons, List.not_mem_nil, or_false] at hx
      rcases hx with rfl | rfl | rfl <;> rw [of _ (by omega)] <;> omega
    · unfold utf8Step
      simp only [List.map_cons, List.map_nil, List.cons_append, List.nil_append]
      rw [of _ (by omega), if_neg (by omega), if_neg (by omega), if_neg (by omega), if_pos (by omega),
        if_pos (by rw [ok4_iff, of _ (by omega)]; omega), if_pos (by rw [isCont_iff, of _ (by omega)]; omega),
        if_pos (by rw [isCont_iff, of _ (by omega)]; omega), of _ (by omega), of _ (by omega), of _ (by omega)]
      rw [show (0xF0 + c.toNat / 262144 - 0xF0) * 262144 + (0x80 + c.toNat / 4096 % 64 - 0x80) * 4096 +
        (0x80 + c.toNat / 64 % 64 - 0x80) * 64 + (0x80 + c.toNat % 64 - 0x80) = c.toNat by omega, hc]
      rfl

/-! ### Decoding -/

theorem lossyAux_drop (bs : List UInt8) (k : Nat) : lossyAux bs k = lossyAux (bs.drop k) 0 := by
  induction bs generalizing k with
  | nil => rw [List.drop_nil]; rfl
  | cons b bs ih =>
    cases k with
    | zero => rfl
    | succ k => rw [lossyAux, ih]; rfl

theorem utf8Aux_drop (bs : List UInt8) (k : Nat) : utf8Aux bs k = utf8Aux (bs.drop k) 0 := by
  induction bs generalizing k with
  | nil => rw [List.drop_nil]; rfl
  | cons b bs ih =>
    cases k with
    | zero => rfl
    | succ k => rw [utf8Aux, ih]; rfl

theorem utf8Lossy_step (b : UInt8) (bs : List UInt8) : utf8Lossy (b :: bs) =
    (utf8Step b bs).1.getD replacement :: utf8Lossy (bs.drop (utf8Step b bs).2) := by
  unfold utf8Lossy
  rw [lossyAux, lossyAux_drop]

theorem utf8Lossy_encode (s : Str) : utf8Lossy (encode s) = s := by
  induction s with
  | nil => rfl
  | cons c s ih =>
    obtain ⟨b, t, h, -, -, hs⟩ := utf8_cons c
    have e : encode (c :: s) = b :: (t ++ encode s) := by
      unfold encode
      rw [List.flatMap_cons, h]
      rfl
    rw [e, utf8Lossy_step, hs]
    simp only [Option.getD_some]
    rw [List.drop_left, ih]

/-- The texts that strict decoding gives are those whose encoding it is given. -/
theorem utf8Strict_iff {bs : List UInt8} {s : Str} : utf8Strict bs = some s ↔ bs = encode s := by
  constructor
  · have : ∀ n, ∀ bs : List UInt8, bs.length ≤ n → ∀ s, utf8Strict bs = some s → bs = encode s := by
      intro n
      induction n with
      | zero =>
        intro bs hl s h
        rw [List.length_eq_zero_iff.1 (by omega : bs.length = 0)] at h ⊢
        cases h
        rfl
      | succ n ih =>
        intro bs hl s h
        cases bs with
        | nil => cases h; rfl
        | cons b bs =>
          unfold utf8Strict at h
          rw [utf8Aux] at h
          cases hc : (utf8Step b bs).1 with
          | none => rw [hc] at h; cases h
          | some c =>
            rw [hc] at h
            dsimp only at h
            obtain ⟨t, ht, rfl⟩ := Option.map_eq_some_iff.1 h
            rw [utf8Aux_drop] at ht
            have hi := ih _ (by rw [List.length_drop]; rw [List.length_cons] at hl; omega) t ht
            have hu : utf8 c = b :: bs.take (utf8Step b bs).2 := by
              by_cases hb : b.toNat < 0x80
              · rw [utf8Step_ascii hb] at hc ⊢
                cases hc
                rw [utf8_ascii (by rw [toNat_ofNat_lt (by omega)]; exact hb), toNat_ofNat_lt (by omega), UInt8.ofNat_toNat]
                rfl
              · exact (step_high (by omega) bs).2.2 c hc
            show b :: bs = utf8 c ++ encode t
            rw [hu, ← hi, List.cons_append, List.take_append_drop]
    exact this _ bs (Nat.le_refl _) s
  · rintro rfl
    unfold utf8Strict
    induction s with
    | nil => rfl
    | cons c s ih =>
      obtain ⟨b, t, h, -, -, hs⟩ := utf8_cons c
      have e : encode (c :: s) = b :: (t ++ encode s) := by
        unfold encode
        rw [List.flatMap_cons, h]
        rfl
      rw [e, utf8Aux, hs]
      dsimp only
      rw [utf8Aux_drop, List.drop_left, ih]
      rfl

/-- Nothing reaches into what comes after a byte of ASCII. -/
theorem step_append {b : UInt8} {a r : List UInt8} (hr : ∀ x, r.head? = some x → x.toNat < 0x80) :
    utf8Step b (a ++ r) = utf8Step b a := by
  have no : ∀ x, x.toNat < 0x80 → isCont x = false ∧ (∀ n, ok3 n x = false) ∧ ∀ n, ok4 n x = false := by
    intro x hx
    refine ⟨?_, fun n => ?_, fun n => ?_⟩
    · rw [← Bool.not_eq_true, isCont_iff]; omega
    · rw [← Bool.not_eq_true, ok3_iff]; omega
    · rw [← Bool.not_eq_true, ok4_iff]; omega
  cases r with
  | nil => rw [List.append_nil]
  | cons x r =>
    obtain ⟨n1, n2, n3⟩ := no x (hr x rfl)
    unfold utf8Step
    match a with
    | [] => simp [n1, n2, n3]
    | [b1] => simp [n1, n2, n3]
    | [b1, b2] => simp [n1, n2, n3]
    | b1 :: b2 :: b3 :: a => simp

theorem utf8Lossy_append {a r : List UInt8} (hr : ∀ x, r.head? = some x → x.toNat < 0x80) :
    utf8Lossy (a ++ r) = utf8Lossy a ++ utf8Lossy r := by
  have : ∀ n, ∀ a : List UInt8, a.length ≤ n → utf8Lossy (a ++ r) = utf8Lossy a ++ utf8Lossy r := by
    intro n
    induction n with
    | zero =>
      intro a hl
      rw [List.length_eq_zero_iff.1 (by omega : a.length = 0)]
      rfl
    | succ n ih =>
      intro a hl
      cases a with
      | nil => rfl
      | cons b a =>
        have hk : (utf8Step b a).2 ≤ a.length := by
          by_cases hb : b.toNat < 0x80
          · rw [utf8Step_ascii hb]; exact Nat.zero_le _
          · exact (step_high (by omega) a).1
        rw [List.cons_append, utf8Lossy_step, utf8Lossy_step, step_append hr, List.drop_append_of_le_length hk,
          ih _ (by rw [List.length_drop]; rw [List.length_cons] at hl; omega)]
        rfl
  exact this _ a (Nat.le_refl _)

end Fitsrs

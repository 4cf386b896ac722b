import Verif.Lemmas.Slash
/-
C09 to C16: parsing of single records.
-/

namespace Fitsrs
open Spec

/-! ## C09: parsing a card never panics -/

/-- The property: every 80-byte record is parsed without panic. -/
def C09_statement : Prop := ∀ r : List UInt8, r.length = 80 → Card.tryFrom r ≠ .panic

/-- A record `AAA     = '` followed by blanks. -/
def loneQuoteRecord : List UInt8 := toBytes ("AAA     = '".toList ++ blank 69)

/-- The property is false: a value field with nothing but one quote makes the parser panic. -/
theorem C09_fails : ¬ C09_statement := by
  intro h
  exact h loneQuoteRecord (by decide) (by decide +kernel)

/-- The exact set of records on which the parser panics (for all byte strings): those whose value field is a
lone quote, provided that the keyword field is UTF-8. -/
theorem C09_panic_iff (r : List UInt8) :
    Card.tryFrom r = .panic ↔
      utf8Strict (trimAscii (r.take 8)) ≠ none ∧ ∃ f, ValueField r f ∧ LoneQuote f := by
  have hs := special_ok
  simp only [special, List.mem_cons, List.not_mem_nil, or_false, forall_eq_or_imp, forall_eq] at hs
  obtain ⟨s1, s2, s3, s4, s5, s6⟩ := hs
  have k0 := keywordIs_iff (r := r) (kw := []) (by intro c hc; simp at hc) (by simp)
  have k1 := keywordIs_iff (r := r) s1.1 s1.2
  have k2 := keywordIs_iff (r := r) s2.1 s2.2
  have k3 := keywordIs_iff (r := r) s3.1 s3.2
  have k4 := keywordIs_iff (r := r) s4.1 s4.2
  have k5 := keywordIs_iff (r := r) s5.1 s5.2
  have k6 := keywordIs_iff (r := r) s6.1 s6.2
  unfold Card.tryFrom
  cases hu : utf8Strict (trimAscii (r.take 8)) with
  | none => simp
  | some kw =>
    rw [hu, Option.some.injEq] at k0 k1 k2 k3 k4 k5 k6
    have hval : ∀ {f}, ValueField r f → kw = "CONTINUE".toList ∧ f = r.drop 8 ∨
        kw = "XTENSION".toList ∧ f = r.drop 10 ∨
        (kw = "HIERARCH".toList ∧ ∃ k, hierarchParts r k f ∧ ∃ x ∈ k, ¬ isBlank x) ∨
        ((∀ k ∈ special, kw ≠ k) ∧ kw ≠ [] ∧ (r.drop 8).take 2 = [0x3D, 0x20] ∧ f = r.drop 10) := by
      intro f hf
      cases hf with
      | «continue» h => exact .inl ⟨k3.1 h, rfl⟩
      | xtension h => exact .inr (.inl ⟨k4.1 h, rfl⟩)
      | hierarch h h1 h2 => exact .inr (.inr (.inl ⟨k5.1 h, _, h1, h2⟩))
      | value h1 h2 h3 =>
        refine .inr (.inr (.inr ⟨?_, fun h => h2 (k0.2 h), h3, rfl⟩))
        rintro k hk rfl
        exact h1 _ hk ((keywordIs_iff (special_ok _ hk).1 (special_ok _ hk).2).2 hu)
    have hne : ∀ {a b : Str}, a ∈ special → kw = a → kw = b → a = b := fun _ h1 h2 => h1.symm.trans h2
    dsimp only
    simp only [ne_eq, reduceCtorEq, not_false_eq_true, true_and]
    by_cases e0 : kw = []
    · rw [if_pos e0]
      simp only [reduceCtorEq, false_iff]
      rintro ⟨f, hf, -⟩
      rcases hval hf with ⟨h, -⟩ | ⟨h, -⟩ | ⟨h, -⟩ | ⟨-, h, -⟩
      · rw [e0] at h; revert h; decide
      · rw [e0] at h; revert h; decide
      · rw [e0] at h; revert h; decide
      · exact h e0
    rw [if_neg e0]
    by_cases e1 : kw = "COMMENT".toList
    · rw [if_pos e1]
      simp only [reduceCtorEq, false_iff]
      rintro ⟨f, hf, -⟩
      rcases hval hf with ⟨h, -⟩ | ⟨h, -⟩ | ⟨h, -⟩ | ⟨h, -⟩
      · rw [e1] at h; revert h; decide
      · rw [e1] at h; revert h; decide
      · rw [e1] at h; revert h; decide
      · exact h _ (by simp [special]) e1
    rw [if_neg e1]
    by_cases e2 : kw = "HISTORY".toList
    · rw [if_pos e2]
      simp only [reduceCtorEq, false_iff]
      rintro ⟨f, hf, -⟩
      rcases hval hf with ⟨h, -⟩ | ⟨h, -⟩ | ⟨h, -⟩ | ⟨h, -⟩
      · rw [e2] at h; revert h; decide
      · rw [e2] at h; revert h; decide
      · rw [e2] at h; revert h; decide
      · exact h _ (by simp [special]) e2
    rw [if_neg e2]
    by_cases e3 : kw = "CONTINUE".toList
    · rw [if_pos e3, parseContinuation_panic]
      constructor
      · intro h; exact ⟨_, .continue (k3.2 e3), h⟩
      · rintro ⟨f, hf, hq⟩
        rcases hval hf with ⟨-, rfl⟩ | ⟨h, -⟩ | ⟨h, -⟩ | ⟨h, -⟩
        · exact hq
        · rw [e3] at h; exact absurd h (by decide)
        · rw [e3] at h; exact absurd h (by decide)
        · exact absurd e3 (h _ (by simp [special]))
    rw [if_neg e3]
    by_cases e4 : kw = "XTENSION".toList
    · rw [if_pos e4, parseExtension_panic]
      constructor
      · intro h; exact ⟨_, .xtension (k4.2 e4), h⟩
      · rintro ⟨f, hf, hq⟩
        rcases hval hf with ⟨h, -⟩ | ⟨-, rfl⟩ | ⟨h, -⟩ | ⟨h, -⟩
        · exact absurd h e3
        · exact hq
        · rw [e4] at h; exact absurd h (by decide)
        · exact absurd e4 (h _ (by simp [special]))
    rw [if_neg e4]
    by_cases e5 : kw = "HIERARCH".toList
    · rw [if_pos e5, parseHierarch_panic]
      constructor
      · rintro ⟨k, v, h1, h2, h3⟩; exact ⟨_, .hierarch (k5.2 e5) h1 h2, h3⟩
      · rintro ⟨f, hf, hq⟩
        rcases hval hf with ⟨h, -⟩ | ⟨h, -⟩ | ⟨-, k, h1, h2⟩ | ⟨h, -⟩
        · exact absurd h e3
        · exact absurd h e4
        · exact ⟨k, f, h1, h2, hq⟩
        · exact absurd e5 (h _ (by simp [special]))
    rw [if_neg e5]
    by_cases e6 : kw = "END".toList
    · rw [if_pos e6]
      simp only [reduceCtorEq, false_iff]
      rintro ⟨f, hf, -⟩
      rcases hval hf with ⟨h, -⟩ | ⟨h, -⟩ | ⟨h, -⟩ | ⟨h, -⟩
      · exact e3 h
      · exact e4 h
      · exact e5 h
      · exact h _ (by simp [special]) e6
    rw [if_neg e6]
    by_cases e7 : (r.drop 8).take 2 = [0x3D, 0x20]
    · rw [if_pos e7, Res.map_eq_panic, parseValue_panic]
      constructor
      · intro h
        refine ⟨_, .value ?_ (fun h => e0 (k0.1 h)) e7, h⟩
        intro k hk hkw
        have : kw = k := Option.some.inj (hu.symm.trans
          ((keywordIs_iff (special_ok _ hk).1 (special_ok _ hk).2).1 hkw))
        simp only [special, List.mem_cons, List.not_mem_nil, or_false] at hk
        rcases hk with rfl | rfl | rfl | rfl | rfl | rfl
        · exact e1 this
        · exact e2 this
        · exact e3 this
        · exact e4 this
        · exact e5 this
        · exact e6 this
      · rintro ⟨f, hf, hq⟩
        rcases hval hf with ⟨h, -⟩ | ⟨h, -⟩ | ⟨h, -⟩ | ⟨-, -, -, rfl⟩
        · exact absurd h e3
        · exact absurd h e4
        · exact absurd h e5
        · exact hq
    · rw [if_neg e7]
      simp only [reduceCtorEq, false_iff]
      rintro ⟨f, hf, -⟩
      rcases hval hf with ⟨h, -⟩ | ⟨h, -⟩ | ⟨h, -⟩ | ⟨-, -, h, -⟩
      · exact e3 h
      · exact e4 h
      · exact e5 h
      · exact e7 h

/-- What remains of the property (full statement: `C09_statement`): no panic as long as the value field, if
any, is not a lone quote. -/
theorem C09_partial (r : List UInt8) (h : ∀ f, ValueField r f → ¬ LoneQuote f) : Card.tryFrom r ≠ .panic := by
  intro hp
  obtain ⟨-, f, hf, hq⟩ := (C09_panic_iff r).1 hp
  exact h f hf hq

/-- A record to which `C09_partial` applies, and the witness of `C09_fails` has the shape of `C09_panic_iff`. -/
example : Card.tryFrom (valueRecord "AAA".toList "''".toList) ≠ .panic := by decide +kernel
example : LoneQuote (loneQuoteRecord.drop 10) := by rw [loneQuote_iff]; decide +kernel

/-! ## C10: string values survive quoting -/

theorem C10_string_round_trip (kw s : Str) (lead pad : Nat) (comment : Option Str) (hk : Name kw)
    (hs : Printable s) (hc : ∀ t, comment = some t → Printable t) :
    Card.tryFrom (valueRecord kw (field lead (quoted s) pad comment)) =
      .ok (.value kw (.string (fitsString s) (commentOf comment))) := by
  rw [tryFrom_valueRecord hk]
  unfold parseValue
  rw [split_quoted hs hc]
  show Res.map _ (Res.map _ (parseString ('\'' :: (s ++ ['\'']))) ) = _
  rw [parseString_quoted hs]
  rfl

theorem sample_name : Name "OBJECT".toList :=
  ⟨by decide, by decide, by decide, by decide⟩

/-- `OBJECT  =  'it''s a/b  ' / see / below` is read as `it's a/b` with comment ` see / below`. -/
example : Card.tryFrom (toBytes "OBJECT  =  'it''s a/b  ' / see / below          ".toList) =
    .ok (.value "OBJECT".toList (.string "it's a/b".toList (some " see / below".toList))) := by
  have h := C10_string_round_trip "OBJECT".toList "it's a/b  ".toList 1 1 (some " see / below          ".toList)
    sample_name (by unfold Printable; decide) (by rintro t ⟨rfl⟩; unfold Printable; decide)
  exact h

/-! ## C11: integers survive -/

/-- The record with an integer value is read as that integer if it fits in 64 bits, and as a real number
otherwise. -/
theorem C11_integer_read (kw : Str) (sign : Option Bool) (zeros n lead pad : Nat) (comment : Option Str)
    (hk : Name kw) (hc : ∀ t, comment = some t → Printable t) :
    Card.tryFrom (valueRecord kw (field lead (intText sign zeros n) pad comment)) =
      .ok (.value kw (if -(2 ^ 63) ≤ signed sign n ∧ signed sign n < 2 ^ 63
        then .integer (signed sign n) (commentOf comment)
        else .float (.fin (isNeg sign) n 0) (commentOf comment))) := by
  have hdig : Digits (List.replicate zeros '0' ++ Nat.toDigits 10 n) := by
    intro c hc
    rcases List.mem_append.1 hc with h | h
    · rw [(List.mem_replicate.1 h).2]; decide
    · exact toDigits_digits n c h
  have hne : List.replicate zeros '0' ++ Nat.toDigits 10 n ≠ [] := by simp
  have hval : natOf (List.replicate zeros '0' ++ Nat.toDigits 10 n) = n := by
    rw [natOf_append, natOf_zeros, natOf_toDigits]; simp
  generalize hd : List.replicate zeros '0' ++ Nat.toDigits 10 n = ds at hdig hne hval
  have htext : intText sign zeros n = signText sign ++ ds := by
    unfold intText; rw [List.append_assoc, hd]
  rw [htext]
  have hall : ∀ c ∈ signText sign ++ ds, isDigit c = true ∨ c = '+' ∨ c = '-' := by
    intro c hc
    rcases List.mem_append.1 hc with h | h
    · match sign, h with
      | some false, h => simp [signText] at h; simp [h]
      | some true, h => simp [signText] at h; simp [h]
    · exact .inl (digits_all hdig c h)
  have hnot : ∀ d, isDigit d = false → d ≠ '+' → d ≠ '-' → d ∉ signText sign ++ ds := by
    intro d h1 h2 h3 h
    rcases hall d h with h | h | h
    · rw [h1] at h; simp at h
    · exact h2 h
    · exact h3 h
  have hplain : PlainValue (signText sign ++ ds) := by
    refine ⟨?_, hnot _ (by decide) (by decide) (by decide), hnot _ (by decide) (by decide) (by decide), ?_, ?_, ?_⟩
    · intro c hc
      rcases hall c hc with h | rfl | rfl
      · have := (isDigit_nat c).1 h; omega
      · decide
      · decide
    · intro h; exact hnot ' ' (by decide) (by decide) (by decide) (List.mem_of_mem_head? h)
    · intro h; exact hnot ' ' (by decide) (by decide) (by decide) (List.mem_of_getLast? h)
    · simp [hne]
  rw [tryFrom_valueRecord hk]
  unfold parseValue
  rw [split_plain hplain hc]
  have hnum : parseNumber (signText sign ++ ds) (commentOf comment) =
      (if -(2 ^ 63) ≤ signed sign n ∧ signed sign n < 2 ^ 63
        then .integer (signed sign n) (commentOf comment)
        else .float (.fin (isNeg sign) n 0) (commentOf comment)) := by
    have hi := parseI64_of (sign := sign) hdig hne
    rw [hval] at hi
    have hf : parseF64 (signText sign ++ ds) = some (.fin (isNeg sign) n 0) := by
      have := parseF64_of (x := ⟨sign, ds, none, none⟩) ⟨hdig, by intro c hc; simp [Numeral.fracDigits] at hc,
        by simpa [Numeral.fracDigits] using hne, by simp⟩
      rw [Numeral.text_eq] at this
      simpa [fracText, expText, Numeral.value, Numeral.fracDigits, Numeral.exponent_eq, expVal, hval] using this
    unfold parseNumber
    rw [if_neg hplain.nonempty, hi]
    unfold checkI64
    by_cases hr : -(2 ^ 63) ≤ signed sign n ∧ signed sign n < 2 ^ 63
    · rw [if_pos hr, if_pos hr]
    · rw [if_neg hr, if_neg hr]
      dsimp only
      rw [hf]
  obtain ⟨c, t, ht⟩ := List.exists_cons_of_ne_nil hplain.nonempty
  have hc1 := hall c (by rw [ht]; simp)
  show Res.map _ (match signText sign ++ ds with | [] => _ | ch :: _ => _) = _
  have hq : ∀ d, isDigit d = false → d ≠ '+' → d ≠ '-' → c ≠ d := by
    rintro d h1 h2 h3 rfl; exact hnot _ h1 h2 h3 (by rw [ht]; simp)
  rw [ht]
  dsimp only
  rw [if_neg (hq _ (by decide) (by decide) (by decide)), if_neg (hq _ (by decide) (by decide) (by decide)),
    if_neg (hq _ (by decide) (by decide) (by decide)), if_neg (hq _ (by decide) (by decide) (by decide)),
    if_pos (by rcases hc1 with h | h | h <;> simp [h]), ← ht, hnum]
  rfl

/-- Every 64-bit integer is read back. -/
theorem C11_round_trip (kw : Str) (n : Int) (plus : Bool) (zeros lead pad : Nat) (comment : Option Str)
    (hk : Name kw) (hc : ∀ t, comment = some t → Printable t) (h1 : -(2 ^ 63) ≤ n) (h2 : n < 2 ^ 63) :
    Card.tryFrom (valueRecord kw (field lead
      (intText (if n < 0 then some true else if plus then some false else none) zeros n.natAbs) pad comment)) =
      .ok (.value kw (.integer n (commentOf comment))) := by
  rw [C11_integer_read kw _ zeros n.natAbs lead pad comment hk hc]
  have : signed (if n < 0 then some true else if plus then some false else none) n.natAbs = n := by
    by_cases hn : n < 0
    · rw [if_pos hn, signed_minus]; omega
    · rw [if_neg hn]
      cases plus
      · rw [if_neg (by simp), signed_none]; omega
      · rw [if_pos rfl, signed_plus]; omega
  rw [this, if_pos ⟨h1, h2⟩]

/-- An integer card is only ever the result of a decimal integer in range, for every record. -/
theorem C11_sound (r : List UInt8) (name : Str) (n : Int) (c : Option Str)
    (h : Card.tryFrom r = .ok (.value name (.integer n c))) :
    ∃ sign ds, splitValueAndComment (r.drop 10) = .ok (signText sign ++ ds, c) ∧ Digits ds ∧ ds ≠ [] ∧
      n = signed sign (natOf ds) ∧ -(2 ^ 63) ≤ n ∧ n < 2 ^ 63 := by
  have hv : parseValue (r.drop 10) = .ok (.integer n c) := by
    unfold Card.tryFrom at h
    split at h
    · simp at h
    · rename_i kw hkw
      repeat' split at h
      all_goals first
        | (obtain ⟨v, hv, h⟩ := Res.map_eq_ok.1 h; simp only [Card.value.injEq] at h; rw [hv, h.2])
        | (exfalso; simp at h; done)
        | (exfalso; revert h; unfold parseEmptyKeywordCard; dsimp only; split <;> simp)
        | (exfalso; revert h; unfold parseContinuation; intro h
           obtain ⟨⟨a, b⟩, -, h⟩ := Res.bind_eq_ok.1 h
           obtain ⟨v, -, h⟩ := Res.map_eq_ok.1 h; simp at h)
        | (exfalso; unfold parseExtension at h
           obtain ⟨⟨a, b⟩, -, h⟩ := Res.bind_eq_ok.1 h
           dsimp only at h
           split at h
           · split at h
             · simp at h
             · obtain ⟨v, -, h⟩ := Res.map_eq_ok.1 h; simp at h
           · simp at h)
        | (exfalso; unfold parseHierarch at h
           dsimp only at h
           split at h
           · split at h
             · simp at h
             · obtain ⟨v, -, h⟩ := Res.map_eq_ok.1 h; simp at h
           · simp at h)
  unfold parseValue at hv
  obtain ⟨⟨v, d⟩, hsp, hv⟩ := Res.bind_eq_ok.1 hv
  dsimp only at hv
  split at hv
  · simp at hv
  · split at hv
    · obtain ⟨x, -, h⟩ := Res.map_eq_ok.1 hv; simp at h
    · split at hv
      · simp at hv
      · split at hv
        · simp at hv
        · split at hv
          · simp at hv
          · split at hv
            · rw [Res.ok.injEq] at hv
              unfold parseNumber at hv
              split at hv
              · simp at hv
              · split at hv
                · rename_i m hm
                  simp only [Value.integer.injEq] at hv
                  obtain ⟨rfl, rfl⟩ := hv
                  obtain ⟨sign, t, h1, h2, h3, h4, h5, h6⟩ := parseI64_some hm
                  exact ⟨sign, t, by rw [hsp, h1], h2, h3, h4, h5, h6⟩
                · split at hv
                  · simp at hv
                  · dsimp only at hv
                    split at hv <;> simp at hv
            · simp at hv

/-- `NAXIS1  =              +0042 / width` is 42. -/
example : Card.tryFrom (toBytes "NAXIS1  =              +0042 / width".toList) =
    .ok (.value "NAXIS1".toList (.integer 42 (some " width".toList))) := by
  have h := C11_round_trip "NAXIS1".toList 42 true 2 13 1 (some " width".toList)
    ⟨by decide, by decide, by decide, by decide⟩ (by rintro t ⟨rfl⟩; unfold Printable; decide) (by decide)
    (by decide)
  exact h

/-- `2^63` is not an integer value. -/
example : Card.tryFrom (valueRecord "BIG".toList (field 0 (intText none 0 (2 ^ 63)) 0 none)) =
    .ok (.value "BIG".toList (.float (.fin false (2 ^ 63) 0) none)) := by
  rw [C11_integer_read _ _ _ _ _ _ _ ⟨by decide, by decide, by decide, by decide⟩ (by simp), if_neg (by decide)]
  rfl

/-! ## C12: FORTRAN D exponents read like E exponents -/

/-- A numeral with a point or an exponent (letter `E` or `D`) is read as the real number it denotes. -/
theorem C12_real_read (kw : Str) (x : Numeral) (lead pad : Nat) (comment : Option Str) (hk : Name kw)
    (hx : x.Legal ['E', 'D']) (hr : x.frac ≠ none ∨ x.exp ≠ none) (hc : ∀ t, comment = some t → Printable t) :
    Card.tryFrom (valueRecord kw (field lead x.text pad comment)) =
      .ok (.value kw (.float x.value (commentOf comment))) := by
  have hall : ∀ c ∈ x.text, isDigit c = true ∨ c = '+' ∨ c = '-' ∨ c = '.' ∨ c = 'E' ∨ c = 'D' := by
    have hsg : ∀ s (c : Char), c ∈ signText s → c = '+' ∨ c = '-' := by
      intro s c h
      match s, h with
      | some false, h => simp [signText] at h; simp [h]
      | some true, h => simp [signText] at h; simp [h]
    intro c hc
    rw [x.text_eq] at hc
    simp only [List.mem_append] at hc
    rcases hc with h | h | h | h
    · rcases hsg _ c h with h | h <;> simp [h]
    · exact .inl (digits_all hx.int c h)
    · have hf := hx.frac
      cases he : x.frac with
      | none => rw [he] at h; simp [fracText] at h
      | some f =>
        rw [he] at h
        simp only [Numeral.fracDigits, he, Option.getD_some] at hf
        rcases List.mem_cons.1 h with h | h
        · simp [h]
        · exact .inl (digits_all hf c h)
    · cases he : x.exp with
      | none => rw [he] at h; simp [expText] at h
      | some e =>
        rw [he] at h
        obtain ⟨h1, h2, -⟩ := hx.exp e he
        rcases List.mem_cons.1 h with h | h
        · subst h; simp only [List.mem_cons, List.not_mem_nil, or_false] at h1; rcases h1 with h | h <;> simp [h]
        · rcases List.mem_append.1 h with h | h
          · rcases hsg _ c h with h | h <;> simp [h]
          · exact .inl (digits_all h2 c h)
  have hnot : ∀ d, isDigit d = false → d ∉ ['+', '-', '.', 'E', 'D'] → d ∉ x.text := by
    intro d h1 h2 h
    simp only [List.mem_cons, List.not_mem_nil, or_false, not_or] at h2
    have := hall d h
    simp [h1, h2] at this
  have hne : x.text ≠ [] := by
    obtain ⟨a, t, ht, -⟩ := numeral_head hx
    rw [x.text_eq, ht]; simp
  have hplain : PlainValue x.text := by
    refine ⟨?_, hnot _ (by decide) (by decide), hnot _ (by decide) (by decide), ?_, ?_, hne⟩
    · intro c hc
      rcases hall c hc with h | rfl | rfl | rfl | rfl | rfl
      · have := (isDigit_nat c).1 h; omega
      all_goals decide
    · intro h; exact hnot ' ' (by decide) (by decide) (List.mem_of_mem_head? h)
    · intro h; exact hnot ' ' (by decide) (by decide) (List.mem_of_getLast? h)
  rw [tryFrom_valueRecord hk]
  unfold parseValue
  rw [split_plain hplain hc]
  have hhead : ∃ c t, x.text = c :: t ∧ (isDigit c = true ∨ c = '-' ∨ c = '+' ∨ c = '.') := by
    obtain ⟨a, t, ht, ha⟩ := numeral_head hx
    rw [x.text_eq, ht]
    match x.sign with
    | none => exact ⟨a, t, rfl, by rcases ha with h | h <;> simp [h]⟩
    | some false => exact ⟨'+', a :: t, rfl, by simp⟩
    | some true => exact ⟨'-', a :: t, rfl, by simp⟩
  obtain ⟨c, t, ht, hc1⟩ := hhead
  show Res.map _ (match x.text with | [] => _ | ch :: _ => _) = _
  have hq : ∀ d, isDigit d = false → d ∉ ['-', '+', '.'] → c ≠ d := by
    rintro d h1 h2 rfl
    simp only [List.mem_cons, List.not_mem_nil, or_false, not_or] at h2
    simp [h1, h2] at hc1
  rw [ht]
  dsimp only
  rw [if_neg (hq _ (by decide) (by decide)), if_neg (hq _ (by decide) (by decide)),
    if_neg (hq _ (by decide) (by decide)), if_neg (hq _ (by decide) (by decide)),
    if_pos (by rcases hc1 with h | h | h | h <;> simp [h]), ← ht, parseNumber_numeral hx hr]
  rfl

/-- Exponent letter `D` denotes the same as `E`. -/
theorem C12_D_like_E (kw : Str) (sign esign : Option Bool) (int digits : Str) (frac : Option Str)
    (lead pad : Nat) (comment : Option Str) (hk : Name kw) (hi : Digits int)
    (hf : Digits (frac.getD [])) (h0 : int ++ frac.getD [] ≠ []) (hd : Digits digits) (hd0 : digits ≠ [])
    (hc : ∀ t, comment = some t → Printable t) :
    Card.tryFrom (valueRecord kw (field lead
        (Numeral.text ⟨sign, int, frac, some ⟨'D', esign, digits⟩⟩) pad comment)) =
    Card.tryFrom (valueRecord kw (field lead
        (Numeral.text ⟨sign, int, frac, some ⟨'E', esign, digits⟩⟩) pad comment)) := by
  rw [C12_real_read kw ⟨sign, int, frac, some ⟨'D', esign, digits⟩⟩ lead pad comment hk
      ⟨hi, hf, h0, by rintro e ⟨rfl⟩; exact ⟨by simp, hd, hd0⟩⟩ (by simp) hc,
    C12_real_read kw ⟨sign, int, frac, some ⟨'E', esign, digits⟩⟩ lead pad comment hk
      ⟨hi, hf, h0, by rintro e ⟨rfl⟩; exact ⟨by simp, hd, hd0⟩⟩ (by simp) hc]
  rfl

/-- A real value is only ever the result of a numeral denoting it (exponent letters `e`, `E`, `D`), or of a
signed `inf`, `infinity` or `nan`, which the FITS standard does not have but Rust accepts. -/
theorem C12_sound (v : Str) (c c' : Option Str) (x : Dec) (h : parseNumber v c = .float x c') :
    (∃ y : Numeral, y.Legal ['e', 'E'] ∧ v.map (fun ch => if ch = 'D' then 'E' else ch) = y.text ∧ x = y.value) ∨
    (∃ sign t, v.map (fun ch => if ch = 'D' then 'E' else ch) = signText sign ++ t ∧
      t.map Char.toLower ∈ ["inf".toList, "infinity".toList, "nan".toList] ∧
      (x = .inf (isNeg sign) ∨ x = .nan (isNeg sign))) := by
  have h0 : v ≠ [] := by
    rintro rfl
    simp [parseNumber] at h
  cases hi : parseI64 v with
  | some n =>
    unfold parseNumber at h
    rw [if_neg h0, hi] at h
    simp at h
  | none =>
    rw [parseNumber_noInt h0 hi] at h
    cases hf : parseF64 (dToE v) with
    | none => rw [hf] at h; simp at h
    | some y =>
      rw [hf] at h
      simp only [Value.float.injEq] at h
      rw [← h.1]
      exact parseF64_some hf

/-- `SCALE   = -1.25D-03 / d` denotes -125 * 10^-5. -/
example : Card.tryFrom (toBytes "SCALE   = -1.25D-03 / d".toList) =
    .ok (.value "SCALE".toList (.float (.fin true 125 (-5)) (some " d".toList))) := by
  have h := C12_real_read "SCALE".toList ⟨some true, "1".toList, some "25".toList, some ⟨'D', some true, "03".toList⟩⟩
    0 1 (some " d".toList) ⟨by decide, by decide, by decide, by decide⟩
    ⟨by unfold Digits; decide, by unfold Digits; decide, by decide,
      by rintro e ⟨rfl⟩; exact ⟨by decide, by unfold Digits; decide, by decide⟩⟩
    (.inl (by decide)) (by rintro t ⟨rfl⟩; unfold Printable; decide)
  exact h

/-- Not a number: invalid. -/
example : Card.tryFrom (toBytes "SCALE   = 1.2.3".toList) = .ok (.value "SCALE".toList (.invalid "1.2.3".toList)) := by
  decide +kernel

/-! ## C13: logical and blank values -/

theorem C13_logical (kw : Str) (b : Bool) (lead pad : Nat) (comment : Option Str) (hk : Name kw)
    (hc : ∀ t, comment = some t → Printable t) :
    Card.tryFrom (valueRecord kw (field lead [if b then 'T' else 'F'] pad comment)) =
      .ok (.value kw (.logical b (commentOf comment))) := by
  have hplain : PlainValue [if b then 'T' else 'F'] := by
    cases b
    · exact ⟨by unfold Printable; decide, by decide, by decide, by decide, by decide, by decide⟩
    · exact ⟨by unfold Printable; decide, by decide, by decide, by decide, by decide, by decide⟩
  rw [tryFrom_valueRecord hk]
  unfold parseValue
  rw [split_plain hplain hc]
  cases b <;> rfl

theorem C13_undefined (kw : Str) (lead pad : Nat) (comment : Option Str) (hk : Name kw)
    (hc : ∀ t, comment = some t → Printable t) :
    Card.tryFrom (valueRecord kw (field lead [] pad comment)) = .ok (.value kw .undefined) := by
  rw [tryFrom_valueRecord hk]
  unfold parseValue
  rw [split_empty hc]
  rfl

example : Card.tryFrom (toBytes "SIMPLE  =                    T / conforms".toList) =
    .ok (.value "SIMPLE".toList (.logical true (some " conforms".toList))) := by
  exact C13_logical "SIMPLE".toList true 19 1 (some " conforms".toList)
    ⟨by decide, by decide, by decide, by decide⟩ (by rintro t ⟨rfl⟩; unfold Printable; decide)

example : Card.tryFrom (toBytes "BLANK   =          ".toList) = .ok (.value "BLANK".toList .undefined) := by
  exact C13_undefined "BLANK".toList 9 0 none ⟨by decide, by decide, by decide, by decide⟩ (by simp)

/-! ## C14: commentary text is kept -/

theorem parseCommentText_eq (bs : List UInt8) : parseCommentText bs = commentaryText bs := by
  unfold parseCommentText commentaryText trimAsciiEndStr
  have e : (bs.map fun b => if 0x20 ≤ b.toNat ∧ b.toNat ≤ 0x7E then Char.ofNat b.toNat else replacement) =
      bs.map fun b => if 0x20 ≤ b ∧ b ≤ 0x7E then Char.ofNat b.toNat else Char.ofNat 0xFFFD := by
    apply List.map_congr_left
    intro b _
    have h1 : (0x20 ≤ b.toNat ∧ b.toNat ≤ 0x7E) ↔ ((0x20 : UInt8) ≤ b ∧ b ≤ 0x7E) := by
      rw [UInt8.le_iff_toNat_le, UInt8.le_iff_toNat_le]; rfl
    simp only [h1]; rfl
  rw [e, stripEnd_eq]
  apply trimEndBy_congr
  intro c hc
  obtain ⟨b, -, rfl⟩ := List.mem_map.1 hc
  split
  · rename_i hb
    rw [UInt8.le_iff_toNat_le, UInt8.le_iff_toNat_le] at hb
    have hn : (Char.ofNat b.toNat).toNat = b.toNat := toNat_ofNat_lt (by have := b.toNat_lt; omega)
    exact isAsciiWsChar_printable (by rw [hn]; exact hb)
  · decide

/-- `COMMENT` and `HISTORY` records, for every text. -/
theorem C14_commentary (text : List UInt8) :
    Card.tryFrom (commentaryRecord "COMMENT".toList text) = .ok (.comment (commentaryText text)) ∧
    Card.tryFrom (commentaryRecord "HISTORY".toList text) = .ok (.history (commentaryText text)) := by
  constructor
  · unfold Card.tryFrom commentaryRecord
    rw [keyword_read (by unfold Printable; decide) (by decide) (by decide), drop_keyword (by decide),
      parseCommentText_eq]
    rfl
  · unfold Card.tryFrom commentaryRecord
    rw [keyword_read (by unfold Printable; decide) (by decide) (by decide), drop_keyword (by decide),
      parseCommentText_eq]
    rfl

/-- Records with a blank keyword. -/
theorem C14_blank_keyword (text : List UInt8) :
    Card.tryFrom (commentaryRecord [] text) =
      .ok (if commentaryText text = [] then .space else .comment (commentaryText text)) := by
  unfold Card.tryFrom commentaryRecord
  rw [keyword_read (by intro c hc; simp at hc) (by decide) (by decide)]
  dsimp only
  rw [if_pos rfl]
  unfold parseEmptyKeywordCard
  dsimp only
  rw [drop_keyword (by decide), parseCommentText_eq]

/-- The text of a blank record is empty, so it is a `Space` card. -/
theorem C14_space (n : Nat) : Card.tryFrom (commentaryRecord [] (toBytes (blank n))) = .ok .space := by
  rw [C14_blank_keyword]
  have : commentaryText (toBytes (blank n)) = [] := by
    rw [← parseCommentText_eq]
    unfold parseCommentText trimAsciiEndStr
    apply trimEndBy_all
    intro c hc
    obtain ⟨b, hb, rfl⟩ := List.mem_map.1 hc
    obtain ⟨d, hd, rfl⟩ := List.mem_map.1 hb
    rw [mem_blank hd]; decide
  rw [if_pos this]

example : Card.tryFrom (toBytes "COMMENT  a = 'b'  ".toList ++ [0x09, 0x41, 0x20]) =
    .ok (.comment (" a = 'b'  ".toList ++ [Char.ofNat 0xFFFD, 'A'])) := by
  have h := (C14_commentary (toBytes " a = 'b'  ".toList ++ [0x09, 0x41, 0x20])).1
  exact h.trans (by decide +kernel)

/-! ## C15: HIERARCH keywords -/

theorem hierarchRecord_parts {ts : List (Nat × Str)} (pad : Nat) (f : Str) (h : Tokens ts) :
    hierarchParts (hierarchRecord ts pad f) (toBytes (hierarchText ts ++ blank pad)) (toBytes f) := by
  constructor
  · unfold hierarchRecord
    rw [toBytes_append, toBytes_append]
    rfl
  · intro hm
    obtain ⟨c, hc, he⟩ := List.mem_map.1 hm
    have hpr : ∀ (l : List (Nat × Str)), (∀ p ∈ l, p ∈ ts) → ∀ c ∈ hierarchText l,
        (0x20 ≤ c.toNat ∧ c.toNat ≤ 0x7E) ∧ c ≠ '=' := by
      intro l
      induction l with
      | nil => intro _ c hc; simp [hierarchText] at hc
      | cons p l ih =>
        intro hl c hc
        simp only [hierarchText, List.mem_append] at hc
        rcases hc with (hc | hc) | hc
        · rw [mem_blank hc]; decide
        · obtain ⟨-, h2, -, h4⟩ := h.tokens p (hl p (by simp))
          exact ⟨h2 c hc, by rintro rfl; exact h4 hc⟩
        · exact ih (fun q hq => hl q (by simp [hq])) c hc
    have hcc : (0x20 ≤ c.toNat ∧ c.toNat ≤ 0x7E) ∧ c ≠ '=' := by
      rcases List.mem_append.1 hc with hc | hc
      · exact hpr ts (fun _ h => h) c hc
      · rw [mem_blank hc]; decide
    have := congrArg UInt8.toNat he
    simp only [UInt8.toNat_ofNat'] at this
    have h61 : c.toNat = 61 := by
      have h2 : (61 : UInt8).toNat = 61 := rfl
      rw [h2] at this
      omega
    exact hcc.2 (Char.toNat_inj.1 h61)

/-- A `HIERARCH` record is a value named by its tokens, separated by dots, and holding the value of the rest. -/
theorem C15_hierarch (ts : List (Nat × Str)) (pad : Nat) (f : Str) (h : Tokens ts) :
    Card.tryFrom (hierarchRecord ts pad f) =
      (parseValue (toBytes f)).map (.hierarch (dotted (ts.map (·.2)))) := by
  have hk : Card.tryFrom (hierarchRecord ts pad f) = parseHierarch (hierarchRecord ts pad f) := by
    have e : hierarchRecord ts pad f =
        toBytes (keywordField "HIERARCH".toList) ++ toBytes (' ' :: (hierarchText ts ++ blank pad ++ '=' :: f)) := by
      unfold hierarchRecord
      rw [← toBytes_append]; rfl
    unfold Card.tryFrom
    conv => lhs; rw [e, keyword_read (by unfold Printable; decide) (by decide) (by decide), ← e]
    rfl
  rw [hk, parseHierarch_parts (hierarchRecord_parts pad f h), tokens_hierarchText pad h.tokens h.separated]
  have hmap : (ts.map fun p => toBytes p.2).map utf8Lossy = ts.map (·.2) := by
    rw [List.map_map]
    apply List.map_congr_left
    intro p hp
    have hlt : ∀ c ∈ p.2, c.toNat < 0x80 := by
      intro c hc; have := (h.tokens p hp).2.1 c hc; omega
    simp only [Function.comp_apply]
    rw [utf8Lossy_ascii (toBytes_ascii hlt), map_asciiChar_toBytes hlt]
  cases ts with
  | nil => exact absurd rfl h.nonempty
  | cons p ts =>
    simp only [List.map_cons] at hmap ⊢
    rw [hmap, joinDots_eq]

/-- With a string value, for example: the name and the string are read back. -/
theorem C15_hierarch_string (ts : List (Nat × Str)) (pad lead pad' : Nat) (s : Str) (comment : Option Str)
    (h : Tokens ts) (hs : Printable s) (hc : ∀ t, comment = some t → Printable t) :
    Card.tryFrom (hierarchRecord ts pad (field lead (quoted s) pad' comment)) =
      .ok (.hierarch (dotted (ts.map (·.2))) (.string (fitsString s) (commentOf comment))) := by
  rw [C15_hierarch ts pad _ h]
  unfold parseValue
  rw [split_quoted hs hc]
  show Res.map _ (Res.map _ (parseString ('\'' :: (s ++ ['\'']))) ) = _
  rw [parseString_quoted hs]
  rfl

/-- Without equal sign, or without a token before it, a `HIERARCH` record is an error. -/
theorem C15_errors (r : List UInt8) (hk : KeywordIs r "HIERARCH".toList)
    (h : 0x3D ∉ r.drop 9 ∨ ∃ k v, hierarchParts r k v ∧ ∀ x ∈ k, isBlank x) :
    ∃ e, Card.tryFrom r = .err e := by
  have hk := (keywordIs_iff (by unfold Printable; decide) (by decide)).1 hk
  have e : Card.tryFrom r = parseHierarch r := by
    unfold Card.tryFrom
    rw [hk]; rfl
  rw [e]
  refine ⟨.dynamic, ?_⟩
  rcases h with h | ⟨k, v, hkv, hb⟩
  · unfold parseHierarch
    simp [h]
  · rw [parseHierarch_parts hkv, tokens_eq_nil.2 (fun x hx => (isAsciiWs_iff x).2 (hb x hx))]

example : Card.tryFrom (toBytes "HIERARCH ESO  DET NAME = 'x' / d".toList) =
    .ok (.hierarch "ESO.DET.NAME".toList (.string "x".toList (some " d".toList))) := by
  have h := C15_hierarch_string [(0, "ESO".toList), (2, "DET".toList), (1, "NAME".toList)] 1 1 1 "x".toList
    (some " d".toList) ⟨by decide, by unfold Printable; decide, by decide⟩ (by unfold Printable; decide)
    (by rintro t ⟨rfl⟩; unfold Printable; decide)
  exact h

example : ∃ e, Card.tryFrom (toBytes "HIERARCH    = 3".toList) = .err e := by
  refine C15_errors _ ?_ (.inr ⟨[0x20, 0x20, 0x20], [0x20, 0x33], ⟨by decide +kernel, by decide⟩, by unfold isBlank; decide⟩)
  rw [keywordIs_iff (by unfold Printable; decide) (by decide)]
  decide +kernel

/-! ## C16: slashes and quotes are classified correctly -/

/-- Splitting a field never reaches the unreachable states. -/
theorem C16_no_panic (buf : List UInt8) : splitValueAndComment buf ≠ .panic :=
  splitValueAndComment_ne_panic buf

/-- The comment, for every byte string that is split: it is what follows the first slash outside quotes, and
there is none when there is no such slash.  (Trailing blanks are dropped and the characters that are not
printable replaced.) -/
theorem C16_comment (buf : List UInt8) (v : Str) (c : Option Str) (h : splitValueAndComment buf = .ok (v, c)) :
    (∀ t, c = some t ↔ ∃ pre rest, FirstSlash (utf8Lossy (trimAscii buf)) pre rest ∧
      t = stripEnd (rest.map fun x => if 0x20 ≤ x.toNat ∧ x.toNat ≤ 0x7E then x else Char.ofNat 0xFFFD)) ∧
    (c = none ↔ ¬ ∃ pre rest, FirstSlash (utf8Lossy (trimAscii buf)) pre rest) := by
  unfold splitValueAndComment at h
  obtain ⟨⟨w, r⟩, hw, h⟩ := Res.map_eq_ok.1 h
  have hr := splitLoop_comment (by simp) hw
  rw [show (false && !false) = false from rfl] at hr
  have hclean : ∀ cs : Str, trimEndStr (cs.map fun c => if isPrintable c then c else replacement) =
      stripEnd (cs.map fun x => if 0x20 ≤ x.toNat ∧ x.toNat ≤ 0x7E then x else Char.ofNat 0xFFFD) := by
    intro cs
    have e : (cs.map fun c => if isPrintable c then c else replacement) =
        cs.map fun x => if 0x20 ≤ x.toNat ∧ x.toNat ≤ 0x7E then x else Char.ofNat 0xFFFD := by
      apply List.map_congr_left
      intro x _
      simp only [isPrintable_iff]; rfl
    rw [e, stripEnd_eq]
    apply trimEndBy_congr
    intro x hx
    obtain ⟨y, -, rfl⟩ := List.mem_map.1 hx
    split
    · rename_i hy; exact isWs_printable hy
    · decide
  cases r with
  | none =>
    simp only [Prod.mk.injEq] at h
    obtain ⟨-, rfl⟩ := h
    have hn : ¬ ∃ pre rest, FirstSlash (utf8Lossy (trimAscii buf)) pre rest := by
      rintro ⟨pre, rest, hf⟩
      rw [← cut_iff] at hf
      rw [hf] at hr
      simp at hr
    refine ⟨?_, by simp [hn]⟩
    intro t
    simp only [reduceCtorEq, false_iff]
    rintro ⟨pre, rest, hf, -⟩
    exact hn ⟨pre, rest, hf⟩
  | some cs =>
    simp only [Prod.mk.injEq] at h
    obtain ⟨-, rfl⟩ := h
    have hf : FirstSlash (utf8Lossy (trimAscii buf)) (cut false (utf8Lossy (trimAscii buf))).1 cs :=
      cut_iff.1 (Prod.ext rfl hr.symm)
    refine ⟨?_, by simp; exact ⟨_, _, hf⟩⟩
    intro t
    rw [Option.some.injEq, hclean]
    constructor
    · rintro rfl; exact ⟨_, _, hf, rfl⟩
    · rintro ⟨pre, rest, hf', rfl⟩
      have := (cut_iff.2 hf').symm.trans (cut_iff.2 hf)
      simp only [Prod.mk.injEq, Option.some.injEq] at this
      rw [this.2]

/-- The value, for printable fields, which are always split: it is what precedes that slash, with the doubled
quotes inside strings undoubled and surrounding blanks removed. -/
theorem C16_value (s : Str) (hs : Printable s) :
    (∀ pre rest, FirstSlash (strip s) pre rest →
      splitValueAndComment (toBytes s) = .ok (strip (unquote false pre), some (stripEnd rest))) ∧
    ((¬ ∃ pre rest, FirstSlash (strip s) pre rest) →
      splitValueAndComment (toBytes s) = .ok (strip (unquote false (strip s)), none)) := by
  constructor
  · intro pre rest hf
    rw [split_printable hs, cut_iff.2 hf]; rfl
  · intro hn
    have h2 : (cut false (strip s)).2 = none := by
      cases hc : (cut false (strip s)).2 with
      | none => rfl
      | some r => exact absurd ⟨_, _, cut_iff.1 (Prod.ext rfl hc)⟩ hn
    rw [split_printable hs, h2, (cut_none h2).1]; rfl

/-- A field that cannot be split has a character that is not printable before the comment. -/
theorem C16_error (buf : List UInt8) (e : Err) (h : splitValueAndComment buf = .err e) :
    ∃ c ∈ utf8Lossy (trimAscii buf), ¬ (0x20 ≤ c.toNat ∧ c.toNat ≤ 0x7E) := by
  unfold splitValueAndComment at h
  obtain ⟨c, hc, hp⟩ := splitLoop_err (Res.map_eq_err.1 h)
  refine ⟨c, cut_mem hc, ?_⟩
  rw [← isPrintable_iff, hp]; simp

/-- A slash and a doubled quote inside a string, and two slashes after it. -/
example : splitValueAndComment (toBytes " 'a/b''/c' / d / e ".toList) =
    .ok ("'a/b'/c'".toList, some " d / e".toList) := by decide +kernel
example : FirstSlash "'a/b''/c' / d".toList "'a/b''/c' ".toList " d".toList := by
  rw [← cut_iff]; decide +kernel

end Fitsrs

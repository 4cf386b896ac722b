import Verif.Lemmas.Field
/-
Helper lemmas on the parsing of numbers.
-/

namespace Fitsrs
open Spec

theorem isDigit_iff (c : Char) : isDigit c = true ↔ '0' ≤ c ∧ c ≤ '9' := by
  simp [isDigit]

theorem isDigit_nat (c : Char) : isDigit c = true ↔ 48 ≤ c.toNat ∧ c.toNat ≤ 57 := by
  rw [isDigit_iff, char_le_iff, char_le_iff]; exact Iff.rfl

theorem digits_iff (s : Str) : Digits s ↔ s.all isDigit = true := by
  simp only [Digits, List.all_eq_true, isDigit_iff]

theorem digitsVal_foldl (s : Str) (n : Nat) :
    s.foldl (fun n c => 10 * n + digitVal c) n = n * 10 ^ s.length + natOf s := by
  induction s generalizing n with
  | nil => simp [natOf]
  | cons c s ih =>
    rw [List.foldl_cons, ih, List.length_cons, natOf, Nat.pow_succ, digitVal, show '0'.toNat = 48 from rfl]
    generalize 10 ^ s.length = k
    rw [Nat.add_mul, Nat.mul_comm k 10, ← Nat.mul_assoc, Nat.mul_comm n 10, Nat.add_assoc]

theorem digitsVal_eq (s : Str) : digitsVal s = natOf s := by
  unfold digitsVal; rw [digitsVal_foldl]; simp

theorem natOf_append (a b : Str) : natOf (a ++ b) = natOf a * 10 ^ b.length + natOf b := by
  rw [← digitsVal_eq, ← digitsVal_eq b, ← digitsVal_eq a]
  unfold digitsVal
  rw [List.foldl_append, digitsVal_foldl b, ← digitsVal_eq b]; rfl

theorem natOf_zeros (n : Nat) : natOf (List.replicate n '0') = 0 := by
  induction n with
  | zero => rfl
  | succ n ih => simp [List.replicate_succ, natOf, ih]

theorem digitChar_nat {d : Nat} (h : d < 10) : (Nat.digitChar d).toNat = 48 + d := by
  have : ∀ d : Fin 10, (Nat.digitChar d.1).toNat = 48 + d.1 := by decide
  exact this ⟨d, h⟩

theorem toDigits_digits (n : Nat) : Digits (Nat.toDigits 10 n) := by
  induction n using Nat.strongRecOn with
  | _ n ih =>
    by_cases h : n < 10
    · rw [Nat.toDigits_of_lt_base h]
      intro c hc
      simp only [List.mem_singleton] at hc
      subst hc
      rw [← isDigit_iff, isDigit_nat, digitChar_nat h]; omega
    · rw [Nat.toDigits_of_base_le (by omega) (by omega)]
      intro c hc
      rcases List.mem_append.1 hc with hc | hc
      · exact ih (n / 10) (by omega) c hc
      · simp only [List.mem_singleton] at hc
        subst hc
        rw [← isDigit_iff, isDigit_nat, digitChar_nat (by omega)]; omega

theorem natOf_toDigits (n : Nat) : natOf (Nat.toDigits 10 n) = n := by
  induction n using Nat.strongRecOn with
  | _ n ih =>
    by_cases h : n < 10
    · rw [Nat.toDigits_of_lt_base h]
      simp only [natOf, digitChar_nat h, List.length_nil]; omega
    · rw [Nat.toDigits_of_base_le (by omega) (by omega), natOf_append, ih (n / 10) (by omega)]
      simp only [natOf, digitChar_nat (show n % 10 < 10 by omega), List.length_cons, List.length_nil]
      omega

theorem toDigits_ne_nil (n : Nat) : Nat.toDigits 10 n ≠ [] := Nat.toDigits_ne_nil

/-- Unsigned part of an integer literal. -/
theorem parseDigits_of {s : Str} (h : Digits s) (h0 : s ≠ []) : parseDigits s = some (natOf s) := by
  unfold parseDigits
  rw [if_pos ⟨h0, (digits_iff s).1 h⟩, digitsVal_eq]

theorem parseDigits_some {s : Str} {n : Nat} (h : parseDigits s = some n) :
    Digits s ∧ s ≠ [] ∧ n = natOf s := by
  unfold parseDigits at h
  split at h
  · rename_i h'
    rw [Option.some.injEq, digitsVal_eq] at h
    exact ⟨(digits_iff s).2 h'.2, h'.1, h.symm⟩
  · simp at h

theorem digits_head {s : Str} (h : Digits s) (c : Char) (hc : isDigit c = false) : s.head? ≠ some c := by
  intro h'
  have := h c (List.mem_of_mem_head? h')
  rw [← isDigit_iff, hc] at this
  simp at this

theorem signed_none (n : Nat) : signed none n = n := rfl
theorem signed_plus (n : Nat) : signed (some false) n = n := rfl
theorem signed_minus (n : Nat) : signed (some true) n = -(n : Int) := rfl

theorem parseI64_plus (t : Str) : parseI64 ('+' :: t) = (parseDigits t).bind fun n => checkI64 n := rfl
theorem parseI64_minus (t : Str) : parseI64 ('-' :: t) = (parseDigits t).bind fun n => checkI64 (-(n : Int)) := rfl

theorem parseI64_plain {s : Str} (h1 : s.head? ≠ some '-') (h2 : s.head? ≠ some '+') :
    parseI64 s = (parseDigits s).bind fun n => checkI64 n := by
  unfold parseI64
  split
  · simp at h1
  · simp at h2
  · rfl

/-- `parseI64` on a signed text of digits. -/
theorem parseI64_of {sign : Option Bool} {s : Str} (h : Digits s) (h0 : s ≠ []) :
    parseI64 (signText sign ++ s) =
      checkI64 (signed sign (natOf s)) := by
  have hd := parseDigits_of h h0
  cases sign with
  | none =>
    rw [show signText none ++ s = s from rfl, signed_none, parseI64_plain (digits_head h '-' (by decide))
      (digits_head h '+' (by decide)), hd, Option.bind_some]
  | some b =>
    cases b with
    | false =>
      rw [show signText (some false) ++ s = '+' :: s from rfl, signed_plus, parseI64_plus, hd, Option.bind_some]
    | true =>
      rw [show signText (some true) ++ s = '-' :: s from rfl, signed_minus, parseI64_minus, hd, Option.bind_some]

theorem parseI64_some {s : Str} {n : Int} (h : parseI64 s = some n) :
    ∃ sign t, s = signText sign ++ t ∧ Digits t ∧ t ≠ [] ∧ n = signed sign (natOf t) ∧
      -(2 ^ 63) ≤ n ∧ n < 2 ^ 63 := by
  unfold parseI64 at h
  split at h
  all_goals
    obtain ⟨m, hm, h⟩ := Option.bind_eq_some_iff.1 h
    obtain ⟨h1, h2, rfl⟩ := parseDigits_some hm
    unfold checkI64 at h
    split at h
    · rename_i hr
      rw [Option.some.injEq] at h
      subst h
      first
        | exact ⟨some true, _, rfl, h1, h2, rfl, hr⟩
        | exact ⟨some false, _, rfl, h1, h2, rfl, hr⟩
        | exact ⟨none, _, rfl, h1, h2, rfl, hr⟩
    · simp at h

/-! ### Real numbers -/

theorem takeWhile_append_stop {p : Char → Bool} {a b : Str} (ha : ∀ c ∈ a, p c = true)
    (hb : ∀ c, b.head? = some c → p c = false) :
    (a ++ b).takeWhile p = a ∧ (a ++ b).dropWhile p = b := by
  induction a with
  | nil =>
    cases b with
    | nil => simp
    | cons c b => have := hb c rfl; simp [this]
  | cons c a ih =>
    obtain ⟨h1, h2⟩ := ih (fun x hx => ha x (by simp [hx]))
    have hc := ha c (by simp)
    simp [hc, h1, h2]

theorem digits_all {s : Str} (h : Digits s) : ∀ c ∈ s, isDigit c = true :=
  fun c hc => (isDigit_iff c).2 (h c hc)

/-- The exponent part. -/
def expText : Option Exponent → Str
  | none => []
  | some e => e.letter :: (signText e.sign ++ e.digits)

/-- The decimal exponent. -/
def expVal : Option Exponent → Int
  | none => 0
  | some e => signed e.sign (natOf e.digits)

theorem Spec.Numeral.exponent_eq (x : Numeral) : x.exponent = expVal x.exp := by
  unfold Numeral.exponent expVal
  cases x.exp <;> rfl

def fracText : Option Str → Str
  | none => []
  | some f => '.' :: f

theorem Spec.Numeral.text_eq (x : Numeral) :
    x.text = signText x.sign ++ (x.int ++ (fracText x.frac ++ expText x.exp)) := by
  obtain ⟨sg, i, f, e⟩ := x
  cases f <;> cases e <;> simp [Numeral.text, fracText, expText]

theorem parseExp_of {e : Option Exponent}
    (h : ∀ x, e = some x → (x.letter = 'e' ∨ x.letter = 'E') ∧ Digits x.digits ∧ x.digits ≠ []) :
    parseExp (expText e) = some (expVal e) := by
  match e, h with
  | none, _ => rfl
  | some ⟨l, sg, ds⟩, h =>
    obtain ⟨h1, h2, h3⟩ := h _ rfl
    dsimp only at h1 h2 h3
    have hd := parseDigits_of h2 h3
    simp only [expText, parseExp, if_pos h1]
    match sg with
    | none =>
      have e1 := digits_head h2 '-' (by decide)
      have e2 := digits_head h2 '+' (by decide)
      simp only [signText, List.nil_append]
      split
      · simp at e1
      · simp at e2
      · rw [hd]; rfl
    | some false => simp only [signText, List.cons_append, List.nil_append, hd]; rfl
    | some true => simp only [signText, List.cons_append, List.nil_append, hd]; rfl

/-- Letters accepted by `str::parse::<f64>`. -/
def eLetters : List Char := ['e', 'E']

theorem parseUFloat_of {x : Numeral} (h : x.Legal eLetters) :
    parseUFloat (isNeg x.sign) (x.int ++ (fracText x.frac ++ expText x.exp)) = some x.value := by
  have hexp : ∀ y, x.exp = some y → (y.letter = 'e' ∨ y.letter = 'E') ∧ Digits y.digits ∧ y.digits ≠ [] := by
    intro y hy
    obtain ⟨h1, h2⟩ := h.exp y hy
    simp only [eLetters, List.mem_cons, List.not_mem_nil, or_false] at h1
    exact ⟨h1, h2⟩
  have he := parseExp_of hexp
  have hE : ∀ c, (expText x.exp).head? = some c → isDigit c = false ∧ c ≠ '.' := by
    intro c hc
    cases hx : x.exp with
    | none => rw [hx] at hc; simp [expText] at hc
    | some y =>
      rw [hx] at hc
      simp only [expText, List.head?_cons, Option.some.injEq] at hc
      subst hc
      rcases (hexp y hx).1 with h | h <;> rw [h] <;> decide
  have hF : ∀ c, (fracText x.frac ++ expText x.exp).head? = some c → isDigit c = false := by
    intro c hc
    cases hx : x.frac with
    | none => rw [hx] at hc; exact (hE c (by simpa [fracText] using hc)).1
    | some f =>
      rw [hx] at hc
      simp only [fracText, List.cons_append, List.head?_cons, Option.some.injEq] at hc
      subst hc; decide
  obtain ⟨t1, t2⟩ := takeWhile_append_stop (digits_all h.int) hF
  unfold parseUFloat
  dsimp only
  rw [t1, t2]
  cases hx : x.frac with
  | none =>
    have hn : x.int ≠ [] := by have := h.nonempty; simpa [Numeral.fracDigits, hx] using this
    have hm : splitFrac (fracText none ++ expText x.exp) = ([], expText x.exp) := by
      simp only [fracText, List.nil_append]
      unfold splitFrac
      split
      · rename_i t ht
        exact absurd rfl (hE '.' (by rw [ht]; rfl)).2
      · rfl
    rw [hm]
    dsimp only
    rw [if_neg (by simpa using hn), he]
    simp [Numeral.value, Numeral.fracDigits, hx, Numeral.exponent_eq, digitsVal_eq]
  | some f =>
    have hf : Digits f := by have := h.frac; simpa [Numeral.fracDigits, hx] using this
    have hn : x.int ++ f ≠ [] := by have := h.nonempty; simpa only [Numeral.fracDigits, hx, Option.getD_some] using this
    obtain ⟨t3, t4⟩ := takeWhile_append_stop (digits_all hf) (fun c hc => (hE c hc).1)
    have hm : splitFrac (fracText (some f) ++ expText x.exp) = (f, expText x.exp) := by
      simp only [fracText, List.cons_append, splitFrac, t3, t4]
    rw [hm]
    dsimp only
    rw [if_neg hn, he]
    simp [Numeral.value, Numeral.fracDigits, hx, Numeral.exponent_eq, digitsVal_eq]

/-- The unsigned part does not start with a sign. -/
theorem numeral_head {x : Numeral} {ls : List Char} (h : x.Legal ls) :
    ∃ c t, x.int ++ (fracText x.frac ++ expText x.exp) = c :: t ∧ (isDigit c = true ∨ c = '.') := by
  cases hi : x.int with
  | cons c t => exact ⟨c, _, rfl, .inl (digits_all h.int c (by simp [hi]))⟩
  | nil =>
    cases hf : x.frac with
    | some f => exact ⟨'.', _, rfl, .inr rfl⟩
    | none => exact absurd (by simp [hi, hf, Numeral.fracDigits]) h.nonempty

theorem parseF64_of {x : Numeral} (h : x.Legal eLetters) : parseF64 x.text = some x.value := by
  rw [x.text_eq]
  have hu := parseUFloat_of h
  obtain ⟨c, t, ht, hc⟩ := numeral_head h
  rw [ht] at hu ⊢
  match hs : x.sign with
  | none =>
    rw [hs] at hu
    simp only [signText, List.nil_append]
    unfold parseF64
    dsimp only
    have hu : parseUFloat false (c :: t) = some x.value := hu
    split
    · rename_i he; simp only [List.cons.injEq] at he; rw [he.1] at hc; exact absurd hc (by decide)
    · rename_i he; simp only [List.cons.injEq] at he; rw [he.1] at hc; exact absurd hc (by decide)
    · rw [hu]; rfl
  | some false =>
    rw [hs] at hu
    have hu : parseUFloat false (c :: t) = some x.value := hu
    simp only [signText, List.cons_append, List.nil_append, parseF64, hu]; rfl
  | some true =>
    rw [hs] at hu
    have hu : parseUFloat true (c :: t) = some x.value := hu
    simp only [signText, List.cons_append, List.nil_append, parseF64, hu]; rfl


/-! ### The converse -/

theorem digits_takeWhile (s : Str) : Digits (s.takeWhile isDigit) :=
  fun _ hc => (isDigit_iff _).1 (mem_takeWhile_imp hc)

theorem parseExp_some {s : Str} {n : Int} (h : parseExp s = some n) :
    ∃ e, s = expText e ∧ n = expVal e ∧
      ∀ x, e = some x → x.letter ∈ eLetters ∧ Digits x.digits ∧ x.digits ≠ [] := by
  cases s with
  | nil =>
    simp only [parseExp, Option.some.injEq] at h
    exact ⟨none, rfl, h.symm, by simp⟩
  | cons c t =>
    simp only [parseExp] at h
    split at h
    · rename_i hc
      have hc : c ∈ eLetters := by simpa [eLetters] using hc
      split at h
      all_goals
        obtain ⟨m, hm, rfl⟩ := Option.map_eq_some_iff.1 h
        obtain ⟨h1, h2, rfl⟩ := parseDigits_some hm
      · exact ⟨some ⟨c, some true, _⟩, rfl, rfl, by rintro x ⟨rfl⟩; exact ⟨hc, h1, h2⟩⟩
      · exact ⟨some ⟨c, some false, _⟩, rfl, rfl, by rintro x ⟨rfl⟩; exact ⟨hc, h1, h2⟩⟩
      · exact ⟨some ⟨c, none, _⟩, rfl, rfl, by rintro x ⟨rfl⟩; exact ⟨hc, h1, h2⟩⟩
    · simp at h

theorem splitFrac_spec (s : Str) :
    ∃ f, s = fracText f ++ (splitFrac s).2 ∧ (splitFrac s).1 = f.getD [] ∧ Digits (f.getD []) := by
  unfold splitFrac
  split
  · rename_i t
    exact ⟨some (t.takeWhile isDigit), by simp [fracText, List.takeWhile_append_dropWhile], rfl,
      digits_takeWhile t⟩
  · exact ⟨none, by simp [fracText], rfl, by intro c hc; simp at hc⟩

theorem parseUFloat_some {sign : Option Bool} {s : Str} {x : Dec} (h : parseUFloat (isNeg sign) s = some x) :
    ∃ y : Numeral, y.Legal eLetters ∧ signText sign ++ s = y.text ∧ x = y.value := by
  unfold parseUFloat at h
  dsimp only at h
  split at h
  · simp at h
  · rename_i h0
    obtain ⟨n, hn, rfl⟩ := Option.map_eq_some_iff.1 h
    obtain ⟨e, he, rfl, hl⟩ := parseExp_some hn
    obtain ⟨f, h1, h2, h3⟩ := splitFrac_spec (s.dropWhile isDigit)
    rw [h2] at h0
    refine ⟨⟨sign, s.takeWhile isDigit, f, e⟩, ⟨digits_takeWhile s, h3, h0, hl⟩, ?_, ?_⟩
    · rw [Numeral.text_eq]
      dsimp only
      rw [← he, ← h1, List.takeWhile_append_dropWhile]
    · simp only [Numeral.value, Numeral.exponent_eq, Numeral.fracDigits, h2, digitsVal_eq]

/-- The signed words for infinities and undefined numbers that Rust accepts. -/
def specialWords : List Str := ["inf".toList, "infinity".toList, "nan".toList]

theorem parseSpecial_some {neg : Bool} {s : Str} {x : Dec} (h : parseSpecial neg s = some x) :
    s.map Char.toLower ∈ specialWords ∧ (x = .inf neg ∨ x = .nan neg) := by
  unfold parseSpecial at h
  dsimp only at h
  split at h
  · rename_i h'
    rw [Option.some.injEq] at h
    exact ⟨by rcases h' with h' | h' <;> rw [h'] <;> decide, .inl h.symm⟩
  · split at h
    · rename_i h'
      rw [Option.some.injEq] at h
      exact ⟨by rw [h']; decide, .inr h.symm⟩
    · simp at h

theorem parseF64_some {s : Str} {x : Dec} (h : parseF64 s = some x) :
    (∃ y : Numeral, y.Legal eLetters ∧ s = y.text ∧ x = y.value) ∨
    (∃ sign t, s = signText sign ++ t ∧ t.map Char.toLower ∈ specialWords ∧
      (x = .inf (isNeg sign) ∨ x = .nan (isNeg sign))) := by
  have key : ∀ sign t, s = signText sign ++ t →
      (parseUFloat (isNeg sign) t).or (parseSpecial (isNeg sign) t) = some x →
      (∃ y : Numeral, y.Legal eLetters ∧ s = y.text ∧ x = y.value) ∨
      (∃ sign t, s = signText sign ++ t ∧ t.map Char.toLower ∈ specialWords ∧
        (x = .inf (isNeg sign) ∨ x = .nan (isNeg sign))) := by
    intro sign t hs h
    cases hu : parseUFloat (isNeg sign) t with
    | some y =>
      rw [hu, Option.some_or, Option.some.injEq] at h
      subst h
      obtain ⟨z, h1, h2, h3⟩ := parseUFloat_some hu
      exact .inl ⟨z, h1, hs.trans h2, h3⟩
    | none =>
      rw [hu, Option.none_or] at h
      obtain ⟨h1, h2⟩ := parseSpecial_some h
      exact .inr ⟨sign, t, hs, h1, h2⟩
  unfold parseF64 at h
  dsimp only at h
  split at h
  · exact key (some true) _ rfl h
  · exact key (some false) _ rfl h
  · exact key none _ rfl h

/-! ### Exponent letter D -/

/-- Replacement of `D` by `E`. -/
def dToE (v : Str) : Str := v.map fun ch => if ch = 'D' then 'E' else ch

theorem dToE_id {v : Str} (h : 'D' ∉ v) : dToE v = v := by
  unfold dToE
  conv => rhs; rw [← List.map_id v]
  apply List.map_congr_left
  intro c hc
  rw [if_neg (by rintro rfl; exact h hc)]; rfl

theorem dToE_append (a b : Str) : dToE (a ++ b) = dToE a ++ dToE b := List.map_append

theorem signText_notMem {s : Option Bool} {c : Char} (h1 : c ≠ '+') (h2 : c ≠ '-') : c ∉ signText s := by
  match s with
  | none => simp [signText]
  | some false => simpa [signText] using h1
  | some true => simpa [signText] using h2

theorem digits_notMem {s : Str} {c : Char} (h : Digits s) (hc : isDigit c = false) : c ∉ s := by
  intro h'
  have := digits_all h c h'
  rw [hc] at this; simp at this

theorem fracText_notMem {f : Option Str} {c : Char} (h : Digits (f.getD [])) (hc : isDigit c = false)
    (hp : c ≠ '.') : c ∉ fracText f := by
  cases f with
  | none => simp [fracText]
  | some f =>
    simp only [fracText, List.mem_cons, not_or]
    exact ⟨hp, digits_notMem h hc⟩

theorem numeral_no_D {y : Numeral} (h : y.Legal eLetters) : 'D' ∉ y.text := by
  rw [y.text_eq]
  simp only [List.mem_append, not_or]
  refine ⟨signText_notMem (by decide) (by decide), digits_notMem h.int (by decide),
    fracText_notMem h.frac (by decide) (by decide), ?_⟩
  cases he : y.exp with
  | none => simp [expText]
  | some e =>
    obtain ⟨h1, h2, -⟩ := h.exp e he
    simp only [expText, List.mem_cons, List.mem_append, not_or]
    refine ⟨?_, signText_notMem (by decide) (by decide), digits_notMem h2 (by decide)⟩
    intro h; rw [← h] at h1; revert h1; decide

theorem parseF64_dToE {v : Str} {x : Dec} (h : parseF64 v = some x) : dToE v = v := by
  apply dToE_id
  rcases parseF64_some h with ⟨y, hl, rfl, -⟩ | ⟨sign, t, rfl, ht, -⟩
  · exact numeral_no_D hl
  · simp only [List.mem_append, not_or]
    refine ⟨signText_notMem (by decide) (by decide), ?_⟩
    intro hD
    have : 'd' ∈ t.map Char.toLower := List.mem_map.2 ⟨'D', hD, by decide⟩
    simp only [specialWords, List.mem_cons, List.not_mem_nil, or_false] at ht
    rcases ht with ht | ht | ht <;> rw [ht] at this <;> revert this <;> decide

/-- `parse_number` on a text that is not an integer. -/
theorem parseNumber_noInt {v : Str} {c : Option Str} (h0 : v ≠ []) (hi : parseI64 v = none) :
    parseNumber v c = (match parseF64 (dToE v) with | some x => .float x c | none => .invalid (dToE v)) := by
  unfold parseNumber
  rw [if_neg h0, hi]
  dsimp only
  cases hf : parseF64 v with
  | none => rfl
  | some x =>
    rw [parseF64_dToE hf, hf]

/-- The same numeral with exponent letter `E` instead of `D`. -/
def withE (y : Numeral) : Numeral :=
  { y with exp := y.exp.map fun e => { e with letter := if e.letter = 'D' then 'E' else e.letter } }

theorem dToE_text {y : Numeral} {ls : List Char} (h : y.Legal ls) : dToE y.text = (withE y).text := by
  rw [Numeral.text_eq, Numeral.text_eq, dToE_append, dToE_append, dToE_append,
    dToE_id (signText_notMem (by decide) (by decide)), dToE_id (digits_notMem h.int (by decide)),
    dToE_id (fracText_notMem h.frac (by decide) (by decide))]
  suffices H : dToE (expText y.exp) = expText (withE y).exp by rw [H]; rfl
  have hw : (withE y).exp =
    y.exp.map fun e => { e with letter := if e.letter = 'D' then 'E' else e.letter } := rfl
  rw [hw]
  cases he : y.exp with
  | none => rfl
  | some e =>
    obtain ⟨-, h2, -⟩ := h.exp e he
    have e1 : dToE (signText e.sign ++ e.digits) = signText e.sign ++ e.digits := by
      rw [dToE_append, dToE_id (signText_notMem (by decide) (by decide)), dToE_id (digits_notMem h2 (by decide))]
    simp only [Option.map_some, expText]
    conv => rhs; rw [← e1]
    rfl

theorem withE_value (y : Numeral) : (withE y).value = y.value := by
  obtain ⟨a, b, c, e⟩ := y
  cases e <;> rfl

theorem withE_legal {y : Numeral} (h : y.Legal ['E', 'D']) : (withE y).Legal eLetters := by
  refine ⟨h.int, h.frac, h.nonempty, ?_⟩
  intro e he
  obtain ⟨e', he', rfl⟩ := Option.map_eq_some_iff.1 he
  obtain ⟨h1, h2⟩ := h.exp e' he'
  refine ⟨?_, h2⟩
  simp only [List.mem_cons, List.not_mem_nil, or_false] at h1
  dsimp only
  rcases h1 with h1 | h1 <;> rw [h1] <;> decide

/-- A numeral with a point or an exponent is not read as an integer. -/
theorem parseI64_numeral {y : Numeral} (h : y.Legal ['E', 'D']) (hr : y.frac ≠ none ∨ y.exp ≠ none) :
    parseI64 y.text = none := by
  cases hp : parseI64 y.text with
  | none => rfl
  | some n =>
    exfalso
    obtain ⟨sign, t, ht, hd, -⟩ := parseI64_some hp
    have key : ∀ c, isDigit c = false → c ≠ '+' → c ≠ '-' → c ∉ y.text := by
      intro c h1 h2 h3
      rw [ht]
      simp only [List.mem_append, not_or]
      exact ⟨signText_notMem h2 h3, digits_notMem hd h1⟩
    rcases hr with hr | hr
    · refine key '.' (by decide) (by decide) (by decide) ?_
      rw [y.text_eq]
      cases hf : y.frac with
      | none => exact absurd hf hr
      | some f => simp [fracText]
    · cases he : y.exp with
      | none => exact hr he
      | some e =>
        obtain ⟨h1, -⟩ := h.exp e he
        have hm : e.letter ∈ y.text := by rw [y.text_eq, he]; simp [expText]
        simp only [List.mem_cons, List.not_mem_nil, or_false] at h1
        rcases h1 with h1 | h1
        · rw [h1] at hm; exact key 'E' (by decide) (by decide) (by decide) hm
        · rw [h1] at hm; exact key 'D' (by decide) (by decide) (by decide) hm

theorem parseNumber_numeral {y : Numeral} (h : y.Legal ['E', 'D']) (hr : y.frac ≠ none ∨ y.exp ≠ none)
    (c : Option Str) : parseNumber y.text c = .float y.value c := by
  have h0 : y.text ≠ [] := by
    obtain ⟨a, t, ht, -⟩ := numeral_head h
    rw [y.text_eq, ht]; simp
  rw [parseNumber_noInt h0 (parseI64_numeral h hr), dToE_text h, parseF64_of (withE_legal h), withE_value]

end Fitsrs

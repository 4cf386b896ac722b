import Verif.Props.C25_C28
/-
C25, exactly: the formats of ASCII tables.
-/

namespace Fitsrs
open Spec

/-- Digits, possibly after a plus sign, that write the number `n` of 64 bits. -/
def Spec.DigitsFor (s : Str) (n : Nat) : Prop :=
  ∃ ds, (s = ds ∨ s = '+' :: ds) ∧ Digits ds ∧ ds ≠ [] ∧ natOf ds = n ∧ n < 2 ^ 64

/-- The texts read as formats of ASCII tables. -/
inductive Spec.AsciiText : Str → TFormAscii → Prop
  | a {w n} : DigitsFor w n → AsciiText ('A' :: w) (.character n)
  | i {w n} : DigitsFor w n → AsciiText ('I' :: w) (.decimalInteger n)
  | f {w n d k} : DigitsFor w n → DigitsFor d k → AsciiText ('F' :: (w ++ '.' :: d)) (.floatFixed n k)
  | e {w n d k} : DigitsFor w n → DigitsFor d k → AsciiText ('E' :: (w ++ '.' :: d)) (.floatE n k)
  | d {w n d k} : DigitsFor w n → DigitsFor d k → AsciiText ('D' :: (w ++ '.' :: d)) (.floatD n k)

theorem parseUsize_iff {s : Str} {n : Nat} : parseUsize s = some n ↔ DigitsFor s n := by
  have key : ∀ t : Str, ((parseDigits t).bind fun n => if n < two64 then some n else none) = some n ↔
      Digits t ∧ t ≠ [] ∧ natOf t = n ∧ n < 2 ^ 64 := by
    intro t
    constructor
    · intro h
      obtain ⟨m, h1, h2⟩ := Option.bind_eq_some_iff.1 h
      obtain ⟨h3, h4, h5⟩ := parseDigits_some h1
      split at h2
      · rename_i hlt
        cases h2
        exact ⟨h3, h4, h5.symm, hlt⟩
      · cases h2
    · rintro ⟨h1, h2, h3, h4⟩
      rw [parseDigits_of h1 h2, Option.bind_some, h3]
      exact if_pos h4
  by_cases hp : ∃ t, s = '+' :: t
  · obtain ⟨t, rfl⟩ := hp
    show ((parseDigits t).bind fun n => if n < two64 then some n else none) = some n ↔ _
    rw [key]
    constructor
    · intro h
      exact ⟨t, .inr rfl, h⟩
    · rintro ⟨ds, e | e, h⟩
      · rw [← e] at h
        exact absurd (h.1 '+' (List.mem_cons_self ..)) (by decide)
      · cases e
        exact h
  · have e : parseUsize s = (parseDigits s).bind fun n => if n < two64 then some n else none := by
      unfold parseUsize
      split
      · exact absurd ⟨_, rfl⟩ hp
      · rfl
    rw [e, key]
    constructor
    · intro h
      exact ⟨s, .inl rfl, h⟩
    · rintro ⟨ds, rfl | rfl, h⟩
      · exact h
      · exact absurd ⟨_, rfl⟩ hp

theorem Spec.DigitsFor.no_dot {s : Str} {n : Nat} (h : DigitsFor s n) : '.' ∉ s := by
  obtain ⟨ds, e, h1, -⟩ := h
  have : '.' ∉ ds := fun hm => absurd (h1 _ hm) (by decide)
  rcases e with rfl | rfl
  · exact this
  · intro hm
    rcases List.mem_cons.1 hm with h | h
    · exact absurd h (by decide)
    · exact this h

theorem splitOnceDot_iff {s a b : Str} : splitOnceDot s = some (a, b) ↔ s = a ++ '.' :: b ∧ '.' ∉ a := by
  unfold splitOnceDot
  have take : ∀ a b : Str, '.' ∉ a → (a ++ '.' :: b).takeWhile (· ≠ '.') = a ∧ (a ++ '.' :: b).dropWhile (· ≠ '.') = '.' :: b := by
    intro a b
    induction a with
    | nil => intro _; simp
    | cons c a ih =>
      intro hm
      have hc : c ≠ '.' := fun h => hm (h ▸ List.mem_cons_self ..)
      obtain ⟨h1, h2⟩ := ih fun h => hm (List.mem_cons_of_mem _ h)
      have hd : decide (c ≠ '.') = true := decide_eq_true hc
      constructor
      · rw [List.cons_append, List.takeWhile_cons, if_pos hd, h1]
      · rw [List.cons_append, List.dropWhile_cons, if_pos hd, h2]
  constructor
  · intro h
    split at h
    · rename_i hm
      obtain ⟨s1, s2, rfl, hn⟩ : ∃ s1 s2, s = s1 ++ '.' :: s2 ∧ '.' ∉ s1 := by
        obtain ⟨s1, s2, e, hn⟩ := List.eq_append_cons_of_mem hm
        exact ⟨s1, s2, e, hn⟩
      obtain ⟨e1, e2⟩ := take s1 s2 hn
      rw [e1, e2] at h
      cases h
      exact ⟨rfl, hn⟩
    · cases h
  · rintro ⟨rfl, hn⟩
    obtain ⟨e1, e2⟩ := take a b hn
    rw [if_pos (by simp), e1, e2]
    rfl

theorem Spec.DigitsFor.last {s : Str} {n : Nat} (h : DigitsFor s n) (pre : Str) : ∃ c, (pre ++ s).getLast? = some c ∧ isDigit c = true := by
  obtain ⟨ds, e, h1, h0, -⟩ := h
  have hl : ∃ c, ds.getLast? = some c ∧ isDigit c = true := by
    rw [List.getLast?_eq_some_getLast h0]
    exact ⟨_, rfl, (isDigit_iff _).2 (h1 _ (List.getLast_mem h0))⟩
  obtain ⟨c, h2, h3⟩ := hl
  refine ⟨c, ?_, h3⟩
  rcases e with rfl | rfl
  · rw [List.getLast?_append, h2]; rfl
  · rw [List.getLast?_append, List.getLast?_cons, h2]; rfl

theorem Spec.AsciiText.last {t : Str} {f : TFormAscii} (h : AsciiText t f) : ∃ c, t.getLast? = some c ∧ isDigit c = true := by
  cases h with
  | a h => exact h.last ['A']
  | i h => exact h.last ['I']
  | @f w n d k h1 h2 => have := h2.last ('F' :: (w ++ ['.'])); simpa using this
  | @e w n d k h1 h2 => have := h2.last ('E' :: (w ++ ['.'])); simpa using this
  | @d w n d k h1 h2 => have := h2.last ('D' :: (w ++ ['.'])); simpa using this

theorem isDigit_not_ws {c : Char} (h : isDigit c = true) : isWs c = false := by
  have := (isDigit_nat c).1 h
  cases hw : isWs c with
  | false => rfl
  | true =>
    exfalso
    revert hw
    unfold isWs
    simp
    omega

/-- The text without the white space at its end. -/
theorem asciiText_iff {t : Str} {f : TFormAscii} : (match t with
    | [] => none
    | first :: rest =>
      let two (mk : Nat → Nat → TFormAscii) : Option TFormAscii := do
        let (a, b) ← splitOnceDot rest
        let w ← parseUsize a
        let d ← parseUsize b
        some (mk w d)
      if first = 'A' then (parseUsize rest).map .character
      else if first = 'I' then (parseUsize rest).map .decimalInteger
      else if first = 'F' then two .floatFixed
      else if first = 'E' then two .floatE
      else if first = 'D' then two .floatD
      else none) = some f ↔ AsciiText t f := by
  have two : ∀ (mk : Nat → Nat → TFormAscii) (rest : Str), (do
        let (a, b) ← splitOnceDot rest
        let w ← parseUsize a
        let d ← parseUsize b
        some (mk w d)) = some f ↔ ∃ w n d k, rest = w ++ '.' :: d ∧ DigitsFor w n ∧ DigitsFor d k ∧ f = mk n k := by
    intro mk rest
    constructor
    · intro h
      obtain ⟨⟨a, b⟩, h1, h2⟩ := Option.bind_eq_some_iff.1 h
      obtain ⟨w, h3, h4⟩ := Option.bind_eq_some_iff.1 h2
      obtain ⟨d, h5, h6⟩ := Option.bind_eq_some_iff.1 h4
      cases h6
      exact ⟨a, w, b, d, (splitOnceDot_iff.1 h1).1, parseUsize_iff.1 h3, parseUsize_iff.1 h5, rfl⟩
    · rintro ⟨w, n, d, k, rfl, h1, h2, rfl⟩
      refine Option.bind_eq_some_iff.2 ⟨(w, d), splitOnceDot_iff.2 ⟨rfl, h1.no_dot⟩, ?_⟩
      refine Option.bind_eq_some_iff.2 ⟨n, parseUsize_iff.2 h1, ?_⟩
      exact Option.bind_eq_some_iff.2 ⟨k, parseUsize_iff.2 h2, rfl⟩
  have one : ∀ (mk : Nat → TFormAscii) (rest : Str), (parseUsize rest).map mk = some f ↔ ∃ n, DigitsFor rest n ∧ f = mk n := by
    intro mk rest
    rw [Option.map_eq_some_iff]
    constructor
    · rintro ⟨n, h1, rfl⟩; exact ⟨n, parseUsize_iff.1 h1, rfl⟩
    · rintro ⟨n, h1, rfl⟩; exact ⟨n, parseUsize_iff.2 h1, rfl⟩
  cases t with
  | nil =>
    constructor
    · intro h; cases h
    · intro h; cases h
  | cons c rest =>
    dsimp only
    constructor
    · intro h
      split at h
      · rename_i hc; subst hc
        obtain ⟨n, h1, rfl⟩ := (one _ _).1 h
        exact .a h1
      split at h
      · rename_i hc; subst hc
        obtain ⟨n, h1, rfl⟩ := (one _ _).1 h
        exact .i h1
      split at h
      · rename_i hc; subst hc
        obtain ⟨w, n, d, k, rfl, h1, h2, rfl⟩ := (two _ _).1 h
        exact .f h1 h2
      split at h
      · rename_i hc; subst hc
        obtain ⟨w, n, d, k, rfl, h1, h2, rfl⟩ := (two _ _).1 h
        exact .e h1 h2
      split at h
      · rename_i hc; subst hc
        obtain ⟨w, n, d, k, rfl, h1, h2, rfl⟩ := (two _ _).1 h
        exact .d h1 h2
      · cases h
    · intro h
      cases h with
      | a h1 => rw [if_pos rfl]; exact (one _ _).2 ⟨_, h1, rfl⟩
      | i h1 => rw [if_neg (by decide), if_pos rfl]; exact (one _ _).2 ⟨_, h1, rfl⟩
      | f h1 h2 =>
        rw [if_neg (by decide), if_neg (by decide), if_pos rfl]
        exact (two _ _).2 ⟨_, _, _, _, rfl, h1, h2, rfl⟩
      | e h1 h2 =>
        rw [if_neg (by decide), if_neg (by decide), if_neg (by decide), if_pos rfl]
        exact (two _ _).2 ⟨_, _, _, _, rfl, h1, h2, rfl⟩
      | d h1 h2 =>
        rw [if_neg (by decide), if_neg (by decide), if_neg (by decide), if_neg (by decide), if_pos rfl]
        exact (two _ _).2 ⟨_, _, _, _, rfl, h1, h2, rfl⟩

/-- **C25, exactly**, ASCII tables: a text is read as a format exactly if it is one of the legal formats, followed by any white
space; numbers may have a plus sign. -/
theorem C25_ascii_exact (s : Str) (f : TFormAscii) :
    TFormAscii.ofStr s = some f ↔ ∃ t ws, s = t ++ ws ∧ (∀ c ∈ ws, isWs c = true) ∧ AsciiText t f := by
  have h : TFormAscii.ofStr s = some f ↔ AsciiText (trimEndStr s) f := asciiText_iff (t := trimEndStr s)
  rw [h]
  unfold trimEndStr trimEndBy
  constructor
  · intro h
    refine ⟨(s.reverse.dropWhile isWs).reverse, (s.reverse.takeWhile isWs).reverse, ?_, fun c hc => ?_, h⟩
    · rw [← List.reverse_append, List.takeWhile_append_dropWhile, List.reverse_reverse]
    · exact mem_takeWhile_imp (List.mem_reverse.1 hc)
  · rintro ⟨t, ws, rfl, h1, h2⟩
    have e : ((t ++ ws).reverse.dropWhile isWs).reverse = t := by
      rw [List.reverse_append, List.dropWhile_append_of_pos (fun c hc => h1 c (List.mem_reverse.1 hc))]
      obtain ⟨c, hc, hd⟩ := h2.last
      have hw := isDigit_not_ws hd
      rw [← List.head?_reverse] at hc
      obtain ⟨r, hr⟩ : ∃ r, t.reverse = c :: r := by
        cases htr : t.reverse with
        | nil => rw [htr] at hc; cases hc
        | cons a r => rw [htr] at hc; cases hc; exact ⟨r, rfl⟩
      rw [hr, List.dropWhile_cons, if_neg (by rw [hw]; decide), ← hr, List.reverse_reverse]
    rw [e]
    exact h2

example : TFormAscii.ofStr "F+8.3 ".toList = some (.floatFixed 8 3) ∧ TFormAscii.ofStr "F8".toList = none ∧
    TFormAscii.ofStr "I".toList = none ∧ TFormAscii.ofStr "I4.2".toList = none ∧ TFormAscii.ofStr " I4".toList = none := by
  decide +kernel

end Fitsrs

import Verif.Lemmas.Text
import Verif.Lemmas.Basic
import Verif.Model.Card
/-
Helper lemmas on `split_value_and_comment`.
-/

namespace Fitsrs
open Spec

theorem char_le_iff (a b : Char) : a ≤ b ↔ a.toNat ≤ b.toNat := Iff.rfl

theorem isPrintable_iff (c : Char) : isPrintable c = true ↔ 0x20 ≤ c.toNat ∧ c.toNat ≤ 0x7E := by
  unfold isPrintable
  rw [Bool.and_eq_true, decide_eq_true_eq, decide_eq_true_eq, char_le_iff, char_le_iff]
  exact Iff.rfl

/-- The automaton never reaches its unreachable states. -/
theorem splitLoop_ne_panic (tic toc : Bool) (s : Str) (h : toc = true → tic = true) :
    splitLoop tic toc s ≠ .panic := by
  induction s generalizing tic toc with
  | nil => simp [splitLoop]
  | cons c cs ih =>
    unfold splitLoop
    dsimp only
    split
    · cases tic <;> cases toc <;> simp only [ne_eq, Res.map_eq_panic]
      · exact ih _ _ (by simp)
      · simp at h
      · exact ih _ _ (by simp)
      · exact ih _ _ (by simp)
    · split
      · cases tic <;> cases toc <;> simp only [ne_eq, Res.map_eq_panic]
        · simp
        · simp at h
        · exact ih _ _ (by simp)
        · simp
      · split
        · split
          · simp only [ne_eq, Res.map_eq_panic]; exact ih _ _ (by simp)
          · simp only [ne_eq, Res.map_eq_panic]; exact ih _ _ h
        · split
          · simp only [ne_eq, Res.map_eq_panic]; exact ih _ _ h
          · simp

theorem splitValueAndComment_ne_panic (buf : List UInt8) : splitValueAndComment buf ≠ .panic := by
  unfold splitValueAndComment
  rw [ne_eq, Res.map_eq_panic]
  exact splitLoop_ne_panic _ _ _ (by simp)

theorem Spec.Printable.tail {c : Char} {cs : Str} (h : Printable (c :: cs)) : Printable cs :=
  fun x hx => h x (by simp [hx])

theorem Spec.Printable.head {c : Char} {cs : Str} (h : Printable (c :: cs)) : isPrintable c = true :=
  (isPrintable_iff c).2 (h c (by simp))

/-- Result of the automaton, in terms of `cut` and `unquote`. -/
def splitSpec (inside : Bool) (s : Str) : Res (Str × Option Str) :=
  .ok (unquote inside (cut inside s).1, (cut inside s).2)

theorem unquote_true_quote (cs : Str) :
    unquote true ('\'' :: cs) =
      '\'' :: (if cs.head? = some '\'' then unquote true cs.tail else unquote false cs) := by
  cases cs with
  | nil => rfl
  | cons d ds =>
    conv => lhs; unfold unquote
    simp only [if_true, List.head?_cons, List.tail_cons, Option.some.injEq]
    by_cases hd : d = '\''
    · rw [if_pos hd, if_pos hd]
    · rw [if_neg hd, if_neg hd]

theorem unquote_true_other {c : Char} (h : c ≠ '\'') (cs : Str) :
    unquote true (c :: cs) = c :: unquote true cs := by
  cases cs with
  | nil => simp [unquote]
  | cons d ds => rw [unquote, if_neg h]

theorem unquote_false (c : Char) (cs : Str) : unquote false (c :: cs) = c :: unquote (c = '\'') cs := by
  rw [unquote]

/-- Push a character on the value. -/
def pushC (c : Char) (r : Res (Str × Option Str)) : Res (Str × Option Str) :=
  r.map fun x => (c :: x.1, x.2)

theorem splitLoop_quote (tic toc : Bool) (cs : Str) :
    splitLoop tic toc ('\'' :: cs) = (match tic, toc with
      | true, true => splitLoop true false cs
      | true, false => pushC '\'' (splitLoop true true cs)
      | false, false => pushC '\'' (splitLoop true false cs)
      | false, true => .panic) := by
  conv => lhs; unfold splitLoop
  dsimp only
  rw [if_pos rfl]; rfl

theorem splitLoop_slash (tic toc : Bool) (cs : Str) :
    splitLoop tic toc ('/' :: cs) = (match tic, toc with
      | true, false => pushC '/' (splitLoop true false cs)
      | true, true => .ok ([], some cs)
      | false, false => .ok ([], some cs)
      | false, true => .panic) := by
  conv => lhs; unfold splitLoop
  dsimp only
  rw [if_neg (by decide), if_pos rfl]; rfl

theorem splitLoop_other {c : Char} (hq : c ≠ '\'') (hs : c ≠ '/') (hp : isPrintable c = true)
    (tic toc : Bool) (cs : Str) :
    splitLoop tic toc (c :: cs) =
      pushC c (if toc then splitLoop false false cs else splitLoop tic toc cs) := by
  conv => lhs; unfold splitLoop
  dsimp only
  rw [if_neg hq, if_neg hs, if_pos hp]
  cases toc <;> rfl

theorem cut_other {c : Char} (hq : c ≠ '\'') (hs : c ≠ '/') (b : Bool) (cs : Str) :
    cut b (c :: cs) = (c :: (cut b cs).1, (cut b cs).2) := by
  simp [cut, hs, hq]

theorem cut_quote (b : Bool) (cs : Str) :
    cut b ('\'' :: cs) = ('\'' :: (cut (!b) cs).1, (cut (!b) cs).2) := by
  simp [cut]

/-- The automaton on printable texts. -/
theorem splitLoop_spec (s : Str) (hs : Printable s) :
    splitLoop false false s = splitSpec false s ∧ splitLoop true false s = splitSpec true s ∧
    splitLoop true true s = (if s.head? = some '\'' then splitSpec true s.tail else splitSpec false s) := by
  induction s with
  | nil => refine ⟨rfl, rfl, rfl⟩
  | cons c cs ih =>
    obtain ⟨ih1, ih2, ih3⟩ := ih hs.tail
    have hp := hs.head
    by_cases hq : c = '\''
    · subst hq
      refine ⟨?_, ?_, ?_⟩
      · simp only [splitLoop_quote, ih2, splitSpec, pushC, Res.map_ok, cut_quote, unquote_false,
          Bool.not_false, decide_true]
      · simp only [splitLoop_quote, ih3, splitSpec, cut_quote, Bool.not_true, unquote_true_quote]
        by_cases h1 : cs.head? = some '\''
        · match cs, h1 with
          | _ :: t, h1 =>
            simp only [List.head?_cons, Option.some.injEq] at h1
            subst h1
            simp [pushC, cut_quote]
        · rw [if_neg h1, if_neg, pushC, Res.map_ok]
          intro h2
          apply h1
          match cs, h2 with
          | d :: t, h2 =>
            simp only [cut] at h2
            split at h2
            · simp at h2
            · simpa using h2
      · simp [splitLoop_quote, ih2]
    · by_cases hsl : c = '/'
      · subst hsl
        refine ⟨?_, ?_, ?_⟩
        · simp [splitLoop_slash, splitSpec, cut, unquote]
        · simp [splitLoop_slash, ih2, splitSpec, cut, unquote_true_other hq, pushC]
        · simp [splitLoop_slash, splitSpec, cut, unquote]
      · simp [splitLoop_other hq hsl hp, cut_other hq hsl, splitSpec, unquote_false, unquote_true_other hq,
          hq, ih1, ih2, pushC]

/-! ### Blanks -/

theorem isAsciiWs_toByte {c : Char} (h : 0x20 ≤ c.toNat ∧ c.toNat ≤ 0x7E) :
    isAsciiWs (UInt8.ofNat c.toNat) = decide (c = ' ') := by
  have hc : c = ' ' ↔ c.toNat = 0x20 := by
    constructor
    · rintro rfl; rfl
    · intro h; exact Char.toNat_inj.1 h
  have h8 : ∀ n : Nat, n < 256 → (UInt8.ofNat c.toNat = UInt8.ofNat n ↔ c.toNat = n) := by
    intro n hn
    rw [← UInt8.toNat_inj, UInt8.toNat_ofNat', UInt8.toNat_ofNat']
    omega
  have e1 := h8 0x20 (by omega)
  have e2 := h8 0x09 (by omega)
  have e3 := h8 0x0A (by omega)
  have e4 := h8 0x0C (by omega)
  have e5 := h8 0x0D (by omega)
  rw [Bool.eq_iff_iff, decide_eq_true_eq, hc]
  simp only [isAsciiWs, Bool.or_eq_true, beq_iff_eq]
  constructor
  · rintro ((((h | h) | h) | h) | h)
    · exact e1.1 h
    · have := e2.1 h; omega
    · have := e3.1 h; omega
    · have := e4.1 h; omega
    · have := e5.1 h; omega
  · intro h; exact .inl (.inl (.inl (.inl (e1.2 h))))

theorem isWs_printable {c : Char} (h : 0x20 ≤ c.toNat ∧ c.toNat ≤ 0x7E) : isWs c = decide (c = ' ') := by
  have hc : c = ' ' ↔ c.toNat = 0x20 := by
    constructor
    · rintro rfl; rfl
    · intro h; exact Char.toNat_inj.1 h
  rw [Bool.eq_iff_iff, decide_eq_true_eq, hc]
  simp only [isWs, Bool.or_eq_true, Bool.and_eq_true, decide_eq_true_eq, beq_iff_eq]
  omega

theorem isAsciiWsChar_printable {c : Char} (h : 0x20 ≤ c.toNat ∧ c.toNat ≤ 0x7E) :
    isAsciiWsChar c = decide (c = ' ') := by
  have hne : ∀ d : Char, d.toNat < 0x20 → c ≠ d := by
    rintro d hd rfl; omega
  rw [Bool.eq_iff_iff]
  simp only [isAsciiWsChar, Bool.or_eq_true, beq_iff_eq, decide_eq_true_eq]
  constructor
  · rintro ((((h | h) | h) | h) | h)
    · exact h
    · exact absurd h (hne _ (by decide))
    · exact absurd h (hne _ (by decide))
    · exact absurd h (hne _ (by decide))
    · exact absurd h (hne _ (by decide))
  · intro h; exact .inl (.inl (.inl (.inl h)))

section
variable {α : Type} {p q : α → Bool}

theorem dropWhile_congr {l : List α} (h : ∀ x ∈ l, p x = q x) : l.dropWhile p = l.dropWhile q := by
  induction l with
  | nil => rfl
  | cons a l ih =>
    simp only [List.dropWhile_cons, h a (by simp)]
    rw [ih (fun x hx => h x (by simp [hx]))]

theorem trimEndBy_congr {l : List α} (h : ∀ x ∈ l, p x = q x) : trimEndBy p l = trimEndBy q l := by
  unfold trimEndBy
  rw [dropWhile_congr (by simpa using h)]

theorem trimBy_congr {l : List α} (h : ∀ x ∈ l, p x = q x) : trimBy p l = trimBy q l := by
  unfold trimBy
  rw [dropWhile_congr h]
  apply trimEndBy_congr
  intro x hx
  refine h x ?_
  exact (List.dropWhile_sublist (p := q) (l := l)).subset hx

theorem dropWhile_map {β : Type} (f : β → α) (l : List β) :
    (l.map f).dropWhile p = (l.dropWhile (p ∘ f)).map f := by
  induction l with
  | nil => rfl
  | cons a l ih =>
    simp only [List.map_cons, List.dropWhile_cons, Function.comp]
    split
    · exact ih
    · rfl

theorem trimBy_map {β : Type} (f : β → α) (l : List β) :
    trimBy p (l.map f) = (trimBy (p ∘ f) l).map f := by
  unfold trimBy trimEndBy
  rw [dropWhile_map, ← List.map_reverse, dropWhile_map, ← List.map_reverse]
end

theorem stripEnd_eq (s : Str) : stripEnd s = trimEndBy (fun c => decide (c = ' ')) s := rfl
theorem strip_eq (s : Str) : strip s = trimBy (fun c => decide (c = ' ')) s := rfl

theorem trimStr_printable {s : Str} (h : Printable s) : trimStr s = strip s :=
  trimBy_congr fun c hc => isWs_printable (h c hc)

theorem trimEndStr_printable {s : Str} (h : Printable s) : trimEndStr s = stripEnd s :=
  trimEndBy_congr fun c hc => isWs_printable (h c hc)

theorem strip_mem {s : Str} {c : Char} (h : c ∈ strip s) : c ∈ s := trimBy_mem h
theorem stripEnd_mem {s : Str} {c : Char} (h : c ∈ stripEnd s) : c ∈ s := trimEndBy_mem h

theorem Spec.Printable.strip {s : Str} (h : Printable s) : Printable (strip s) := fun c hc => h c (strip_mem hc)
theorem Spec.Printable.stripEnd {s : Str} (h : Printable s) : Printable (stripEnd s) :=
  fun c hc => h c (stripEnd_mem hc)

/-- Decoding of the bytes of a printable text. -/
theorem lossy_trim_toBytes {s : Str} (h : Printable s) :
    utf8Lossy (trimAscii (toBytes s)) = strip s := by
  have h1 : trimAscii (toBytes s) = toBytes (strip s) := by
    unfold trimAscii toBytes
    rw [trimBy_map, strip_eq]
    congr 1
    apply trimBy_congr
    intro c hc
    exact isAsciiWs_toByte (h c hc)
  rw [h1, utf8Lossy_ascii (toBytes_ascii _), map_asciiChar_toBytes]
  · intro c hc; have := h.strip c hc; omega
  · intro c hc; have := h.strip c hc; omega

theorem cut_mem {b : Bool} {s : Str} {c : Char} (h : c ∈ (cut b s).1) : c ∈ s := by
  induction s generalizing b with
  | nil => simp [cut] at h
  | cons d s ih =>
    simp only [cut] at h
    split at h
    · simp at h
    · rcases List.mem_cons.1 h with h | h
      · simp [h]
      · exact List.mem_cons_of_mem _ (ih h)

theorem cut_mem_comment {b : Bool} {s t : Str} {c : Char} (h : (cut b s).2 = some t) (hc : c ∈ t) : c ∈ s := by
  induction s generalizing b with
  | nil => simp [cut] at h
  | cons d s ih =>
    simp only [cut] at h
    split at h
    · simp at h; subst h; simp [hc]
    · exact List.mem_cons_of_mem _ (ih h)

theorem unquote_mem {b : Bool} {s : Str} {c : Char} (h : c ∈ unquote b s) : c ∈ s := by
  suffices H : ∀ n (b : Bool) (s : Str), s.length ≤ n → c ∈ unquote b s → c ∈ s from H _ b s (Nat.le_refl _) h
  intro n
  induction n with
  | zero =>
    intro b s hs h
    have : s = [] := List.eq_nil_of_length_eq_zero (by omega)
    subst this
    cases b <;> simp [unquote] at h
  | succ n ih =>
    intro b s hs h
    cases s with
    | nil => cases b <;> simp [unquote] at h
    | cons d s =>
      simp only [List.length_cons] at hs
      cases b with
      | false =>
        rw [unquote_false] at h
        rcases List.mem_cons.1 h with h | h
        · simp [h]
        · exact List.mem_cons_of_mem _ (ih _ _ (by omega) h)
      | true =>
        by_cases hd : d = '\''
        · subst hd
          rw [unquote_true_quote] at h
          rcases List.mem_cons.1 h with h | h
          · simp [h]
          · split at h
            · have := ih _ _ (by simp only [List.length_tail]; omega) h
              exact List.mem_cons_of_mem _ (List.mem_of_mem_tail this)
            · exact List.mem_cons_of_mem _ (ih _ _ (by omega) h)
        · rw [unquote_true_other hd] at h
          rcases List.mem_cons.1 h with h | h
          · simp [h]
          · exact List.mem_cons_of_mem _ (ih _ _ (by omega) h)

/-- `split_value_and_comment` on a printable text. -/
theorem split_printable {s : Str} (h : Printable s) :
    splitValueAndComment (toBytes s) =
      .ok (strip (unquote false (cut false (strip s)).1), ((cut false (strip s)).2).map stripEnd) := by
  unfold splitValueAndComment
  rw [lossy_trim_toBytes h, (splitLoop_spec _ h.strip).1]
  simp only [splitSpec, Res.map_ok]
  have hv : Printable (unquote false (cut false (strip s)).1) :=
    fun c hc => h.strip c (cut_mem (unquote_mem hc))
  cases hc : (cut false (strip s)).2 with
  | none => simp [trimStr_printable hv]
  | some t =>
    have ht : Printable t := fun c hc' => h.strip c (cut_mem_comment hc hc')
    have : t.map (fun c => if isPrintable c then c else replacement) = t := by
      conv => rhs; rw [← List.map_id t]
      apply List.map_congr_left
      intro c hc
      rw [if_pos ((isPrintable_iff c).2 (ht c hc))]; rfl
    simp only [this, trimStr_printable hv, trimEndStr_printable ht, Option.map_some]

end Fitsrs

import Verif.Lemmas.Utf8
import Verif.Props.C82
/-
C85: records with characters that are not printable ASCII.
-/

namespace Fitsrs
open Spec

namespace Spec

/-- What the comment of a record is read as. -/
def CommentShown : Option (List UInt8) → Option Str → Prop
  | none, u => u = none
  | some c, u => ∃ t, u = some t ∧ ShownText (stripBytes c) t

end Spec

/-! ### How bytes are shown -/

theorem shown_eq (c : Char) : (if isPrintable c then c else replacement) = shown c := by
  unfold shown
  by_cases h : 0x20 ≤ c.toNat ∧ c.toNat ≤ 0x7E
  · rw [if_pos h, if_pos ((isPrintable_iff c).2 h)]
  · rw [if_neg h, if_neg (fun h' => h ((isPrintable_iff c).1 h'))]
    rfl

theorem shown_high {c : Char} (h : 0x80 ≤ c.toNat) : shown c = Char.ofNat 0xFFFD := by
  unfold shown
  rw [if_neg (by omega)]

theorem shown_low {c : Char} (h : 0x20 ≤ c.toNat ∧ c.toNat ≤ 0x7E) : shown c = c := if_pos h

/-- The character read first, and the bytes it takes. -/
theorem step_char (b : UInt8) (bs : List UInt8) :
    (b.toNat < 0x80 ∧ utf8Step b bs = (some (Char.ofNat b.toNat), 0)) ∨
    (0x80 ≤ b.toNat ∧ 0x80 ≤ ((utf8Step b bs).1.getD replacement).toNat ∧
      ∀ x ∈ bs.take (utf8Step b bs).2, 0x80 ≤ x.toNat) := by
  by_cases hb : b.toNat < 0x80
  · exact .inl ⟨hb, utf8Step_ascii hb bs⟩
  · refine .inr ⟨by omega, ?_, (step_high (by omega) bs).2.1⟩
    cases hs : utf8Step b bs with
    | mk o k =>
      cases o with
      | none => exact (by decide : 0x80 ≤ replacement.toNat)
      | some c => exact utf8Step_multi (by omega) hs

theorem printables_high {a : List UInt8} (h : ∀ x ∈ a, 0x80 ≤ x.toNat) (r : List UInt8) :
    printables (a ++ r) = printables r := by
  unfold printables
  rw [List.filter_append, List.filter_eq_nil_iff.2, List.nil_append]
  intro x hx
  have := h x hx
  rw [decide_eq_true_eq, UInt8.le_iff_toNat_le, UInt8.le_iff_toNat_le]
  intro h
  have : (0x7E : UInt8).toNat = 0x7E := rfl
  omega

theorem bytes_induction {P : List UInt8 → Prop} (nil : P [])
    (cons : ∀ b bs, P (bs.drop (utf8Step b bs).2) → P (b :: bs)) (bs : List UInt8) : P bs := by
  have : ∀ n, ∀ bs : List UInt8, bs.length ≤ n → P bs := by
    intro n
    induction n with
    | zero =>
      intro bs h
      rw [List.length_eq_zero_iff.1 (by omega : bs.length = 0)]
      exact nil
    | succ n ih =>
      intro bs h
      cases bs with
      | nil => exact nil
      | cons b bs => exact cons b bs (ih _ (by rw [List.length_drop]; rw [List.length_cons] at h; omega))
  exact this _ bs (Nat.le_refl _)

theorem lossy_kept (bs : List UInt8) :
    ((utf8Lossy bs).map shown).filter (· ≠ Char.ofNat 0xFFFD) = printables bs := by
  induction bs using bytes_induction with
  | nil => rfl
  | cons b bs ih =>
    rw [utf8Lossy_step, List.map_cons]
    rcases step_char b bs with ⟨h1, h2⟩ | ⟨h1, h2, h3⟩
    · rw [h2] at ih ⊢
      rw [List.drop_zero] at ih ⊢
      simp only [Option.getD_some]
      have e : (Char.ofNat b.toNat).toNat = b.toNat := toNat_ofNat_lt (by omega)
      have e1 : (0x20 : UInt8).toNat = 0x20 := rfl
      have e2 : (0x7E : UInt8).toNat = 0x7E := rfl
      by_cases hp : 0x20 ≤ b.toNat ∧ b.toNat ≤ 0x7E
      · rw [shown_low (by rw [e]; exact hp), List.filter_cons_of_pos, ih]
        · unfold printables
          rw [List.filter_cons_of_pos, List.map_cons]
          rw [decide_eq_true_eq, UInt8.le_iff_toNat_le, UInt8.le_iff_toNat_le, e1, e2]
          exact hp
        · rw [decide_eq_true_eq]
          intro h
          have := congrArg Char.toNat h
          rw [e] at this
          have e3 : (Char.ofNat 0xFFFD).toNat = 0xFFFD := by decide
          omega
      · have : shown (Char.ofNat b.toNat) = Char.ofNat 0xFFFD := by
          unfold shown
          rw [e, if_neg hp]
        rw [this, List.filter_cons_of_neg (by simp), ih]
        unfold printables
        rw [List.filter_cons_of_neg]
        rw [decide_eq_true_eq, UInt8.le_iff_toNat_le, UInt8.le_iff_toNat_le, e1, e2]
        exact hp
    · rw [shown_high h2, List.filter_cons_of_neg (by simp), ih]
      have : printables ((b :: bs.take (utf8Step b bs).2) ++ bs.drop (utf8Step b bs).2) =
          printables (bs.drop (utf8Step b bs).2) := by
        refine printables_high (fun x hx => ?_) _
        rcases List.mem_cons.1 hx with rfl | hx
        · exact h1
        · exact h3 x hx
      rw [List.cons_append, List.take_append_drop] at this
      exact this.symm

theorem lossy_length (bs : List UInt8) : (utf8Lossy bs).length ≤ bs.length := by
  induction bs using bytes_induction with
  | nil => exact Nat.le_refl _
  | cons b bs ih =>
    rw [utf8Lossy_step, List.length_cons, List.length_cons]
    rw [List.length_drop] at ih
    omega

theorem shownAs (bs : List UInt8) : ShownText bs ((utf8Lossy bs).map shown) where
  text := by rintro s rfl; rw [utf8Lossy_encode]
  kept := lossy_kept bs
  short := by rw [List.length_map]; exact lossy_length bs

/-- Only a blank at the end is shown as a blank at the end. -/
theorem lossy_last (bs : List UInt8) (h : ((utf8Lossy bs).map shown).getLast? = some ' ') : bs.getLast? = some 0x20 := by
  induction bs using bytes_induction with
  | nil => cases h
  | cons b bs ih =>
    rw [utf8Lossy_step, List.map_cons] at h
    by_cases hd : bs.drop (utf8Step b bs).2 = []
    · rw [hd] at h
      have hh : shown ((utf8Step b bs).1.getD replacement) = ' ' := Option.some.inj h
      clear h
      rcases step_char b bs with ⟨h1, h2⟩ | ⟨h1, h2, -⟩
      · rw [h2] at hh hd
        rw [List.drop_zero] at hd
        subst hd
        have e : (Char.ofNat b.toNat).toNat = b.toNat := toNat_ofNat_lt (by omega)
        replace hh : shown (Char.ofNat b.toNat) = ' ' := hh
        by_cases hp : 0x20 ≤ b.toNat ∧ b.toNat ≤ 0x7E
        · rw [shown_low (by rw [e]; exact hp)] at hh
          have := congrArg Char.toNat hh
          rw [e] at this
          rw [List.getLast?_singleton, Option.some.injEq]
          exact UInt8.toNat_inj.1 this
        · have e' : shown (Char.ofNat b.toNat) = Char.ofNat 0xFFFD := by
            unfold shown
            rw [e, if_neg hp]
          rw [e'] at hh
          exact absurd hh (by decide)
      · rw [shown_high h2] at hh
        exact absurd hh (by decide)
    · have hne : (utf8Lossy (bs.drop (utf8Step b bs).2)).map shown ≠ [] := by
        intro h0
        obtain ⟨x, xs, hx⟩ := List.exists_cons_of_ne_nil hd
        rw [hx, utf8Lossy_step] at h0
        cases h0
      rw [List.getLast?_cons_of_ne_nil hne] at h
      have := ih h
      have e : (b :: bs) = (b :: bs.take (utf8Step b bs).2) ++ bs.drop (utf8Step b bs).2 := by
        rw [List.cons_append, List.take_append_drop]
      rw [e, List.getLast?_append, this]
      rfl

theorem shown_ws {t : Str} (bs : List UInt8) (h : t = (utf8Lossy bs).map shown) : ∀ c ∈ t, isWs c = decide (c = ' ') := by
  intro c hc
  subst h
  obtain ⟨d, -, rfl⟩ := List.mem_map.1 hc
  by_cases hp : 0x20 ≤ d.toNat ∧ d.toNat ≤ 0x7E
  · rw [shown_low hp]
    exact isWs_printable hp
  · have : shown d = Char.ofNat 0xFFFD := by unfold shown; rw [if_neg hp]
    rw [this]
    decide

/-! ### Quoted bytes -/

theorem quote_mem {a : List UInt8} (h : (0x27 : UInt8) ∉ a) : '\'' ∉ utf8Lossy a := by
  intro hm
  have h1 : '\'' ∈ ((utf8Lossy a).map shown).filter (· ≠ Char.ofNat 0xFFFD) :=
    List.mem_filter.2 ⟨List.mem_map.2 ⟨_, hm, by decide⟩, by decide⟩
  rw [lossy_kept] at h1
  unfold printables at h1
  obtain ⟨b, hb, he⟩ := List.mem_map.1 h1
  obtain ⟨hb, hp⟩ := List.mem_filter.1 hb
  have e2 : (0x7E : UInt8).toNat = 0x7E := rfl
  rw [decide_eq_true_eq, UInt8.le_iff_toNat_le, UInt8.le_iff_toNat_le, e2] at hp
  have := congrArg Char.toNat he
  rw [toNat_ofNat_lt (by omega)] at this
  exact h ((UInt8.toNat_inj.1 this : b = 0x27) ▸ hb)

theorem escape_plain {s : Str} (h : '\'' ∉ s) : escape s = s := by
  induction s with
  | nil => rfl
  | cons c s ih =>
    rw [List.mem_cons, not_or] at h
    rw [escape, if_neg (fun e => h.1 e.symm), ih h.2]

theorem escape_append (s t : Str) : escape (s ++ t) = escape s ++ escape t := by
  induction s with
  | nil => rfl
  | cons c s ih =>
    rw [List.cons_append, escape, escape, ih]
    split <;> rfl

theorem escapeBytes_plain {a : List UInt8} (h : (0x27 : UInt8) ∉ a) (r : List UInt8) :
    escapeBytes (a ++ r) = a ++ escapeBytes r := by
  induction a with
  | nil => rfl
  | cons b a ih =>
    rw [List.mem_cons, not_or] at h
    rw [List.cons_append, escapeBytes, if_neg (fun e => h.1 e.symm), ih h.2]
    rfl

theorem lossy_quote (r : List UInt8) : utf8Lossy (0x27 :: r) = '\'' :: utf8Lossy r := by
  rw [utf8Lossy_step, utf8Step_ascii (by decide)]
  rfl

theorem lossy_escape (bs : List UInt8) : utf8Lossy (escapeBytes bs) = escape (utf8Lossy bs) := by
  have : ∀ n, ∀ bs : List UInt8, bs.length ≤ n → utf8Lossy (escapeBytes bs) = escape (utf8Lossy bs) := by
    intro n
    induction n with
    | zero =>
      intro bs h
      rw [List.length_eq_zero_iff.1 (by omega : bs.length = 0)]
      rfl
    | succ n ih =>
      intro bs hl
      by_cases hq : (0x27 : UInt8) ∈ bs
      · obtain ⟨a, r, rfl, ha⟩ := List.eq_append_cons_of_mem hq
        rw [escapeBytes_plain ha, escapeBytes, if_pos rfl, utf8Lossy_append (by rintro x ⟨rfl⟩; decide),
          utf8Lossy_append (by rintro x ⟨rfl⟩; decide), lossy_quote, lossy_quote, lossy_quote, escape_append,
          escape_plain (quote_mem ha), ih r (by rw [List.length_append, List.length_cons] at hl; omega)]
        rfl
      · have := escapeBytes_plain hq []
        rw [List.append_nil] at this
        rw [this, escapeBytes, List.append_nil, escape_plain (quote_mem hq)]
  exact this _ bs (Nat.le_refl _)

theorem loop_push {c : Char} {v : Str} {r : Option Str} {x : Res (Str × Option Str)} (h : x = .ok (v, r)) :
    (x.map fun (v, rest) => (c :: v, rest)) = .ok (c :: v, r) := by
  rw [h]
  rfl

/-- The loop over a quoted text. -/
theorem loop_quoted (s w : Str) {v : Str} {r : Option Str} (h : splitLoop true true w = .ok (v, r)) :
    splitLoop true false (escape s ++ '\'' :: w) = .ok (s.map shown ++ '\'' :: v, r) := by
  induction s with
  | nil =>
    rw [escape, List.nil_append, splitLoop]
    simp only [if_true]
    exact loop_push h
  | cons c s ih =>
    rw [escape]
    by_cases hq : c = '\''
    · rw [if_pos hq]
      rw [List.cons_append, List.cons_append, splitLoop]
      simp only [if_true]
      rw [splitLoop]
      simp only [if_true]
      subst hq
      exact loop_push ih
    · rw [if_neg hq, List.cons_append, splitLoop]
      simp only [if_neg hq]
      by_cases hs : c = '/'
      · rw [if_pos hs]
        subst hs
        exact loop_push ih
      · rw [if_neg hs]
        by_cases hp : isPrintable c = true
        · rw [if_pos hp, if_neg (by decide)]
          rw [List.map_cons, ← shown_eq, if_pos hp]
          exact loop_push ih
        · rw [if_neg hp, if_pos trivial, List.map_cons, ← shown_eq, if_neg hp]
          exact loop_push ih

theorem loop_blanks (pad : Nat) {w v : Str} {r : Option Str} (h : splitLoop false false w = .ok (v, r)) :
    splitLoop false false (blank pad ++ w) = .ok (blank pad ++ v, r) := by
  induction pad with
  | zero => exact h
  | succ pad ih =>
    have : ∀ u : Str, blank (pad + 1) ++ u = ' ' :: (blank pad ++ u) := fun u => rfl
    rw [this, this, splitLoop]
    simp only [show ¬ (' ' = '\'') by decide, show ¬ (' ' = '/') by decide, if_false, show isPrintable ' ' = true by decide,
      if_true]
    exact loop_push ih

/-- The loop after the closing quote. -/
theorem loop_tail (pad : Nat) (c : Option Str) :
    splitLoop true true (match c with | none => [] | some c => blank pad ++ '/' :: c) =
      .ok (match c with | none => [] | some _ => blank pad, c) := by
  cases c with
  | none => rfl
  | some c =>
    cases pad with
    | zero => rfl
    | succ pad =>
      have : ∀ u : Str, blank (pad + 1) ++ u = ' ' :: (blank pad ++ u) := fun u => rfl
      dsimp only
      rw [this, splitLoop]
      simp only [show ¬ (' ' = '\'') by decide, show ¬ (' ' = '/') by decide, if_false,
        show isPrintable ' ' = true by decide, if_true]
      have h0 : splitLoop false false ('/' :: c) = .ok ([], some c) := rfl
      have := loop_blanks pad h0
      rw [List.append_nil] at this
      exact loop_push this

theorem lossy_blanks (n : Nat) (r : List UInt8) : utf8Lossy (List.replicate n 0x20 ++ r) = blank n ++ utf8Lossy r := by
  induction n with
  | zero => rfl
  | succ n ih =>
    rw [List.replicate_succ, List.cons_append, utf8Lossy_step, utf8Step_ascii (by decide), List.drop_zero, ih]
    rfl

/-- The core of a field of bytes, without the blanks around it. -/
def byteCore (bs : List UInt8) (pad : Nat) (comment : Option (List UInt8)) : List UInt8 :=
  0x27 :: (escapeBytes bs ++ 0x27 :: match comment with
    | none => []
    | some c => List.replicate pad 0x20 ++ 0x2F :: stripBytes c)

theorem trim_byteField (lead : Nat) (bs : List UInt8) (pad : Nat) (comment : Option (List UInt8)) :
    trimAscii (byteField lead bs pad comment) = byteCore bs pad comment := by
  have ws : ∀ n : Nat, ∀ x ∈ List.replicate n (0x20 : UInt8), isAsciiWs x = true := by
    intro n x hx
    rw [(List.mem_replicate.1 hx).2]
    decide
  have head : ∀ x, (byteCore bs pad comment).head? = some x → isAsciiWs x = false := by
    rintro x ⟨rfl⟩
    decide
  unfold byteField
  cases comment with
  | none =>
    have := trimBy_core (p := isAsciiWs) (a := List.replicate lead 0x20) (b := List.replicate pad 0x20) (ws _) (ws _) head (by
      intro x hx
      unfold byteCore at hx
      dsimp only at hx
      rw [← List.cons_append, List.getLast?_concat] at hx
      cases hx
      decide)
    unfold trimAscii
    rw [← this]
    congr 1
    unfold byteCore
    simp only [List.append_assoc, List.cons_append, List.nil_append, List.append_nil]
  | some c =>
    obtain ⟨b, h1, h2, h3⟩ := trimEndBy_spec (p := isAsciiWs) c
    have hs : trimEndBy isAsciiWs c = stripBytes c := rfl
    rw [hs] at h1 h3
    have := trimBy_core (p := isAsciiWs) (a := List.replicate lead 0x20) (b := b) (ws _) h2 head (by
      intro x hx
      unfold byteCore at hx
      dsimp only at hx
      rw [← List.cons_append, List.getLast?_append, List.getLast?_cons, List.getLast?_append, List.getLast?_cons] at hx
      cases hl : (stripBytes c).getLast? with
      | none => rw [hl] at hx; cases hx; exact (by decide : isAsciiWs 0x2F = false)
      | some y => rw [hl] at hx; cases hx; exact h3 _ hl)
    unfold trimAscii
    rw [← this]
    congr 1
    unfold byteCore
    dsimp only
    conv => lhs; rw [h1]
    simp only [List.append_assoc, List.cons_append, List.nil_append]

/-- The value and the comment of a field of bytes. -/
theorem split_bytes (lead : Nat) (bs : List UInt8) (pad : Nat) (comment : Option (List UInt8)) :
    ∃ t u, ShownText bs t ∧ CommentShown comment u ∧ (∀ c ∈ t, isWs c = decide (c = ' ')) ∧
      splitValueAndComment (byteField lead bs pad comment) = .ok ('\'' :: (t ++ ['\'']), u) := by
  refine ⟨(utf8Lossy bs).map shown, comment.map fun c => (utf8Lossy (stripBytes c)).map shown, shownAs bs, ?_,
    shown_ws bs rfl, ?_⟩
  · cases comment with
    | none => rfl
    | some c => exact ⟨_, rfl, shownAs _⟩
  unfold splitValueAndComment
  rw [trim_byteField]
  have hdec : utf8Lossy (byteCore bs pad comment) = '\'' :: (escape (utf8Lossy bs) ++ '\'' ::
      match comment.map fun c => utf8Lossy (stripBytes c) with | none => [] | some c => blank pad ++ '/' :: c) := by
    unfold byteCore
    rw [lossy_quote, utf8Lossy_append (by rintro x ⟨rfl⟩; decide), lossy_escape, lossy_quote]
    cases comment with
    | none => rfl
    | some c =>
      dsimp only [Option.map]
      rw [lossy_blanks, utf8Lossy_step, utf8Step_ascii (by decide), List.drop_zero]
      rfl
  rw [hdec, splitLoop]
  simp only [if_true]
  rw [loop_push (loop_quoted _ _ (loop_tail pad _)), Res.map_ok]
  have hl : ∀ t : Str, ('\'' :: (t ++ ['\''])).getLast? = some '\'' := by
    intro t
    rw [← List.cons_append, List.getLast?_concat]
  have htrim : ∀ (t : Str) (n : Nat), trimStr ('\'' :: (t ++ '\'' :: blank n)) = '\'' :: (t ++ ['\'']) := by
    intro t n
    have := trimBy_core (p := isWs) (a := []) (m := '\'' :: (t ++ ['\''])) (b := blank n) (by simp)
      (by intro x hx; rw [mem_blank hx]; decide) (by rintro x ⟨rfl⟩; decide)
      (by intro x hx; rw [hl] at hx; cases hx; decide)
    unfold trimStr
    rw [← this]
    congr 1
    simp
  cases comment with
  | none =>
    dsimp only [Option.map]
    have := htrim ((utf8Lossy bs).map shown) 0
    rw [show blank 0 = [] from rfl] at this
    rw [this]
  | some c =>
    dsimp only [Option.map]
    rw [htrim]
    congr 3
    have e : (utf8Lossy (stripBytes c)).map (fun c => if isPrintable c then c else replacement) =
        (utf8Lossy (stripBytes c)).map shown := List.map_congr_left fun c _ => shown_eq c
    rw [e]
    refine trimEndBy_of_last fun x hx => ?_
    rw [shown_ws (stripBytes c) rfl x (List.mem_of_getLast? hx), decide_eq_false_iff_not]
    rintro rfl
    have h1 := lossy_last _ hx
    obtain ⟨b, -, -, h3⟩ := trimEndBy_spec (p := isAsciiWs) c
    exact absurd (h3 _ h1) (by decide)

theorem parseString_shown {t : Str} (h : ∀ c ∈ t, isWs c = decide (c = ' ')) :
    parseString ('\'' :: (t ++ ['\''])) = .ok (fitsString t) := by
  have hl : ('\'' :: (t ++ ['\''])).getLast? = some '\'' := by
    rw [← List.cons_append, List.getLast?_concat]
  have hd : (('\'' :: (t ++ ['\''])).drop 1).dropLast = t := by simp
  unfold parseString
  simp only [List.head?_cons, hl, and_self, if_true, List.length_cons, List.length_append, List.length_nil,
    hd]
  rw [if_neg (by omega), Res.map_ok]
  have : trimEndStr t = stripEnd t := trimEndBy_congr h
  simp only [fitsString, this]

theorem parseValue_bytes (lead : Nat) (bs : List UInt8) (pad : Nat) (comment : Option (List UInt8)) :
    ∃ t u, ShownText bs t ∧ CommentShown comment u ∧
      parseValue (byteField lead bs pad comment) = .ok (.string (fitsString t) u) := by
  obtain ⟨t, u, h1, h2, h3, h4⟩ := split_bytes lead bs pad comment
  refine ⟨t, u, h1, h2, ?_⟩
  unfold parseValue
  rw [h4, Res.bind_ok]
  dsimp only
  rw [if_pos rfl, parseString_shown h3]
  rfl

/-! ## C85 -/

/-- **C85, strings**: whatever bytes a quoted string and the comment after it are made of, they are read, and shown as the
specification says. -/
theorem C85_string (kw : Str) (lead : Nat) (bs : List UInt8) (pad : Nat) (comment : Option (List UInt8)) (hk : Name kw) :
    ∃ t u, ShownText bs t ∧ CommentShown comment u ∧
      Card.tryFrom (toBytes (keywordField kw) ++ ([0x3D, 0x20] ++ byteField lead bs pad comment)) =
        .ok (.value kw (.string (fitsString t) u)) := by
  obtain ⟨t, u, h1, h2, h3⟩ := parseValue_bytes lead bs pad comment
  refine ⟨t, u, h1, h2, ?_⟩
  unfold Card.tryFrom
  rw [keyword_read (printable_name hk.chars) hk.short (name_ne_blank hk.chars), drop_keyword hk.short]
  have hp := hk.plain
  simp only [special, List.mem_cons, List.not_mem_nil, or_false, not_or] at hp
  obtain ⟨a1, a2, a3, a4, a5, a6⟩ := hp
  have e10 : ∀ f : List UInt8, (toBytes (keywordField kw) ++ ([0x3D, 0x20] ++ f)).drop 10 = f := by
    intro f
    rw [show (10 : Nat) = 8 + 2 from rfl, ← List.drop_drop, drop_keyword hk.short]; rfl
  simp only [hk.nonempty, a1, a2, a3, a4, a5, a6, if_false, e10]
  rw [if_pos (by rfl), h3]
  rfl

/-- In a continuation. -/
theorem C85_continue (lead : Nat) (bs : List UInt8) (pad : Nat) (comment : Option (List UInt8)) :
    ∃ t u, ShownText bs t ∧ CommentShown comment u ∧
      Card.tryFrom (toBytes "CONTINUE".toList ++ byteField lead bs pad comment) =
        .ok (.continuation (some (fitsString t)) u) := by
  obtain ⟨t, u, h1, h2, h3, h4⟩ := split_bytes lead bs pad comment
  refine ⟨t, u, h1, h2, ?_⟩
  have e : toBytes "CONTINUE".toList = toBytes (keywordField "CONTINUE".toList) := by decide +kernel
  have hp : Printable "CONTINUE".toList := by unfold Printable; decide +kernel
  have h8 : "CONTINUE".toList.length ≤ 8 := by decide +kernel
  unfold Card.tryFrom
  rw [e, keyword_read hp h8 (by decide +kernel), drop_keyword h8]
  dsimp only
  rw [if_neg (by decide +kernel), if_neg (by decide +kernel), if_neg (by decide +kernel), if_pos rfl]
  unfold parseContinuation
  rw [drop_keyword h8, h4, Res.bind_ok]
  dsimp only
  rw [parseString_shown h3]
  rfl

/-- The words of a `HIERARCH` keyword in UTF-8, each preceded by blanks. -/
def encodedWords (ts : List (Nat × Str)) (pad : Nat) : List UInt8 :=
  ts.flatMap (fun p => List.replicate p.1 0x20 ++ encode p.2) ++ List.replicate pad 0x20

theorem encode_mem {s : Str} {b : UInt8} (h : b ∈ encode s) (hb : b.toNat < 0x80) : ∃ c ∈ s, b.toNat = c.toNat := by
  obtain ⟨c, hc, hbc⟩ := List.mem_flatMap.1 h
  obtain ⟨x, t, h1, h2, h3, -⟩ := utf8_cons c
  rw [h1] at hbc
  refine ⟨c, hc, ?_⟩
  by_cases hl : c.toNat < 0x80
  · obtain ⟨h4, rfl⟩ := h2 hl
    rw [List.mem_singleton] at hbc
    rw [hbc, h4]
  · obtain ⟨h4, h5⟩ := h3 (by omega)
    rcases List.mem_cons.1 hbc with rfl | hbc
    · omega
    · have := h5 b hbc
      omega

theorem encode_ne_nil {s : Str} (h : s ≠ []) : encode s ≠ [] := by
  cases s with
  | nil => exact absurd rfl h
  | cons c s =>
    obtain ⟨x, t, h1, -⟩ := utf8_cons c
    unfold encode
    rw [List.flatMap_cons, h1]
    simp

theorem tokens_blanks (n : Nat) (l : List UInt8) : tokens (List.replicate n 0x20 ++ l) = tokens l := by
  induction n with
  | zero => rfl
  | succ n ih => rw [List.replicate_succ, List.cons_append, tokens_ws (by decide), ih]

theorem encode_ws {t : Str} (h : ∀ c ∈ t, isAsciiWsChar c = false) : ∀ x ∈ encode t, isAsciiWs x = false := by
  intro x hx
  rw [← Bool.not_eq_true]
  intro hw
  have hlt : x.toNat < 0x80 := by
    unfold isAsciiWs at hw
    simp only [Bool.or_eq_true, beq_iff_eq] at hw
    rcases hw with (((rfl | rfl) | rfl) | rfl) | rfl <;> decide
  obtain ⟨c, hc, he⟩ := encode_mem hx hlt
  have h0 := h c hc
  have hcc : c = Char.ofNat x.toNat := by rw [he]; exact (Char.ofNat_toNat c).symm
  unfold isAsciiWs at hw
  simp only [Bool.or_eq_true, beq_iff_eq] at hw
  rw [hcc] at h0
  rcases hw with (((rfl | rfl) | rfl) | rfl) | rfl <;> exact absurd h0 (by decide)

theorem tokens_encoded {ts : List (Nat × Str)} (pad : Nat) (h1 : ∀ p ∈ ts, p.2 ≠ [] ∧ ∀ c ∈ p.2, isAsciiWsChar c = false)
    (h2 : ∀ p ∈ ts.tail, 0 < p.1) : tokens (encodedWords ts pad) = ts.map fun p => encode p.2 := by
  unfold encodedWords
  induction ts with
  | nil =>
    have := tokens_blanks pad []
    rw [List.append_nil, tokens_nil] at this
    exact this
  | cons p ts ih =>
    obtain ⟨n, t⟩ := p
    obtain ⟨ht0, htw⟩ := h1 (n, t) (by simp)
    have hws := encode_ws htw
    have ht0' := encode_ne_nil ht0
    have ih := ih (fun p hp => h1 p (by simp [hp])) (fun p hp => h2 p (List.mem_of_mem_tail hp))
    rw [List.flatMap_cons, List.append_assoc, List.append_assoc, tokens_blanks, List.map_cons, ← ih]
    dsimp only
    cases ts with
    | nil =>
      rw [List.flatMap_nil, List.nil_append]
      cases pad with
      | zero => rw [List.replicate_zero, List.append_nil, tokens_single hws ht0', tokens_nil]
      | succ k => rw [List.replicate_succ, tokens_token hws ht0' (by decide), tokens_ws (by decide)]
    | cons q ts =>
      obtain ⟨m, u⟩ := q
      have hm := h2 (m, u) (by simp)
      cases m with
      | zero => simp at hm
      | succ k =>
        rw [List.flatMap_cons, List.replicate_succ]
        simp only [List.cons_append]
        rw [tokens_token hws ht0' (by decide), tokens_ws (by decide)]

/-- In a `HIERARCH` record: the words of the name, in UTF-8, are kept as they are. -/
theorem C85_hierarch (ts : List (Nat × Str)) (gap lead : Nat) (bs : List UInt8) (pad : Nat)
    (comment : Option (List UInt8)) (hne : ts ≠ [])
    (h1 : ∀ p ∈ ts, p.2 ≠ [] ∧ ∀ c ∈ p.2, c ∉ [' ', '\t', '\n', Char.ofNat 0x0C, '\r', '='])
    (h2 : ∀ p ∈ ts.tail, 0 < p.1) :
    ∃ t u, ShownText bs t ∧ CommentShown comment u ∧
      Card.tryFrom (toBytes "HIERARCH ".toList ++ (encodedWords ts gap ++ 0x3D :: byteField lead bs pad comment)) =
        .ok (.hierarch (dotted (ts.map Prod.snd)) (.string (fitsString t) u)) := by
  obtain ⟨t, u, g1, g2, g3⟩ := parseValue_bytes lead bs pad comment
  refine ⟨t, u, g1, g2, ?_⟩
  have hws : ∀ p ∈ ts, p.2 ≠ [] ∧ ∀ c ∈ p.2, isAsciiWsChar c = false := by
    refine fun p hp => ⟨(h1 p hp).1, fun c hc => ?_⟩
    have := (h1 p hp).2 c hc
    simp only [List.mem_cons, List.not_mem_nil, or_false, not_or] at this
    obtain ⟨a1, a2, a3, a4, a5, -⟩ := this
    unfold isAsciiWsChar
    simp [a1, a2, a3, a4, a5]
  have htok := tokens_encoded gap hws h2
  have hk : (0x3D : UInt8) ∉ encodedWords ts gap := by
    intro hm
    unfold encodedWords at hm
    rcases List.mem_append.1 hm with hm | hm
    · obtain ⟨p, hp, hm⟩ := List.mem_flatMap.1 hm
      rcases List.mem_append.1 hm with hm | hm
      · exact absurd (List.mem_replicate.1 hm).2 (by decide)
      · obtain ⟨c, hc, he⟩ := encode_mem hm (by decide)
        have := (h1 p hp).2 c hc
        have e : c = '=' := by rw [← Char.ofNat_toNat c, ← he]; rfl
        subst e
        exact this (by decide)
    · exact absurd (List.mem_replicate.1 hm).2 (by decide)
  generalize encodedWords ts gap = k at htok hk
  have e : toBytes "HIERARCH ".toList ++ (k ++ 0x3D :: byteField lead bs pad comment) =
      toBytes (keywordField "HIERARCH".toList) ++ (0x20 :: (k ++ 0x3D :: byteField lead bs pad comment)) := by
    have : toBytes "HIERARCH ".toList = toBytes (keywordField "HIERARCH".toList) ++ [0x20] := by decide +kernel
    rw [this, List.append_assoc]
    rfl
  have hp : Printable "HIERARCH".toList := by unfold Printable; decide +kernel
  have h8 : "HIERARCH".toList.length ≤ 8 := by decide +kernel
  unfold Card.tryFrom
  rw [e, keyword_read hp h8 (by decide +kernel)]
  dsimp only
  rw [if_neg (by decide +kernel), if_neg (by decide +kernel), if_neg (by decide +kernel), if_neg (by decide +kernel),
    if_neg (by decide +kernel), if_pos rfl]
  have hparts : hierarchParts (toBytes (keywordField "HIERARCH".toList) ++
      (0x20 :: (k ++ 0x3D :: byteField lead bs pad comment))) k (byteField lead bs pad comment) := by
    refine ⟨?_, hk⟩
    rw [show (9 : Nat) = 8 + 1 from rfl, ← List.drop_drop, drop_keyword h8]
    rfl
  rw [parseHierarch_parts hparts, htok, g3]
  have hmap : (ts.map fun p => encode p.2).map utf8Lossy = ts.map Prod.snd := by
    rw [List.map_map]
    refine List.map_congr_left fun p _ => ?_
    exact utf8Lossy_encode p.2
  cases ts with
  | nil => exact absurd rfl hne
  | cons p ts =>
    rw [List.map_cons]
    dsimp only
    rw [List.map_cons] at hmap
    rw [hmap, joinDots_eq]
    rfl

/-! ### Keywords -/

theorem ws_ascii {a : List UInt8} (h : ∀ x ∈ a, isAsciiWs x = true) : ∀ x ∈ a, x.toNat < 0x80 := by
  intro x hx
  have := h x hx
  unfold isAsciiWs at this
  simp only [Bool.or_eq_true, beq_iff_eq] at this
  rcases this with (((rfl | rfl) | rfl) | rfl) | rfl <;> decide

theorem encode_ascii {a : List UInt8} (h : ∀ x ∈ a, x.toNat < 0x80) : encode (a.map asciiChar) = a := by
  induction a with
  | nil => rfl
  | cons b a ih =>
    have hb := h b (by simp)
    have e := asciiChar_toNat hb
    unfold encode at ih ⊢
    rw [List.map_cons, List.flatMap_cons, ih (fun x hx => h x (by simp [hx])), utf8_ascii (by rw [e]; exact hb), e,
      UInt8.ofNat_toNat]
    rfl

theorem encode_prefix {a r : List UInt8} {s : Str} (ha : ∀ x ∈ a, x.toNat < 0x80) (h : encode s = a ++ r) :
    ∃ s', r = encode s' := by
  induction a generalizing s with
  | nil => exact ⟨s, h.symm⟩
  | cons b a ih =>
    cases s with
    | nil => cases h
    | cons c s =>
      obtain ⟨x, t, h1, h2, h3, -⟩ := utf8_cons c
      have e : encode (c :: s) = x :: (t ++ encode s) := by
        unfold encode
        rw [List.flatMap_cons, h1]
        rfl
      rw [e, List.cons_append] at h
      obtain ⟨rfl, hr⟩ := List.cons.inj h
      have hx := ha x (by simp)
      by_cases hl : c.toNat < 0x80
      · obtain ⟨-, rfl⟩ := h2 hl
        exact ih (fun y hy => ha y (by simp [hy])) hr
      · have := (h3 (by omega)).1
        omega

theorem encode_suffix {b : List UInt8} : ∀ {m : List UInt8} {s : Str}, (∀ x ∈ b, x.toNat < 0x80) → encode s = m ++ b →
    ∃ s', m = encode s' := by
  induction b with
  | nil => intro m s _ h; exact ⟨s, by rw [h, List.append_nil]⟩
  | cons x b ih =>
    intro m s hb h
    obtain ⟨s', h'⟩ := ih (m := m ++ [x]) (s := s) (fun y hy => hb y (by simp [hy])) (by rw [h]; simp)
    rcases List.eq_nil_or_concat s' with rfl | ⟨q, c, rfl⟩
    · exact absurd (congrArg List.length h') (by simp [encode])
    · obtain ⟨y, t, h1, h2, h3, -⟩ := utf8_cons c
      have e : encode (q ++ [c]) = encode q ++ (y :: t) := by
        unfold encode
        rw [List.flatMap_append, List.flatMap_cons, List.flatMap_nil, List.append_nil, h1]
      rw [List.concat_eq_append, e] at h'
      have hx := hb x (by simp)
      by_cases hl : c.toNat < 0x80
      · obtain ⟨-, rfl⟩ := h2 hl
        exact ⟨q, (List.append_inj' h' rfl).1⟩
      · exfalso
        obtain ⟨g1, g2⟩ := h3 (by omega)
        have hlast := congrArg List.getLast? h'
        rw [List.getLast?_concat, List.getLast?_append] at hlast
        have hm : x ∈ y :: t := by
          cases hq : (y :: t).getLast? with
          | none => simp at hq
          | some w =>
            rw [hq] at hlast
            cases hlast
            exact List.mem_of_getLast? hq
        rcases List.mem_cons.1 hm with rfl | hm
        · omega
        · have := g2 x hm
          omega

theorem strict_trim (l : List UInt8) : utf8Strict (trimAscii l) = none ↔ ¬ ∃ s, l = encode s := by
  obtain ⟨a, b, h1, h2, h3⟩ := trimBy_spec (p := isAsciiWs) l
  rw [Option.eq_none_iff_forall_not_mem]
  constructor
  · rintro h ⟨s, hs⟩
    obtain ⟨s1, e1⟩ := encode_prefix (r := trimBy isAsciiWs l ++ b) (ws_ascii h2) (by rw [← hs, ← List.append_assoc]; exact h1)
    obtain ⟨s2, e2⟩ := encode_suffix (ws_ascii h3) e1.symm
    exact h s2 (utf8Strict_iff.2 e2)
  · rintro h s hs
    have e := utf8Strict_iff.1 (show utf8Strict (trimAscii l) = some s from hs)
    refine h ⟨a.map asciiChar ++ s ++ b.map asciiChar, ?_⟩
    unfold encode
    rw [List.flatMap_append, List.flatMap_append]
    show l = encode _ ++ encode s ++ encode _
    rw [encode_ascii (ws_ascii h2), encode_ascii (ws_ascii h3), ← e]
    exact h1

theorem splitLoop_static {tic toc : Bool} {s : Str} {e : Err} (h : splitLoop tic toc s = .err e) :
    e = .static "invalid character in value" := by
  induction s generalizing tic toc with
  | nil => cases h
  | cons c s ih =>
    rw [splitLoop.eq_def] at h
    dsimp only at h
    by_cases hq : c = '\''
    · rw [if_pos hq] at h
      cases tic <;> cases toc
      · exact ih (Res.map_eq_err.1 h)
      · cases h
      · exact ih (Res.map_eq_err.1 h)
      · exact ih h
    rw [if_neg hq] at h
    by_cases hs : c = '/'
    · rw [if_pos hs] at h
      cases tic <;> cases toc
      · cases h
      · cases h
      · exact ih (Res.map_eq_err.1 h)
      · cases h
    rw [if_neg hs] at h
    by_cases hp : isPrintable c = true
    · rw [if_pos hp] at h
      cases toc
      · exact ih (Res.map_eq_err.1 h)
      · exact ih (Res.map_eq_err.1 h)
    · rw [if_neg hp] at h
      cases tic
      · cases h; rfl
      · exact ih (Res.map_eq_err.1 h)

theorem split_static {buf : List UInt8} {e : Err} (h : splitValueAndComment buf = .err e) :
    e = .static "invalid character in value" := splitLoop_static (Res.map_eq_err.1 h)

theorem parseString_utf8 (s : Str) : parseString s ≠ .err .utf8 := by
  unfold parseString
  dsimp only
  intro h
  replace h := Res.map_eq_err.1 h
  split at h
  · split at h <;> cases h
  · split at h
    · cases h
    · split at h <;> cases h

theorem parseValue_utf8 (buf : List UInt8) : parseValue buf ≠ .err .utf8 := by
  intro h
  unfold parseValue at h
  rcases Res.bind_eq_err.1 h with h | ⟨⟨v, c⟩, -, h⟩
  · cases split_static h
  · dsimp only at h
    split at h
    · cases h
    · split at h
      · exact parseString_utf8 _ (Res.map_eq_err.1 h)
      · split at h
        · cases h
        · split at h
          · cases h
          · split at h
            · cases h
            · split at h <;> cases h

/-- **C85, keywords**: a record is refused as not being UTF-8 exactly when the eight bytes of its keyword are not. -/
theorem C85_keyword (r : List UInt8) : Card.tryFrom r = .err .utf8 ↔ ¬ ∃ s, r.take 8 = encode s := by
  rw [← strict_trim]
  unfold Card.tryFrom
  cases hu : utf8Strict (trimAscii (r.take 8)) with
  | none => exact ⟨fun _ => rfl, fun _ => rfl⟩
  | some kw =>
    dsimp only
    refine ⟨fun h => ?_, fun h => (by cases h)⟩
    exfalso
    split at h
    · cases h
    split at h
    · cases h
    split at h
    · cases h
    split at h
    · unfold parseContinuation at h
      rcases Res.bind_eq_err.1 h with h | ⟨⟨v, c⟩, -, h⟩
      · cases split_static h
      · exact parseString_utf8 _ (Res.map_eq_err.1 h)
    split at h
    · unfold parseExtension at h
      rcases Res.bind_eq_err.1 h with h | ⟨⟨v, c⟩, -, h⟩
      · cases split_static h
      · dsimp only at h
        split at h
        · split at h
          · cases h
          · have h := Res.map_eq_err.1 h
            unfold XtensionType.fromStr at h
            split at h
            · cases h
            · split at h
              · cases h
              · split at h <;> cases h
        · cases h
    split at h
    · unfold parseHierarch at h
      dsimp only at h
      split at h
      · split at h
        · cases h
        · exact parseValue_utf8 _ (Res.map_eq_err.1 h)
      · cases h
    split at h
    · cases h
    split at h
    · exact parseValue_utf8 _ (Res.map_eq_err.1 h)
    · cases h

/-- Looking for a keyword gives that error exactly when the keyword looked for is not UTF-8. -/
theorem C82_utf8 (r k : List UInt8) : checkCardKeyword r k = .err .utf8 ↔ ¬ ∃ s, k = encode s := by
  have hk : keywordNotFound k = .utf8 ↔ ¬ ∃ s, k = encode s := by
    unfold keywordNotFound
    cases hu : utf8Strict k with
    | none =>
      refine ⟨fun _ => ?_, fun _ => rfl⟩
      rintro ⟨s, hs⟩
      rw [utf8Strict_iff.2 hs] at hu
      cases hu
    | some s => exact ⟨fun h => (by cases h), fun h => absurd ⟨s, utf8Strict_iff.1 hu⟩ h⟩
  unfold checkCardKeyword
  by_cases he : r.take 8 = k
  · rw [if_pos he]
    constructor
    · intro h
      rcases Res.bind_eq_err.1 h with h | ⟨c, -, h⟩
      · rw [C85_keyword, he] at h
        exact h
      · cases c <;> first | exact hk.1 (Res.err.inj h) | cases h
    · intro h
      rw [(C85_keyword r).2 (by rw [he]; exact h)]
      rfl
  · rw [if_neg he]
    exact ⟨fun h => hk.1 (Res.err.inj h), fun h => by rw [hk.2 h]⟩

/-! ### Other records -/

/-- **C85, other records**: a record without value indicator that is a text in UTF-8 is kept as that text. -/
theorem C85_undefined (s t : Str) (h : Card.tryFrom (encode s) = .ok (.undefined t)) : t = s := by
  unfold Card.tryFrom at h
  split at h
  · cases h
  split at h
  · have h := Res.ok.inj h
    unfold parseEmptyKeywordCard at h
    dsimp only at h
    split at h <;> cases h
  split at h
  · cases h
  split at h
  · cases h
  split at h
  · unfold parseContinuation at h
    obtain ⟨p, -, h⟩ := Res.bind_eq_ok.1 h
    obtain ⟨v, -, h⟩ := Res.map_eq_ok.1 h
    cases h
  split at h
  · unfold parseExtension at h
    obtain ⟨⟨v, c⟩, -, h⟩ := Res.bind_eq_ok.1 h
    dsimp only at h
    split at h
    · split at h
      · cases h
      · obtain ⟨v, -, h⟩ := Res.map_eq_ok.1 h
        cases h
    · cases h
  split at h
  · unfold parseHierarch at h
    dsimp only at h
    split at h
    · split at h
      · cases h
      · obtain ⟨v, -, h⟩ := Res.map_eq_ok.1 h
        cases h
    · cases h
  split at h
  · cases h
  split at h
  · obtain ⟨v, -, h⟩ := Res.map_eq_ok.1 h
    cases h
  · rw [utf8Lossy_encode] at h
    cases h
    rfl

theorem trim_odd {v : Str} (hv : Printable v) {x : UInt8} (hw : ¬ isBlank x) (rest : List UInt8) :
    ∃ w rest', trimAscii (toBytes v ++ x :: rest) = toBytes w ++ x :: rest' ∧ ∀ c ∈ w, c ∈ v := by
  have hx : isAsciiWs x = false := by
    rw [← Bool.not_eq_true]
    intro h
    unfold isAsciiWs at h
    simp only [Bool.or_eq_true, beq_iff_eq] at h
    unfold isBlank at hw
    rcases h with (((h | h) | h) | h) | h <;> simp [h] at hw
  have hend : ∀ a : List UInt8, trimEndBy isAsciiWs (a ++ x :: rest) = a ++ x :: trimEndBy isAsciiWs rest := by
    intro a
    obtain ⟨b, h1, h2, h3⟩ := trimEndBy_spec (p := isAsciiWs) rest
    have e : a ++ x :: rest = (a ++ x :: trimEndBy isAsciiWs rest) ++ b := by
      conv => lhs; rw [h1]
      simp
    rw [e, trimEndBy_append_all h2]
    refine trimEndBy_of_last fun y hy => ?_
    rw [List.getLast?_append, List.getLast?_cons] at hy
    cases hl : (trimEndBy isAsciiWs rest).getLast? with
    | none => rw [hl] at hy; cases hy; exact hx
    | some z => rw [hl] at hy; cases hy; exact h3 _ hl
  unfold trimAscii trimBy
  clear hv
  induction v with
  | nil =>
    refine ⟨[], trimEndBy isAsciiWs rest, ?_, by simp⟩
    have : ([] : Str).map (fun c => UInt8.ofNat c.toNat) = [] := rfl
    unfold toBytes
    rw [this, List.nil_append, List.nil_append, List.dropWhile_cons_of_neg (by rw [hx]; decide)]
    exact hend []
  | cons c v ih =>
    have e : toBytes (c :: v) = UInt8.ofNat c.toNat :: toBytes v := rfl
    by_cases hc : isAsciiWs (UInt8.ofNat c.toNat) = true
    · obtain ⟨w, rest', h1, h2⟩ := ih
      refine ⟨w, rest', ?_, fun d hd => List.mem_cons_of_mem _ (h2 d hd)⟩
      rw [e, List.cons_append, List.dropWhile_cons_of_pos hc]
      exact h1
    · refine ⟨c :: v, trimEndBy isAsciiWs rest, ?_, fun d hd => hd⟩
      rw [e, List.cons_append, List.dropWhile_cons_of_neg hc]
      exact hend (UInt8.ofNat c.toNat :: toBytes v)

theorem lossy_low (w : Str) (h : ∀ c ∈ w, c.toNat < 0x80) (r : List UInt8) :
    utf8Lossy (toBytes w ++ r) = w ++ utf8Lossy r := by
  induction w with
  | nil => rfl
  | cons c w ih =>
    have e : toBytes (c :: w) = UInt8.ofNat c.toNat :: toBytes w := rfl
    have hc := h c (by simp)
    have e2 : (UInt8.ofNat c.toNat).toNat = c.toNat := by rw [UInt8.toNat_ofNat']; omega
    rw [e, List.cons_append, utf8Lossy_step, utf8Step_ascii (by rw [e2]; exact hc), e2, List.drop_zero,
      ih (fun d hd => h d (by simp [hd]))]
    simp only [Option.getD_some]
    rw [Char.ofNat_toNat]
    rfl

theorem lossy_odd (x : UInt8) (r : List UInt8) (hx : ¬ (0x20 ≤ x.toNat ∧ x.toNat ≤ 0x7E)) :
    ∃ c u, isPrintable c = false ∧ utf8Lossy (x :: r) = c :: u := by
  refine ⟨_, _, ?_, utf8Lossy_step x r⟩
  rw [← Bool.not_eq_true, isPrintable_iff]
  rcases step_char x r with ⟨h1, h2⟩ | ⟨h1, h2, -⟩
  · rw [h2]
    simp only [Option.getD_some]
    rw [toNat_ofNat_lt (by omega)]
    exact hx
  · omega

theorem loop_odd {w : Str} (hw : Printable w) (hq : '\'' ∉ w) (hs : '/' ∉ w) {c : Char} (hc : isPrintable c = false)
    {u : Str} : splitLoop false false (w ++ c :: u) = .err (.static "invalid character in value") := by
  induction w with
  | nil =>
    rw [List.nil_append, splitLoop]
    dsimp only
    rw [if_neg (by rintro rfl; exact absurd hc (by decide)), if_neg (by rintro rfl; exact absurd hc (by decide)),
      if_neg (by rw [hc]; decide), if_neg (by decide)]
  | cons d w ih =>
    rw [List.mem_cons, not_or] at hq hs
    rw [List.cons_append, splitLoop]
    dsimp only
    rw [if_neg (fun h => hq.1 h.symm), if_neg (fun h => hs.1 h.symm), if_pos ((isPrintable_iff d).2 (hw d (by simp))),
      if_neg (by decide), ih hw.tail hq.2 hs.2]
    rfl

/-- **C85, outside quotes**: a value that is not a string is refused if a byte that is neither printable nor white space
comes before its end, whatever follows. -/
theorem C85_outside (kw : Str) (lead : Nat) (v : Str) (x : UInt8) (rest : List UInt8) (hk : Name kw) (hv : Printable v)
    (hq : '\'' ∉ v) (hs : '/' ∉ v) (hx : ¬ (0x20 ≤ x.toNat ∧ x.toNat ≤ 0x7E)) (hw : ¬ isBlank x) :
    Card.tryFrom (toBytes (keywordField kw) ++ ([0x3D, 0x20] ++ (List.replicate lead 0x20 ++ toBytes v ++ x :: rest))) =
      .err (.static "invalid character in value") := by
  have hparse : parseValue (List.replicate lead 0x20 ++ toBytes v ++ x :: rest) =
      .err (.static "invalid character in value") := by
    have e0 : List.replicate lead (0x20 : UInt8) = toBytes (blank lead) := by
      unfold toBytes blank
      rw [List.map_replicate]
      rfl
    rw [e0, ← toBytes_append]
    obtain ⟨w, rest', h1, h2⟩ := trim_odd ((printable_blank lead).append hv) hw rest
    unfold parseValue splitValueAndComment
    have h3 : Printable w := fun c hc => ((printable_blank lead).append hv) c (h2 c hc)
    have hlt : ∀ c ∈ w, c.toNat < 0x80 := by
      intro c hc
      have := h3 c hc
      omega
    rw [h1, lossy_low w hlt]
    obtain ⟨c, u, hc, hu⟩ := lossy_odd x rest' hx
    rw [hu, loop_odd h3 (fun h => ?_) (fun h => ?_) hc]
    · rfl
    · rcases List.mem_append.1 (h2 _ h) with h | h
      · exact absurd (mem_blank h) (by decide)
      · exact hq h
    · rcases List.mem_append.1 (h2 _ h) with h | h
      · exact absurd (mem_blank h) (by decide)
      · exact hs h
  unfold Card.tryFrom
  rw [keyword_read (printable_name hk.chars) hk.short (name_ne_blank hk.chars), drop_keyword hk.short]
  have hp := hk.plain
  simp only [special, List.mem_cons, List.not_mem_nil, or_false, not_or] at hp
  obtain ⟨a1, a2, a3, a4, a5, a6⟩ := hp
  have e10 : ∀ f : List UInt8, (toBytes (keywordField kw) ++ ([0x3D, 0x20] ++ f)).drop 10 = f := by
    intro f
    rw [show (10 : Nat) = 8 + 2 from rfl, ← List.drop_drop, drop_keyword hk.short]; rfl
  simp only [hk.nonempty, a1, a2, a3, a4, a5, a6, if_false, e10]
  rw [if_pos (by rfl), hparse]
  rfl

/-- `OBJECT  = 'Café ' / à côté` in UTF-8: each accented letter is shown as one character U+FFFD. -/
example : ∃ t u, Card.tryFrom (toBytes (keywordField "OBJECT".toList) ++ ([0x3D, 0x20] ++
      byteField 0 (encode "Café ".toList) 1 (some (encode " à côté ".toList)))) =
    .ok (.value "OBJECT".toList (.string (fitsString t) (some u))) ∧
    t = ['C', 'a', 'f', Char.ofNat 0xFFFD, ' '] ∧
    u = [' ', Char.ofNat 0xFFFD, ' ', 'c', Char.ofNat 0xFFFD, 't', Char.ofNat 0xFFFD] := by
  obtain ⟨t, u, h1, ⟨w, rfl, h2⟩, h3⟩ := C85_string "OBJECT".toList 0 (encode "Café ".toList) 1
    (some (encode " à côté ".toList)) sample_name
  refine ⟨t, w, h3, (h1.text _ rfl).trans (by decide +kernel), (h2.text " à côté".toList (by decide +kernel)).trans ?_⟩
  decide +kernel

/-- The same word in Latin-1, which is not UTF-8: the letters in ASCII are kept. -/
example : ∃ t u, Card.tryFrom (toBytes (keywordField "OBJECT".toList) ++ ([0x3D, 0x20] ++
      byteField 0 [0x43, 0x61, 0x66, 0xE9, 0x73] 1 none)) = .ok (.value "OBJECT".toList (.string (fitsString t) u)) ∧
    t.filter (· ≠ Char.ofNat 0xFFFD) = "Cafs".toList ∧ t.length ≤ 5 ∧ u = none := by
  obtain ⟨t, u, h1, h2, h3⟩ := C85_string "OBJECT".toList 0 [0x43, 0x61, 0x66, 0xE9, 0x73] 1 none sample_name
  exact ⟨t, u, h3, h1.kept.trans (by decide +kernel), h1.short, h2⟩

/-- A keyword with a byte of Latin-1 is refused. -/
example : Card.tryFrom (0xE9 :: toBytes "QUINOX=                 2000".toList) = .err .utf8 := by
  rw [C85_keyword, ← strict_trim]
  decide +kernel

/-- A number followed by a degree sign is refused. -/
example : Card.tryFrom (toBytes (keywordField "OBJECT".toList) ++ ([0x3D, 0x20] ++
    (List.replicate 3 0x20 ++ toBytes "45".toList ++ 0xC2 :: [0xB0, 0x20]))) = .err (.static "invalid character in value") :=
  C85_outside _ _ _ _ _ sample_name (by unfold Printable; decide) (by decide) (by decide) (by decide) (by unfold isBlank; decide)

end Fitsrs

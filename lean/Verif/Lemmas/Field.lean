import Verif.Lemmas.Split
/-
Helper lemmas: value fields and value records written as in `Verif/Spec/Text.lean`, and what the parser
reads.
-/

namespace Fitsrs
open Spec

/-! ### Blanks -/

theorem mem_blank {n : Nat} {c : Char} (h : c ∈ blank n) : c = ' ' := (List.mem_replicate.1 h).2

theorem printable_blank (n : Nat) : Printable (blank n) := by
  intro c hc; rw [mem_blank hc]; decide

theorem Spec.Printable.append {a b : Str} (ha : Printable a) (hb : Printable b) : Printable (a ++ b) := by
  intro c hc
  rcases List.mem_append.1 hc with h | h
  · exact ha c h
  · exact hb c h

theorem printable_commentPart {c : Option Str} (h : ∀ t, c = some t → Printable t) :
    Printable (commentPart c) := by
  cases c with
  | none => intro c hc; simp [commentPart] at hc
  | some t =>
    intro c hc
    rcases List.mem_cons.1 hc with h' | h'
    · rw [h']; decide
    · exact h t rfl c h'

theorem printable_field {lead pad : Nat} {v : Str} {c : Option Str} (hv : Printable v)
    (hc : ∀ t, c = some t → Printable t) : Printable (field lead v pad c) :=
  (((printable_blank _).append hv).append (printable_blank _)).append (printable_commentPart hc)

/-- `stripEnd`, characterised. -/
theorem stripEnd_spec (s : Str) : ∃ n, s = stripEnd s ++ blank n := by
  obtain ⟨b, h1, h2⟩ := trimEndBy_spec (p := fun c => decide (c = ' ')) s
  refine ⟨b.length, ?_⟩
  have : b = blank b.length := by
    apply List.eq_replicate_iff.2
    exact ⟨rfl, fun c hc => by simpa using h2.1 c hc⟩
  rw [← this]; exact h1

theorem stripEnd_last (s : Str) : (stripEnd s).getLast? ≠ some ' ' := by
  intro h
  obtain ⟨b, h1, h2⟩ := trimEndBy_spec (p := fun c => decide (c = ' ')) s
  have := h2.2 ' ' h
  simp at this

theorem strip_of_ends {a b : Nat} {m : Str} (h1 : m.head? ≠ some ' ') (h2 : m.getLast? ≠ some ' ') :
    strip (blank a ++ m ++ blank b) = m := by
  rw [strip_eq]
  apply trimBy_core
  · intro c hc; simp [mem_blank hc]
  · intro c hc; simp [mem_blank hc]
  · intro c hc; simp only [decide_eq_false_iff_not]; rintro rfl; exact h1 hc
  · intro c hc; simp only [decide_eq_false_iff_not]; rintro rfl; exact h2 hc

theorem strip_id {m : Str} (h1 : m.head? ≠ some ' ') (h2 : m.getLast? ≠ some ' ') : strip m = m := by
  have := strip_of_ends (a := 0) (b := 0) h1 h2
  simpa [blank] using this

theorem strip_append_blank {b : Nat} {m : Str} (h1 : m.head? ≠ some ' ') (h2 : m.getLast? ≠ some ' ') :
    strip (m ++ blank b) = m := by
  have := strip_of_ends (a := 0) (b := b) h1 h2
  simpa [blank] using this

theorem strip_blank (n : Nat) : strip (blank n) = [] := by
  rw [strip_eq]
  apply trimBy_all
  intro c hc; simp [mem_blank hc]

theorem stripEnd_id {m : Str} (h : m.getLast? ≠ some ' ') : stripEnd m = m := by
  rw [stripEnd_eq]
  apply trimEndBy_of_last
  intro c hc; simp only [decide_eq_false_iff_not]; rintro rfl; exact h hc

theorem stripEnd_idem (m : Str) : stripEnd (stripEnd m) = stripEnd m := stripEnd_id (stripEnd_last m)

theorem stripEnd_append_blank (m : Str) (n : Nat) : stripEnd (m ++ blank n) = stripEnd m := by
  rw [stripEnd_eq, stripEnd_eq]
  apply trimEndBy_append_all
  intro c hc; simp [mem_blank hc]

/-! ### Fields -/

/-- What is left of a field after trimming. -/
def fieldCore (v : Str) (pad : Nat) : Option Str → Str
  | none => v
  | some c => v ++ (blank pad ++ '/' :: stripEnd c)

theorem strip_field {lead pad : Nat} {v : Str} {c : Option Str} (h1 : v.head? ≠ some ' ')
    (h2 : v.getLast? ≠ some ' ') (h0 : v ≠ []) : strip (field lead v pad c) = fieldCore v pad c := by
  cases c with
  | none => simpa [field, commentPart, fieldCore] using strip_of_ends (a := lead) (b := pad) h1 h2
  | some c =>
    obtain ⟨n, hn⟩ := stripEnd_spec c
    have e : field lead v pad (some c) = blank lead ++ (v ++ (blank pad ++ '/' :: stripEnd c)) ++ blank n := by
      conv => lhs; rw [hn]
      simp [field, commentPart]
    rw [e, strip_of_ends]
    · rfl
    · cases v with
      | nil => simp at h0
      | cons a v => simpa using h1
    · rw [List.getLast?_append, List.getLast?_append, List.getLast?_cons]
      cases hl : (stripEnd c).getLast? with
      | none => simp
      | some x =>
        simp only [Option.getD_some, Option.some_or, ne_eq, Option.some.injEq]
        rintro rfl
        exact stripEnd_last c hl

theorem strip_field_nil {lead pad : Nat} {c : Option Str} :
    strip (field lead [] pad c) = (match c with | none => [] | some c => '/' :: stripEnd c) := by
  cases c with
  | none =>
    have e : field lead [] pad none = blank (lead + pad) := by
      simp [field, commentPart, blank]
    rw [e, strip_blank]
  | some c =>
    obtain ⟨n, hn⟩ := stripEnd_spec c
    have e : field lead [] pad (some c) = blank (lead + pad) ++ ('/' :: stripEnd c) ++ blank n := by
      conv => lhs; rw [hn]
      simp [field, commentPart, blank, ← List.replicate_append_replicate]
    rw [e, strip_of_ends]
    · simp
    · rw [List.getLast?_cons]
      cases hl : (stripEnd c).getLast? with
      | none => simp
      | some x =>
        simp only [Option.getD_some, ne_eq, Option.some.injEq]
        rintro rfl
        exact stripEnd_last c hl

theorem cut_blank_slash (n : Nat) (t : Str) : cut false (blank n ++ '/' :: t) = (blank n, some t) := by
  induction n with
  | zero => simp [blank, cut]
  | succ n ih =>
    have : blank (n + 1) = ' ' :: blank n := rfl
    rw [this, List.cons_append, cut_other (by decide) (by decide), ih]

/-- A value without quotes, slashes and surrounding blanks. -/
structure PlainValue (v : Str) : Prop where
  printable : Printable v
  quote : '\'' ∉ v
  slash : '/' ∉ v
  head : v.head? ≠ some ' '
  last : v.getLast? ≠ some ' '
  nonempty : v ≠ []

theorem cut_plain {v : Str} (hq : '\'' ∉ v) (hs : '/' ∉ v) (b : Bool) (w : Str) :
    cut b (v ++ w) = (v ++ (cut b w).1, (cut b w).2) := by
  induction v with
  | nil => rfl
  | cons c v ih =>
    rw [List.cons_append, cut_other (by rintro rfl; simp at hq) (by rintro rfl; simp at hs),
      ih (by intro h; exact hq (by simp [h])) (by intro h; exact hs (by simp [h]))]
    rfl

theorem unquote_plain {v : Str} (hq : '\'' ∉ v) (b : Bool) : unquote b v = v := by
  induction v with
  | nil => cases b <;> rfl
  | cons c v ih =>
    have hc : c ≠ '\'' := by rintro rfl; simp at hq
    have hv : '\'' ∉ v := by intro h; exact hq (by simp [h])
    cases b
    · rw [unquote_false, decide_eq_false hc, ih hv]
    · rw [unquote_true_other hc, ih hv]

theorem quote_notMem_blank (n : Nat) : '\'' ∉ blank n := by
  intro h; have := mem_blank h; revert this; decide

theorem split_plain {lead pad : Nat} {v : Str} {c : Option Str} (hv : PlainValue v)
    (hc : ∀ t, c = some t → Printable t) :
    splitValueAndComment (toBytes (field lead v pad c)) = .ok (v, commentOf c) := by
  rw [split_printable (printable_field hv.printable hc), strip_field hv.head hv.last hv.nonempty]
  cases c with
  | none =>
    have e := cut_plain hv.quote hv.slash false []
    simp only [List.append_nil, cut] at e
    simp only [fieldCore, e, unquote_plain hv.quote, strip_id hv.head hv.last, commentOf, Option.map_none]
  | some c =>
    have hq : '\'' ∉ v ++ blank pad := by
      simp only [List.mem_append, not_or]; exact ⟨hv.quote, quote_notMem_blank pad⟩
    simp only [fieldCore, cut_plain hv.quote hv.slash, cut_blank_slash, unquote_plain hq,
      strip_append_blank hv.head hv.last, commentOf, Option.map_some, stripEnd_idem]

theorem split_empty {lead pad : Nat} {c : Option Str} (hc : ∀ t, c = some t → Printable t) :
    splitValueAndComment (toBytes (field lead [] pad c)) = .ok ([], commentOf c) := by
  rw [split_printable (printable_field (by intro c hc; simp at hc) hc), strip_field_nil]
  cases c with
  | none => rfl
  | some c =>
    have e := cut_blank_slash 0 (stripEnd c)
    simp only [blank, List.replicate_zero, List.nil_append] at e
    simp only [e, commentOf, Option.map_some, stripEnd_idem]
    rfl

/-! ### Quoted values -/

theorem printable_escape {s : Str} (h : Printable s) : Printable (escape s) := by
  induction s with
  | nil => exact h
  | cons c s ih =>
    have := ih h.tail
    rw [escape]
    split
    · rename_i hc
      intro x hx
      simp only [List.mem_cons] at hx
      rcases hx with rfl | rfl | hx
      · decide
      · decide
      · exact this x hx
    · intro x hx
      rcases List.mem_cons.1 hx with rfl | hx
      · exact h _ (by simp)
      · exact this x hx

theorem cut_escape (s w : Str) :
    cut true (escape s ++ '\'' :: w) = (escape s ++ '\'' :: (cut false w).1, (cut false w).2) := by
  induction s with
  | nil => simp [escape, cut_quote]
  | cons c s ih =>
    rw [escape]
    split
    · simp only [List.cons_append, cut_quote, Bool.not_true, Bool.not_false, ih]
    · rename_i hc
      simp only [List.cons_append]
      rw [cut]
      simp [hc, ih]

theorem unquote_escape (s w : Str) (hw : w.head? ≠ some '\'') :
    unquote true (escape s ++ '\'' :: w) = s ++ '\'' :: unquote false w := by
  induction s with
  | nil => simp [escape, unquote_true_quote, hw]
  | cons c s ih =>
    rw [escape]
    split
    · rename_i hc
      subst hc
      simp only [List.cons_append, unquote_true_quote, List.head?_cons, if_true, List.tail_cons, ih]
    · rename_i hc
      simp only [List.cons_append, unquote_true_other hc, ih]

theorem getLast?_quoted (s : Str) : (quoted s).getLast? = some '\'' := by
  unfold quoted
  rw [← List.cons_append, List.getLast?_concat]

theorem printable_quoted {s : Str} (h : Printable s) : Printable (quoted s) := by
  have := (printable_escape h).append (b := ['\'']) (by intro c hc; simp at hc; subst hc; decide)
  intro c hc
  rcases List.mem_cons.1 hc with rfl | hc
  · decide
  · exact this c hc

theorem split_quoted {lead pad : Nat} {s : Str} {c : Option Str} (hs : Printable s)
    (hc : ∀ t, c = some t → Printable t) :
    splitValueAndComment (toBytes (field lead (quoted s) pad c)) =
      .ok ('\'' :: (s ++ ['\'']), commentOf c) := by
  have hl : ('\'' :: (s ++ ['\''])).getLast? ≠ some ' ' := by
    rw [← List.cons_append, List.getLast?_concat]; decide
  rw [split_printable (printable_field (printable_quoted hs) hc), strip_field (by simp [quoted])
    (by rw [getLast?_quoted]; decide) (by simp [quoted])]
  cases c with
  | none =>
    have e := cut_escape s []
    simp only [fieldCore, quoted, cut_quote, Bool.not_false, e, cut]
    simp only [unquote_false, decide_true, unquote_escape s [] (by simp)]
    simp only [unquote, commentOf, Option.map_none]
    rw [strip_id (by simp) hl]
  | some c =>
    have e := cut_escape s (blank pad ++ '/' :: stripEnd c)
    have hb : (blank pad).head? ≠ some '\'' := by
      cases pad <;> simp [blank, List.replicate_succ]
    simp only [fieldCore, quoted, List.cons_append, List.append_assoc, List.nil_append, cut_quote,
      Bool.not_false, e, cut_blank_slash]
    simp only [unquote_false, decide_true, unquote_escape s _ hb, unquote_plain (quote_notMem_blank _),
      commentOf, Option.map_some, stripEnd_idem]
    rw [show '\'' :: (s ++ '\'' :: blank pad) = ('\'' :: (s ++ ['\''])) ++ blank pad by simp,
      strip_append_blank (by simp) hl]

/-- The string of a quoted text. -/
theorem parseString_quoted {s : Str} (hs : Printable s) :
    parseString ('\'' :: (s ++ ['\''])) = .ok (fitsString s) := by
  have hl : ('\'' :: (s ++ ['\''])).getLast? = some '\'' := by
    rw [← List.cons_append, List.getLast?_concat]
  have hd : (('\'' :: (s ++ ['\''])).drop 1).dropLast = s := by simp
  unfold parseString
  simp only [List.head?_cons, hl, and_self, if_true, List.length_cons, List.length_append, List.length_nil,
    hd]
  rw [if_neg (by omega), Res.map_ok]
  simp only [fitsString, trimEndStr_printable hs]

/-! ### Records -/

theorem toBytes_append (a b : Str) : toBytes (a ++ b) = toBytes a ++ toBytes b := List.map_append

theorem toBytes_length (a : Str) : (toBytes a).length = a.length := List.length_map ..

theorem keywordField_length {kw : Str} (h : kw.length ≤ 8) : (keywordField kw).length = 8 := by
  simp [keywordField, blank]; omega

theorem printable_name {kw : Str}
    (h : ∀ c ∈ kw, ('A' ≤ c ∧ c ≤ 'Z') ∨ ('0' ≤ c ∧ c ≤ '9') ∨ c = '-' ∨ c = '_') : Printable kw := by
  intro c hc
  have hA : 'A'.toNat = 65 := rfl
  have hZ : 'Z'.toNat = 90 := rfl
  have h0 : '0'.toNat = 48 := rfl
  have h9 : '9'.toNat = 57 := rfl
  rcases h c hc with h | h | rfl | rfl
  · simp only [char_le_iff, hA, hZ] at h; omega
  · simp only [char_le_iff, h0, h9] at h; omega
  · decide
  · decide

theorem name_ne_blank {kw : Str}
    (h : ∀ c ∈ kw, ('A' ≤ c ∧ c ≤ 'Z') ∨ ('0' ≤ c ∧ c ≤ '9') ∨ c = '-' ∨ c = '_') : ' ' ∉ kw := by
  intro hc
  have := h _ hc
  revert this; decide

/-- The keyword read from a padded keyword field. -/
theorem keyword_read {kw : Str} (hp : Printable kw) (h8 : kw.length ≤ 8) (hb : ' ' ∉ kw)
    (rest : List UInt8) :
    utf8Strict (trimAscii ((toBytes (keywordField kw) ++ rest).take 8)) = some kw := by
  rw [List.take_append_of_le_length (by rw [toBytes_length, keywordField_length h8]; omega),
    List.take_of_length_le (by rw [toBytes_length, keywordField_length h8]; omega)]
  have hpf : Printable (keywordField kw) := hp.append (printable_blank _)
  have h1 : trimAscii (toBytes (keywordField kw)) = toBytes (strip (keywordField kw)) := by
    unfold trimAscii toBytes
    rw [trimBy_map, strip_eq]
    congr 1
    apply trimBy_congr
    intro c hc
    exact isAsciiWs_toByte (hpf c hc)
  have h2 : strip (keywordField kw) = kw := by
    apply strip_append_blank
    · intro h; exact hb (List.mem_of_mem_head? h)
    · intro h; exact hb (List.mem_of_getLast? h)
  have hlt : ∀ c ∈ kw, c.toNat < 0x80 := by intro c hc; have := hp c hc; omega
  rw [h1, h2, utf8Strict_ascii (toBytes_ascii hlt), map_asciiChar_toBytes hlt]

theorem drop_keyword {kw : Str} (h8 : kw.length ≤ 8) (rest : List UInt8) :
    (toBytes (keywordField kw) ++ rest).drop 8 = rest := by
  rw [List.drop_append_of_le_length (by rw [toBytes_length, keywordField_length h8]; omega),
    List.drop_of_length_le (by rw [toBytes_length, keywordField_length h8]; omega)]
  rfl

/-- A value record is read by `parse_value`. -/
theorem tryFrom_valueRecord {kw f : Str} (h : Name kw) :
    Card.tryFrom (valueRecord kw f) = (parseValue (toBytes f)).map (.value kw) := by
  have e : valueRecord kw f = toBytes (keywordField kw) ++ ([0x3D, 0x20] ++ toBytes f) := by
    unfold valueRecord
    rw [toBytes_append, toBytes_append, List.append_assoc]; rfl
  unfold Card.tryFrom
  rw [e, keyword_read (printable_name h.chars) h.short (name_ne_blank h.chars), drop_keyword h.short]
  have hp := h.plain
  simp only [special, List.mem_cons, List.not_mem_nil, or_false, not_or] at hp
  obtain ⟨a1, a2, a3, a4, a5, a6⟩ := hp
  have e10 : (toBytes (keywordField kw) ++ ([0x3D, 0x20] ++ toBytes f)).drop 10 = toBytes f := by
    rw [show (10 : Nat) = 8 + 2 from rfl, ← List.drop_drop, drop_keyword h.short]; rfl
  simp only [h.nonempty, a1, a2, a3, a4, a5, a6, if_false, e10]
  rw [if_pos (by rfl)]

end Fitsrs

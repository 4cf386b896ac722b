import Verif.Model.Keyword
import Verif.Props.C09_C16
/-
C82: looking for a keyword in one record, and the names of the kinds of extensions.
-/

namespace Fitsrs
open Spec

namespace Spec

/-- A record with a keyword of no special structure and a value indicator. -/
structure IsValueRecord (r : List UInt8) : Prop where
  plain : ∀ kw ∈ special, ¬ KeywordIs r kw
  named : ¬ KeywordIs r []
  indicator : (r.drop 8).take 2 = [0x3D, 0x20]

/-- What the eight bytes of the keyword of a written record are. -/
def keywordBytes (kw : Str) : List UInt8 := toBytes (keywordField kw)

/-- The kinds of extensions and their names in the standard; `IUEIMAGE` is an older name. -/
def kindNames : List (XtensionType × Str) :=
  [(.image, "IMAGE".toList), (.binTable, "BINTABLE".toList), (.asciiTable, "TABLE".toList)]

end Spec

theorem valueRecord_take {kw f : Str} (h : Name kw) : (valueRecord kw f).take 8 = keywordBytes kw := by
  have e : valueRecord kw f = toBytes (keywordField kw) ++ ([0x3D, 0x20] ++ toBytes f) := by
    unfold valueRecord
    rw [toBytes_append, toBytes_append, List.append_assoc]; rfl
  have hl : (keywordBytes kw).length = 8 := by
    unfold keywordBytes toBytes keywordField blank
    have := h.short
    simp only [List.length_map, List.length_append, List.length_replicate]; omega
  rw [e]
  show (keywordBytes kw ++ _).take 8 = _
  rw [List.take_append_of_le_length (by omega), List.take_of_length_le (by omega)]

theorem checkCardKeyword_value {r k : List UInt8} {name : Str} {v : Value} (h1 : r.take 8 = k)
    (h2 : Card.tryFrom r = .ok (.value name v)) : checkCardKeyword r k = .ok v := by
  unfold checkCardKeyword
  rw [if_pos h1, h2]; rfl

theorem keyword_ascii {kw : Str} (h : Name kw) : keywordNotFound (keywordBytes kw) = .failFindingKeyword := by
  have hb : ∀ b ∈ keywordBytes kw, b.toNat < 0x80 := by
    refine toBytes_ascii fun c hc => ?_
    rcases List.mem_append.1 hc with h1 | h1
    · have := printable_name h.chars c h1; omega
    · unfold blank at h1
      rw [(List.mem_replicate.1 h1).2]; decide
  unfold keywordNotFound
  rw [utf8Strict_ascii hb]

/-- Looked for under its own keyword, the value of a written record is found: strings, 64-bit integers, logical
and blank values, with any layout and comment. -/
theorem C82_found (kw : Str) (lead pad : Nat) (comment : Option Str) (hk : Name kw)
    (hc : ∀ t, comment = some t → Printable t) :
    (∀ s, Printable s → checkCardKeyword (valueRecord kw (field lead (quoted s) pad comment)) (keywordBytes kw) =
      .ok (.string (fitsString s) (commentOf comment))) ∧
    (∀ (n : Int) (plus : Bool) (zeros : Nat), -(2 ^ 63) ≤ n → n < 2 ^ 63 →
      checkCardKeyword (valueRecord kw (field lead
        (intText (if n < 0 then some true else if plus then some false else none) zeros n.natAbs) pad comment))
        (keywordBytes kw) = .ok (.integer n (commentOf comment))) ∧
    (∀ b : Bool, checkCardKeyword (valueRecord kw (field lead [if b then 'T' else 'F'] pad comment))
        (keywordBytes kw) = .ok (.logical b (commentOf comment))) ∧
    checkCardKeyword (valueRecord kw (field lead [] pad comment)) (keywordBytes kw) = .ok .undefined :=
  ⟨fun s hs => checkCardKeyword_value (valueRecord_take hk) (C10_string_round_trip kw s lead pad comment hk hs hc),
    fun n plus zeros h1 h2 => checkCardKeyword_value (valueRecord_take hk)
      (C11_round_trip kw n plus zeros lead pad comment hk hc h1 h2),
    fun b => checkCardKeyword_value (valueRecord_take hk) (C13_logical kw b lead pad comment hk hc),
    checkCardKeyword_value (valueRecord_take hk) (C13_undefined kw lead pad comment hk hc)⟩

/-- Under any other keyword the record is not found, whatever it holds. -/
theorem C82_other (r : List UInt8) (kw : Str) (hk : Name kw) (h : r.take 8 ≠ keywordBytes kw) :
    checkCardKeyword r (keywordBytes kw) = .err .failFindingKeyword := by
  unfold checkCardKeyword
  rw [if_neg h, keyword_ascii hk]

/-- Two written records with different keywords are never taken for each other. -/
theorem C82_distinct (kw kw' f : Str) (hk : Name kw) (hk' : Name kw') (h : kw ≠ kw') :
    checkCardKeyword (valueRecord kw f) (keywordBytes kw') = .err .failFindingKeyword := by
  refine C82_other _ kw' hk' fun he => h ?_
  rw [valueRecord_take hk] at he
  have r1 := keyword_read (rest := []) (printable_name hk.chars) hk.short (name_ne_blank hk.chars)
  have r2 := keyword_read (rest := []) (printable_name hk'.chars) hk'.short (name_ne_blank hk'.chars)
  have : toBytes (keywordField kw) = toBytes (keywordField kw') := he
  rw [this, r2] at r1
  exact (Option.some.inj r1).symm

/-- A value is only ever found in a value record with these eight bytes: never in commentary, `END`, `CONTINUE`,
`HIERARCH` or `XTENSION` records, whatever keyword is asked for. -/
theorem C82_sound (r k : List UInt8) (v : Value) (h : checkCardKeyword r k = .ok v) :
    r.take 8 = k ∧ IsValueRecord r := by
  unfold checkCardKeyword at h
  by_cases e : r.take 8 = k
  case neg => rw [if_neg e] at h; cases h
  rw [if_pos e] at h
  refine ⟨e, ?_⟩
  obtain ⟨c, hc, h⟩ := Res.bind_eq_ok.1 h
  have hv : ∃ name v, c = .value name v := by
    cases c with
    | value name v => exact ⟨name, v, rfl⟩
    | _ => cases h
  obtain ⟨name, w, rfl⟩ := hv
  clear h
  unfold Card.tryFrom at hc
  cases hu : utf8Strict (trimAscii (r.take 8)) with
  | none => rw [hu] at hc; cases hc
  | some kw =>
    rw [hu] at hc
    dsimp only at hc
    have hk0 : ∀ q, Printable q → ' ' ∉ q → kw ≠ q → ¬ KeywordIs r q := by
      intro q h1 h2 h3 h4
      rw [keywordIs_iff h1 h2, hu] at h4
      exact h3 (Option.some.inj h4)
    by_cases e0 : kw = []
    · rw [if_pos e0] at hc
      exfalso
      have hc := Res.ok.inj hc
      unfold parseEmptyKeywordCard at hc
      dsimp only at hc
      by_cases e : parseCommentText (r.drop 8) = []
      · rw [if_pos e] at hc; cases hc
      · rw [if_neg e] at hc; cases hc
    rw [if_neg e0] at hc
    by_cases e1 : kw = "COMMENT".toList
    · rw [if_pos e1] at hc; cases hc
    rw [if_neg e1] at hc
    by_cases e2 : kw = "HISTORY".toList
    · rw [if_pos e2] at hc; cases hc
    rw [if_neg e2] at hc
    by_cases e3 : kw = "CONTINUE".toList
    · rw [if_pos e3] at hc
      exfalso
      unfold parseContinuation at hc
      obtain ⟨p, -, hc⟩ := Res.bind_eq_ok.1 hc
      obtain ⟨s, -, hc⟩ := Res.map_eq_ok.1 hc
      cases hc
    rw [if_neg e3] at hc
    by_cases e4 : kw = "XTENSION".toList
    · rw [if_pos e4] at hc
      exfalso
      unfold parseExtension at hc
      obtain ⟨p, -, hc⟩ := Res.bind_eq_ok.1 hc
      dsimp only at hc
      split at hc
      · split at hc
        · cases hc
        · obtain ⟨s, -, hc⟩ := Res.map_eq_ok.1 hc
          cases hc
      · cases hc
    rw [if_neg e4] at hc
    by_cases e5 : kw = "HIERARCH".toList
    · rw [if_pos e5] at hc
      exfalso
      unfold parseHierarch at hc
      dsimp only at hc
      split at hc
      · split at hc
        · cases hc
        · obtain ⟨s, -, hc⟩ := Res.map_eq_ok.1 hc
          cases hc
      · cases hc
    rw [if_neg e5] at hc
    by_cases e6 : kw = "END".toList
    · rw [if_pos e6] at hc; cases hc
    rw [if_neg e6] at hc
    by_cases e7 : (r.drop 8).take 2 = [0x3D, 0x20]
    case neg => rw [if_neg e7] at hc; cases hc
    refine ⟨fun q hq => ?_, hk0 [] (by intro c hc; cases hc) (by simp) e0, e7⟩
    refine hk0 q (special_ok q hq).1 (special_ok q hq).2 ?_
    unfold special at hq
    simp only [List.mem_cons, List.not_mem_nil, or_false] at hq
    rcases hq with rfl | rfl | rfl | rfl | rfl | rfl
    · exact e1
    · exact e2
    · exact e3
    · exact e4
    · exact e5
    · exact e6

/-- The only panics are those of C09: the keyword is the one asked for and the value is a lone quote. -/
theorem C82_panic_iff (r k : List UInt8) :
    checkCardKeyword r k = .panic ↔
      r.take 8 = k ∧ utf8Strict (trimAscii (r.take 8)) ≠ none ∧ ∃ f, ValueField r f ∧ LoneQuote f := by
  rw [← C09_panic_iff]
  unfold checkCardKeyword
  by_cases e : r.take 8 = k
  · rw [if_pos e]
    constructor
    · intro h
      rcases Res.bind_eq_panic.1 h with h | ⟨c, -, h⟩
      · exact ⟨e, h⟩
      · cases c <;> cases h
    · rintro ⟨-, h⟩
      rw [h]; rfl
  · rw [if_neg e]
    exact ⟨fun h => (by cases h), fun h => absurd h.1 e⟩

/-- The names of the kinds of extensions are read back, and besides `IUEIMAGE` nothing else is read. -/
theorem C82_extension_names (s : Str) (x : XtensionType) :
    XtensionType.fromStr s = .ok x ↔ (x, s) ∈ kindNames ∨ x = .image ∧ s = "IUEIMAGE".toList := by
  unfold XtensionType.fromStr kindNames
  simp only [List.mem_cons, List.not_mem_nil, or_false, Prod.mk.injEq]
  have n1 : "IMAGE".toList ≠ "TABLE".toList := by decide +kernel
  have n2 : "IMAGE".toList ≠ "BINTABLE".toList := by decide +kernel
  have n3 : "IUEIMAGE".toList ≠ "TABLE".toList := by decide +kernel
  have n4 : "IUEIMAGE".toList ≠ "BINTABLE".toList := by decide +kernel
  have n5 : "TABLE".toList ≠ "BINTABLE".toList := by decide +kernel
  generalize "IMAGE".toList = a at *
  generalize "IUEIMAGE".toList = b at *
  generalize "TABLE".toList = c at *
  generalize "BINTABLE".toList = d at *
  by_cases h1 : s = a ∨ s = b
  · rw [if_pos h1]
    constructor
    · intro h
      have h := Res.ok.inj h
      rcases h1 with h1 | h1
      · exact .inl (.inl ⟨h.symm, h1⟩)
      · exact .inr ⟨h.symm, h1⟩
    · rintro ((⟨rfl, -⟩ | ⟨-, rfl⟩ | ⟨-, rfl⟩) | ⟨rfl, -⟩)
      · rfl
      · rcases h1 with rfl | rfl
        · exact absurd rfl n2
        · exact absurd rfl n4
      · rcases h1 with rfl | rfl
        · exact absurd rfl n1
        · exact absurd rfl n3
      · rfl
  rw [if_neg h1]
  have h1a : s ≠ a := fun h => h1 (.inl h)
  have h1b : s ≠ b := fun h => h1 (.inr h)
  by_cases h2 : s = c
  · rw [if_pos h2]
    subst h2
    constructor
    · intro h
      exact .inl (.inr (.inr ⟨(Res.ok.inj h).symm, rfl⟩))
    · rintro ((⟨-, h⟩ | ⟨-, h⟩ | ⟨rfl, -⟩) | ⟨-, h⟩)
      · exact absurd h h1a
      · exact absurd h n5
      · rfl
      · exact absurd h h1b
  rw [if_neg h2]
  by_cases h3 : s = d
  · rw [if_pos h3]
    constructor
    · intro h
      exact .inl (.inr (.inl ⟨(Res.ok.inj h).symm, h3⟩))
    · rintro ((⟨-, h⟩ | ⟨rfl, -⟩ | ⟨-, h⟩) | ⟨-, h⟩)
      · exact absurd h h1a
      · rfl
      · exact absurd h h2
      · exact absurd h h1b
  rw [if_neg h3]
  constructor
  · intro h; cases h
  · rintro ((⟨-, h⟩ | ⟨-, h⟩ | ⟨-, h⟩) | ⟨-, h⟩)
    · exact absurd h h1a
    · exact absurd h h3
    · exact absurd h h2
    · exact absurd h h1b

/-- `as_str` gives the first names. -/
theorem C82_extension_text (x : XtensionType) : (x, x.asStr) ∈ kindNames := by
  cases x <;> decide +kernel

/-- `STRKEY  = 'Some text'` under `STRKEY`, under another name, and `XTENSION` records, which are never found. -/
example : checkCardKeyword (valueRecord "STRKEY".toList (field 0 (quoted "Some text".toList) 59 none))
    (keywordBytes "STRKEY".toList) = .ok (.string "Some text".toList none) := by decide +kernel
example : checkCardKeyword (valueRecord "STRKEY".toList (field 0 (quoted "Some text".toList) 59 none))
    (keywordBytes "STRKEY1".toList) = .err .failFindingKeyword := by decide +kernel
example : checkCardKeyword (xtensionRecord "BINTABLE".toList 0 0 60 none) (toBytes "XTENSION".toList) =
    .err .failFindingKeyword := by decide +kernel
example : checkCardKeyword loneQuoteRecord (keywordBytes "AAA".toList) = .panic := by decide +kernel
example : Name "STRKEY".toList ∧ Name "STRKEY1".toList :=
  ⟨⟨by decide, by decide, by decide, by decide⟩, ⟨by decide, by decide, by decide, by decide⟩⟩

end Fitsrs

import Verif.Props.C09_C16
/-
C20: units in comments.
-/

namespace Fitsrs
open Spec

/-- The unit of the value of a card. -/
def Card.unit : Card → Option Str
  | .value _ v => v.unit
  | _ => none

/-- The comment `[unit] text` preceded by blanks. -/
def Spec.unitComment (blanks : Nat) (u text : Str) : Str := blank blanks ++ '[' :: (u ++ ']' :: text)

/-- The property, for integer values (the comment is handled in the same way for all values, see
`C20_exact`): the unit is found whether or not a blank separates it from the slash. -/
def C20_statement : Prop :=
  ∀ (kw u text : Str) (lead pad blanks : Nat) (n : Int) (card : Card), Name kw → Printable u → Printable text →
    ']' ∉ u → -(2 ^ 63) ≤ n → n < 2 ^ 63 →
    Card.tryFrom (valueRecord kw (field lead (intText (if n < 0 then some true else none) 0 n.natAbs) pad
      (some (unitComment blanks u text)))) = .ok card →
    card.unit = some u

theorem stripEnd_unit (blanks : Nat) (u text : Str) :
    ∃ text', stripEnd (unitComment blanks u text) = unitComment blanks u text' := by
  have e : unitComment blanks u text = (blank blanks ++ '[' :: (u ++ [']'])) ++ text := by
    simp [unitComment]
  obtain ⟨n, hn⟩ := stripEnd_spec text
  refine ⟨stripEnd text, ?_⟩
  rw [e]
  conv => lhs; rw [hn, ← List.append_assoc, stripEnd_append_blank]
  rw [stripEnd_id]
  · simp [unitComment]
  · cases h : stripEnd text with
    | nil =>
      rw [List.append_nil, ← List.cons_append, ← List.append_assoc, List.getLast?_concat]
      decide
    | cons c t =>
      rw [List.getLast?_append]
      have := stripEnd_last text
      rw [h] at this
      cases hl : (c :: t).getLast? with
      | none => simp at hl
      | some x => rw [hl] at this; simpa using this

theorem parseUnit_comment (blanks : Nat) (u text : Str) (hu : ']' ∉ u) :
    parseUnit (some (unitComment blanks u text)) = if blanks = 0 then some u else none := by
  cases blanks with
  | zero =>
    simp only [unitComment, blank, List.replicate_zero, List.nil_append, parseUnit, if_true]
    rw [if_pos (by simp)]
    congr 1
    induction u with
    | nil => simp
    | cons c u ih =>
      simp only [List.mem_cons, not_or] at hu
      rw [List.cons_append, List.takeWhile_cons, if_pos (by simpa using Ne.symm hu.1), ih hu.2]
  | succ n =>
    simp only [unitComment, blank, List.replicate_succ, List.cons_append, parseUnit]
    rw [if_neg (by omega)]
    split
    · rename_i h; simp at h
    · rfl

/-- The exact behaviour, for all kinds of values: the unit is found if and only if it follows the slash
immediately. -/
theorem C20_exact (kw u text : Str) (lead pad blanks : Nat) (v : Str) (value : Option Str → Value)
    (hk : Name kw) (hu : Printable u) (ht : Printable text) (hb : ']' ∉ u)
    (hv : (∃ s, Printable s ∧ v = quoted s ∧ value = .string (fitsString s)) ∨
      (∃ b : Bool, v = [if b then 'T' else 'F'] ∧ value = .logical b) ∨
      (∃ n : Int, -(2 ^ 63) ≤ n ∧ n < 2 ^ 63 ∧ v = intText (if n < 0 then some true else none) 0 n.natAbs ∧
        value = .integer n) ∨
      (∃ x : Numeral, x.Legal ['E', 'D'] ∧ (x.frac ≠ none ∨ x.exp ≠ none) ∧ v = x.text ∧ value = .float x.value)) :
    ∃ c, Card.tryFrom (valueRecord kw (field lead v pad (some (unitComment blanks u text)))) =
      .ok (.value kw (value c)) ∧ (Card.value kw (value c)).unit = if blanks = 0 then some u else none := by
  have hc : ∀ t, some (unitComment blanks u text) = some t → Printable t := by
    rintro t ⟨rfl⟩
    unfold unitComment
    refine (printable_blank _).append ?_
    intro c hc
    simp only [List.mem_cons, List.mem_append] at hc
    rcases hc with rfl | hc | rfl | hc
    · decide
    · exact hu c hc
    · decide
    · exact ht c hc
  obtain ⟨text', ht'⟩ := stripEnd_unit blanks u text
  have hunit : parseUnit (commentOf (some (unitComment blanks u text))) = if blanks = 0 then some u else none := by
    simp only [commentOf, Option.map_some, ht']
    exact parseUnit_comment blanks u text' hb
  refine ⟨commentOf (some (unitComment blanks u text)), ?_⟩
  rcases hv with ⟨s, hs, rfl, rfl⟩ | ⟨b, rfl, rfl⟩ | ⟨n, h1, h2, rfl, rfl⟩ | ⟨x, hx, hr, rfl, rfl⟩
  · exact ⟨C10_string_round_trip kw s lead pad _ hk hs hc, hunit⟩
  · exact ⟨C13_logical kw b lead pad _ hk hc, hunit⟩
  · exact ⟨C11_round_trip kw n false 0 lead pad _ hk hc h1 h2, hunit⟩
  · exact ⟨C12_real_read kw x lead pad _ hk hx hr hc, hunit⟩

/-- The property is false: with the blank after the slash that the standard recommends, no unit is found. -/
theorem C20_fails : ¬ C20_statement := by
  intro h
  have h1 := h "EXPTIME".toList "s".toList " exposure".toList 0 1 1 42
    (.value "EXPTIME".toList (.integer 42 (some " [s] exposure".toList)))
    ⟨by decide, by decide, by decide, by decide⟩ (by unfold Printable; decide) (by unfold Printable; decide)
    (by decide) (by decide) (by decide) (by decide +kernel)
  exact absurd h1 (by decide)

/-- What remains (full statement: `C20_statement`): the unit is found when it follows the slash immediately. -/
theorem C20_partial (kw u text : Str) (lead pad : Nat) (n : Int) (card : Card) (hk : Name kw) (hu : Printable u)
    (ht : Printable text) (hb : ']' ∉ u) (h1 : -(2 ^ 63) ≤ n) (h2 : n < 2 ^ 63)
    (h : Card.tryFrom (valueRecord kw (field lead (intText (if n < 0 then some true else none) 0 n.natAbs) pad
      (some (unitComment 0 u text)))) = .ok card) : card.unit = some u := by
  obtain ⟨c, h3, h4⟩ := C20_exact kw u text lead pad 0 _ (.integer n) hk hu ht hb
    (.inr (.inr (.inl ⟨n, h1, h2, rfl, rfl⟩)))
  rw [h3] at h
  injection h with h
  rw [← h, h4]; rfl

/-- `EXPTIME = 42 /[s] exposure`. -/
example : (Card.value "EXPTIME".toList (.integer 42 (some "[s] exposure".toList))).unit = some "s".toList := by
  refine C20_partial "EXPTIME".toList "s".toList " exposure".toList 0 1 42 _
    ⟨by decide, by decide, by decide, by decide⟩ (by unfold Printable; decide) (by unfold Printable; decide)
    (by decide) (by decide) (by decide) ?_
  decide +kernel

end Fitsrs

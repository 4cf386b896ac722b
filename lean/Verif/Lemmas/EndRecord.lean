import Verif.Model.Fits
import Verif.Lemmas.Text
import Verif.Lemmas.Basic
import Verif.Spec.Layout
/-
A record is read as the `END` card exactly when its keyword field is `END`.
-/

namespace Fitsrs
open Spec

theorem isAsciiWs_iff (b : UInt8) : isAsciiWs b = true ↔ isBlank b := by
  simp [isAsciiWs, isBlank, or_assoc]

/-- The value part of the parsers never returns the `END` card. -/
theorem parseContinuation_ne_end {buf : List UInt8} : parseContinuation buf ≠ .ok .end_ := by
  unfold parseContinuation
  intro h
  obtain ⟨⟨v, c⟩, -, h⟩ := Res.bind_eq_ok.1 h
  obtain ⟨s, -, h⟩ := Res.map_eq_ok.1 h
  simp at h

theorem parseExtension_ne_end {buf : List UInt8} : parseExtension buf ≠ .ok .end_ := by
  unfold parseExtension
  intro h
  obtain ⟨⟨v, c⟩, -, h⟩ := Res.bind_eq_ok.1 h
  dsimp only at h
  split at h
  · split at h
    · simp at h
    · obtain ⟨s, -, h⟩ := Res.map_eq_ok.1 h
      simp at h
  · simp at h

theorem parseHierarch_ne_end {buf : List UInt8} : parseHierarch buf ≠ .ok .end_ := by
  unfold parseHierarch
  intro h
  simp only at h
  split at h
  · split at h
    · simp at h
    · obtain ⟨s, -, h⟩ := Res.map_eq_ok.1 h
      simp at h
  · simp at h

theorem tryFrom_end_iff {r : List UInt8} :
    Card.tryFrom r = .ok .end_ ↔ utf8Strict (trimAscii (r.take 8)) = some "END".toList := by
  unfold Card.tryFrom
  constructor
  · intro h
    split at h
    · simp at h
    · rename_i kw hkw
      repeat' split at h
      all_goals first
        | (rename_i h'; exact hkw.trans (congrArg some h'))
        | (exfalso; exact parseContinuation_ne_end h)
        | (exfalso; exact parseExtension_ne_end h)
        | (exfalso; exact parseHierarch_ne_end h)
        | (exfalso; revert h; unfold parseEmptyKeywordCard; simp only; split <;> simp)
        | (exfalso; obtain ⟨s, -, h⟩ := Res.map_eq_ok.1 h; simp at h)
        | (simp at h)
  · intro h
    rw [h]; rfl

theorem endBytes_iff {bs : List UInt8} :
    utf8Strict bs = some "END".toList ↔ bs = [0x45, 0x4E, 0x44] := by
  constructor
  · intro h
    have h1 : ∀ c ∈ "END".toList, c.toNat < 0x80 := by decide
    obtain ⟨h2, h3⟩ := utf8Strict_inv h h1
    match bs, h2, h3 with
    | [a, b, c], h2, h3 =>
      simp only [List.map_cons, List.map_nil] at h2
      have h2 : [asciiChar a, asciiChar b, asciiChar c]
          = [asciiChar 0x45, asciiChar 0x4E, asciiChar 0x44] := h2
      simp only [List.cons.injEq, and_true] at h2
      obtain ⟨ha, hb, hc⟩ := h2
      rw [asciiChar_inj (h3 a (by simp)) (by decide) ha, asciiChar_inj (h3 b (by simp)) (by decide) hb,
        asciiChar_inj (h3 c (by simp)) (by decide) hc]
    | [], h2, _ => simp at h2
    | [_], h2, _ => simp at h2
    | [_, _], h2, _ => simp at h2
    | _ :: _ :: _ :: _ :: _, h2, _ => simp at h2
  · rintro rfl; decide

theorem trimAscii_eq_end_iff {bs : List UInt8} :
    trimAscii bs = [0x45, 0x4E, 0x44] ↔
      ∃ a b, bs = a ++ [0x45, 0x4E, 0x44] ++ b ∧ (∀ x ∈ a, isBlank x) ∧ ∀ x ∈ b, isBlank x := by
  constructor
  · intro h
    obtain ⟨a, b, h1, h2, h3⟩ := trimBy_spec (p := isAsciiWs) bs
    refine ⟨a, b, ?_, fun x hx => (isAsciiWs_iff x).1 (h2 x hx), fun x hx => (isAsciiWs_iff x).1 (h3 x hx)⟩
    unfold trimAscii at h
    rw [← h]; exact h1
  · rintro ⟨a, b, rfl, h1, h2⟩
    apply trimBy_core
    · exact fun x hx => (isAsciiWs_iff x).2 (h1 x hx)
    · exact fun x hx => (isAsciiWs_iff x).2 (h2 x hx)
    · intro x hx; simp at hx; subst hx; decide
    · intro x hx; simp at hx; subst hx; decide

theorem tryFrom_end_iff_record {r : List UInt8} : Card.tryFrom r = .ok .end_ ↔ IsEndRecord r := by
  rw [tryFrom_end_iff, endBytes_iff, trimAscii_eq_end_iff]; rfl

theorem recordCard_end_iff {r : List UInt8} : recordCard r = .ok .end_ ↔ IsEndRecord r := by
  rw [← tryFrom_end_iff_record]
  unfold recordCard
  cases h : Card.tryFrom r <;> simp

theorem recordCard_ne_err {r : List UInt8} {e : Err} : recordCard r ≠ .err e := by
  unfold recordCard; split <;> simp

end Fitsrs

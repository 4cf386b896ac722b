import Verif.Props.C76
/-
C81: a file that begins after other bytes.
-/

namespace Fitsrs
open Spec

/-- **C81.**  A written file that follows other bytes of the source, given to the iterator with the reader at its first
byte, is read as if it were alone: the HDUs are shown as written, with the places of their data in the source, and the
values of their data units come in order. -/
theorem C81_embedded (p : Profile) (before : List UInt8) (us : List WrittenHdu) (hf : File true us)
    (hw : ∀ u ∈ us, u.body.Whole) (hs : (before ++ fileBytes us).length < 2 ^ 60) :
    ∃ hs, ShownAll true before.length us hs ∧ ∀ (gz : Gunzip) (fuel : Nat),
      (Extends gz ∨ ∀ u ∈ us, ∀ w, u.body ≠ .tiles w) → (∀ u ∈ us, u.body.ReadableBy p gz fuel) →
      ∀ ks : List Nat, ks.length = us.length →
      (Session.new ⟨before ++ fileBytes us, before.length⟩).run p gz fuel (visits ks) = seenVisits ks us hs := by
  obtain ⟨hs, h1, h2⟩ := visit_rest (p := p) hf hw before hs
  exact ⟨hs, h1, fun gz fuel hg hr ks hk => h2 gz fuel hr hg _ ⟨rfl, rfl, rfl, rfl⟩ ks hk⟩

/-- A file with an image and an ASCII table, after three bytes, for instance. -/
example : ∃ us, File true us ∧ (∀ u ∈ us, u.body.Whole) ∧ ([1, 2, 3] ++ fileBytes us).length < 2 ^ 60 ∧
    (∀ u ∈ us, ∀ w, u.body ≠ .tiles w) ∧ (∀ u ∈ us, u.body.ReadableBy .checked (.of fun _ => []) 0) ∧
    us.map (fun u => u.body.item 1) = [.pixel (some (.i16 (-2))), .byte (some 32)] :=
  ⟨[writtenPrimary, writtenAscii],
    .cons writtenPrimary_legal (by decide +kernel) (.last writtenAscii_legal (by decide +kernel)), by
      intro u hu
      simp only [List.mem_cons, List.not_mem_nil, or_false] at hu
      rcases hu with rfl | rfl <;> trivial, by decide +kernel, by
      intro u hu w
      simp only [List.mem_cons, List.not_mem_nil, or_false] at hu
      rcases hu with rfl | rfl <;> (intro h; cases h), by
      intro u hu
      simp only [List.mem_cons, List.not_mem_nil, or_false] at hu
      rcases hu with rfl | rfl <;> trivial, rfl⟩

end Fitsrs

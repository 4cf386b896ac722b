import Verif.Lemmas.Walk
import Verif.Spec.Samples
/-
C01: walking the HDUs of a file.
-/

namespace Fitsrs
open Spec

/-! ### C01: a well-formed file yields exactly its HDUs -/

/-- **C01.** If a file consists of HDUs `hs` (each with its header and data filled to multiples of 2880
bytes, the last fill possibly missing), then iterating over the file, reading any number of bytes of
each data unit between the calls, returns exactly these HDUs in order and then `None`. -/
theorem C01_walk {p : Profile} {segs : List Segment} {hs : List HDU}
    (hf : FileOf p true 0 segs hs)
    (hsize : ((segs.map Segment.bytes).flatten).length + 2960 < 2 ^ 63)
    (ks : List Nat) (hk : hs.length < ks.length) :
    collectReading p ks (Fits.fromReader ⟨(segs.map Segment.bytes).flatten, 0⟩) = hs.map .ok := by
  obtain ⟨k1, ks, rfl⟩ : ∃ k ks', ks = k :: ks' := by
    cases ks with
    | nil => simp at hk
    | cons a b => exact ⟨a, b, rfl⟩
  cases hf with
  | @last _ _ s h hh hdsc hfill =>
    obtain ⟨k2, ks, rfl⟩ : ∃ k ks', ks = k :: ks' := by
      cases ks with
      | nil => simp at hk
      | cons a b => exact ⟨a, b, rfl⟩
    have hoff := hdsc.offset
    have hsz := hdsc.size
    have hdata : (List.map Segment.bytes [s]).flatten = s.header ++ (s.data ++ s.dataFill) := by
      simp [Segment.bytes]
    rw [hdata] at hsize ⊢
    simp only [List.length_append] at hsize
    have hnext := newPrimary_segment (C := s.data ++ s.dataFill) hh hdsc
    have hstep : (Fits.fromReader ⟨s.header ++ (s.data ++ s.dataFill), 0⟩).next p =
        (some (.ok h), { start := false, posStart := h.dataOffset, numBytes := s.data.length
                         errored := false
                         rd := ⟨s.header ++ (s.data ++ s.dataFill), h.dataOffset⟩ }) := by
      simp only [Fits.next, Fits.fromReader, hnext, Fits.record, hsz]
      simp
    simp only [collectReading, hstep, List.map_cons, List.map_nil, List.cons.injEq, true_and]
    have hlt := roundUp2880_lt s.data.length
    have := Fits.next_eof (p := p)
      (f := readData k1 { start := false, posStart := h.dataOffset, numBytes := s.data.length
                          errored := false, rd := ⟨s.header ++ (s.data ++ s.dataFill), h.dataOffset⟩ })
      rfl rfl (by simp only [readData]; omega) (by simp only [readData]; omega)
      (by simp only [readData]; omega) (by simp only [readData, List.length_append]; omega)
    rw [this]
  | @cons _ _ s h ss hs hh hdsc hdok hrest =>
    have hoff := hdsc.offset
    have hsz := hdsc.size
    have hdata : (List.map Segment.bytes (s :: ss)).flatten
        = s.header ++ (s.data ++ s.dataFill ++ (ss.map Segment.bytes).flatten) := by
      simp [Segment.bytes]
    have hbl : s.bytes.length = s.header.length + s.data.length + s.dataFill.length := by
      simp only [Segment.bytes, List.length_append]
    have hnext := newPrimary_segment (C := s.data ++ s.dataFill ++ (ss.map Segment.bytes).flatten) hh hdsc
    rw [← hdata] at hnext
    have hstep : (Fits.fromReader ⟨(List.map Segment.bytes (s :: ss)).flatten, 0⟩).next p =
        (some (.ok h), { start := false, posStart := h.dataOffset, numBytes := s.data.length
                         errored := false
                         rd := ⟨(List.map Segment.bytes (s :: ss)).flatten, h.dataOffset⟩ }) := by
      simp only [Fits.next, Fits.fromReader, hnext, Fits.record, hsz]
      simp
    rw [collectReading, hstep]
    simp only [List.map_cons (f := Res.ok), List.cons.injEq, true_and]
    unfold Segment.DataOk at hdok
    apply walk_rest hrest rfl s.bytes
    · simp
    · simpa using hsize
    · simp [readData]
    · rfl
    · rfl
    · simp only [readData]; omega
    · simp only [readData]; omega
    · simp only [readData]; omega
    · simpa using hk

set_option maxRecDepth 20000 in
/-- The hypothesis of C01 holds for the sample file of two HDUs. -/
theorem sample_fileOf (p : Profile) :
    FileOf p true 0 [samplePrimarySegment, sampleImageSegment] [samplePrimaryHdu, sampleImageHdu] := by
  have hend : IsEndRecord (rec80 "END") := recordCard_end_iff.1 (by decide +kernel)
  have notEnd : ∀ r, recordCard r ≠ .ok .end_ → ¬ IsEndRecord r := fun r h hc => h (recordCard_end_iff.2 hc)
  refine .cons ⟨by decide +kernel, ?_, by decide +kernel⟩ ?_ (by unfold Segment.DataOk; decide +kernel) (.last ⟨by decide +kernel, ?_, by decide +kernel⟩ ?_ (by decide +kernel))
  · refine ⟨samplePrimaryRecords.dropLast, rec80 "END", rfl, hend, ?_⟩
    intro r hr
    exact notEnd r (by revert r; decide +kernel)
  · cases p <;>
    exact .primary (c := none) (cs := samplePrimaryHdu.cards.drop 1) (by unfold CardsOf; decide +kernel) rfl
      (by decide +kernel) (by decide +kernel) (by decide +kernel)
  · refine ⟨sampleImageRecords.dropLast, rec80 "END", rfl, hend, ?_⟩
    intro r hr
    exact notEnd r (by revert r; decide +kernel)
  · cases p <;>
    exact .image (c := some " extension".toList) (cs := sampleImageHdu.cards.drop 1)
      (by unfold CardsOf; decide +kernel) rfl
      (by decide +kernel) (by decide +kernel) (by decide +kernel)

/-- Iterating over the sample file, reading 3 bytes, then everything, of the data units. -/
example (p : Profile) :
    collectReading p [3, 100, 0] (Fits.fromReader
      ⟨([samplePrimarySegment, sampleImageSegment].map Segment.bytes).flatten, 0⟩)
      = [.ok samplePrimaryHdu, .ok sampleImageHdu] :=
  C01_walk (sample_fileOf p) (by decide +kernel) [3, 100, 0] (by decide)

end Fitsrs

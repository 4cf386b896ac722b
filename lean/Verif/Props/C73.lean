import Verif.Lemmas.Cut
import Verif.Props.C01
/-
C73: files cut short.
-/

namespace Fitsrs
open Spec

/-- **C73.** Let a file consist of the HDUs `hs`.  If it is cut after `n` bytes, for any `n`, then iterating over it,
reading any number of bytes of each data unit between the calls, returns exactly the HDUs whose headers are complete, in
order; then, if at least one record of a header is left (any part of it for the first header), an error that tells
whether records or only the fill of the header are missing; and then nothing more. -/
theorem C73_cut {p : Profile} {segs : List Segment} {hs : List HDU} (hf : FileOf p true 0 segs hs)
    (hsize : ((segs.map Segment.bytes).flatten).length + 2960 < 2 ^ 63) (n : Nat)
    (ks : List Nat) (hk : hs.length < ks.length) :
    collectReading p ks (Fits.fromReader ⟨((segs.map Segment.bytes).flatten).take n, 0⟩) = cutItems n true 0 segs hs := by
  obtain ⟨s, ss, h, hs', rfl, rfl, hh, hdsc⟩ : ∃ s ss h hs', segs = s :: ss ∧ hs = h :: hs' ∧ s.HeaderOk ∧
      Describes p 0 s true h := by
    cases hf with
    | last hh hdsc _ => exact ⟨_, _, _, _, rfl, rfl, hh, hdsc⟩
    | cons hh hdsc _ _ => exact ⟨_, _, _, _, rfl, rfl, hh, hdsc⟩
  have hsz := hdsc.size
  have hoff := hdsc.offset
  obtain ⟨k1, k2, ks, rfl⟩ : ∃ k k' ks', ks = k :: k' :: ks' := by
    match ks, hk with
    | a :: b :: c, _ => exact ⟨a, b, c, rfl⟩
  have hD : (List.map Segment.bytes (s :: ss)).flatten =
      s.header ++ (s.data ++ s.dataFill ++ (ss.map Segment.bytes).flatten) := by
    simp [Segment.bytes]
  unfold cutItems
  simp only [Nat.zero_add]
  by_cases hin : s.header.length ≤ n
  · rw [if_pos hin]
    generalize hC : s.data ++ s.dataFill ++ (ss.map Segment.bytes).flatten = C at hD
    have hcut : ((List.map Segment.bytes (s :: ss)).flatten).take n = s.header ++ C.take (n - s.header.length) := by
      rw [hD, List.take_append, List.take_of_length_le hin]
    have hnext := newPrimary_segment (C := C.take (n - s.header.length)) hh hdsc
    have hstep : (Fits.fromReader ⟨((List.map Segment.bytes (s :: ss)).flatten).take n, 0⟩).next p =
        (some (.ok h), { start := false, posStart := h.dataOffset, numBytes := s.data.length
                         errored := false
                         rd := ⟨((List.map Segment.bytes (s :: ss)).flatten).take n, h.dataOffset⟩ }) := by
      rw [hcut]
      simp only [Fits.next, Fits.fromReader, hnext, Fits.record, hsz]
      simp
    rw [collectReading, hstep]
    dsimp only
    congr 1
    cases hf with
    | last _ _ hfill =>
      have hlt := roundUp2880_lt s.data.length
      have hl : C.length = s.data.length + s.dataFill.length := by
        rw [← hC]
        simp
      rw [hD, List.length_append] at hsize
      have := Fits.next_eof (p := p)
        (f := readData k1 { start := false, posStart := h.dataOffset, numBytes := s.data.length
                            errored := false, rd := ⟨((List.map Segment.bytes [s]).flatten).take n, h.dataOffset⟩ })
        rfl rfl (by simp only [readData]; omega) (by simp only [readData]; omega)
        (by simp only [readData]; omega)
        (by simp only [readData]; rw [hcut, List.length_append, List.length_take]; omega)
      rw [collectReading, this]
      rfl
    | cons _ _ hdok hrest =>
      unfold Segment.DataOk at hdok
      have hbl : s.bytes.length = s.header.length + s.data.length + s.dataFill.length := by
        simp only [Segment.bytes, List.length_append]
      refine walk_cut n (by simpa only [Nat.zero_add] using hrest) rfl s.bytes rfl ?_ (readData k1 _) ?_ rfl rfl ?_ ?_ ?_ (k2 :: ks)
        (by simp only [List.length_cons] at hk ⊢; omega)
      · simpa using hsize
      · simp [readData]
      · simp only [readData]; omega
      · simp only [readData]; omega
      · simp only [readData]; omega
  · rw [if_neg hin, if_neg (by simp)]
    have hcut := newPrimary_cut (C := s.data ++ s.dataFill ++ (ss.map Segment.bytes).flatten) hh hdsc (n := n) (by omega)
    rw [← hD] at hcut
    generalize (if n < 80 * s.records.length then Err.io .unexpectedEof else Err.static "EOF reached") = e at *
    generalize ((List.map Segment.bytes (s :: ss)).flatten).take n = data at *
    have hstep : ∃ f', (Fits.fromReader ⟨data, 0⟩).next p = (some (.err e), f') ∧ f'.errored = true := by
      unfold Fits.next
      rw [if_neg (by simp [Fits.fromReader]), if_pos (show (Fits.fromReader ⟨data, 0⟩).start = true from rfl)]
      cases hx : HDU.newPrimary (Fits.fromReader ⟨data, 0⟩).rd with
      | mk r st =>
        have hr : r = .err e := by
          have : (HDU.newPrimary ⟨data, 0⟩).1 = r := by
            show (HDU.newPrimary (Fits.fromReader ⟨data, 0⟩).rd).1 = r
            rw [hx]
          rw [← this, hcut]
        subst hr
        exact ⟨_, rfl, rfl⟩
    obtain ⟨f', h1, h2⟩ := hstep
    rw [collectReading, h1]
    dsimp only
    rw [collectReading, Fits.next_errored (by exact h2)]

set_option maxRecDepth 20000 in
/-- The sample file of two HDUs, cut within the records of the second header, within its fill, within the data of the
first HDU, and within the first header. -/
example (p : Profile) :
    (let cut := fun n => collectReading p [3, 100, 0]
        (Fits.fromReader ⟨(([samplePrimarySegment, sampleImageSegment].map Segment.bytes).flatten).take n, 0⟩)
     cut 5900 = [.ok samplePrimaryHdu, .err (.io .unexpectedEof)] ∧
     cut 8000 = [.ok samplePrimaryHdu, .err (.static "EOF reached")] ∧
     cut 8640 = [.ok samplePrimaryHdu, .ok sampleImageHdu] ∧
     cut 5000 = [.ok samplePrimaryHdu] ∧ cut 100 = [.err (.io .unexpectedEof)] ∧ cut 0 = [.err (.io .unexpectedEof)]) := by
  have h := fun n => C73_cut (sample_fileOf p) (by decide +kernel) n [3, 100, 0] (by decide)
  dsimp only
  refine ⟨(h _).trans ?_, (h _).trans ?_, (h _).trans ?_, (h _).trans ?_, (h _).trans ?_, (h _).trans ?_⟩ <;>
  decide +kernel

end Fitsrs

import Verif.Props.C48_Exact
import Verif.Props.C73
import Verif.Spec.CutAsync
/-
C90: files that are cut short, read from an asynchronous source.
-/

namespace Fitsrs
open Spec Fut

theorem collect_err {p : Profile} {a a' : AFits} {e : Err} {m : Nat} (hp : a.pollNext p = (.ready (some (.err e)), a'))
    (he : a'.errored = true) : AFits.collect p (m + 1) a = [.err e] := by
  unfold AFits.collect
  rw [hp]
  dsimp only
  rw [AFits.collect_errored he]

/-- After an HDU, when the file goes no further than its last block. -/
theorem cut_end {p : Profile} {data : List UInt8} {f : Fits} {a : AFits} {m : Nat} (hsize : data.length + 2960 < 2 ^ 63)
    (b : Beside data f a) (hpos : f.rd.pos = f.posStart) (hin : f.posStart ≤ data.length)
    (hm : f.posStart + roundUp2880 f.numBytes < 2 ^ 63) (hl : data.length ≤ f.posStart + roundUp2880 f.numBytes) :
    Spec.Gives ([], decide (data.length < f.posStart + f.numBytes)) (AFits.collect p (m + 1) a) := by
  by_cases hc : data.length < f.posStart + f.numBytes
  · obtain ⟨-, e, a', h2, h3⟩ := cut_step (p := p) b (by omega) hm (fun h => by have := h.1; omega)
    refine ⟨e, ?_⟩
    rw [collect_err h2 h3, decide_eq_true hc]
    rfl
  · have hstep := together_step (p := p) ⟨b, by omega, .inl hl⟩ hsize
    rw [Fits.next_eof b.startF b.errF b.lo b.hi hm (by rw [b.dataEq]; omega)] at hstep
    refine ⟨.static "", ?_⟩
    rw [decide_eq_false hc]
    generalize hy : a.pollNext p = y at hstep
    obtain ⟨y1, y2⟩ := y
    cases hstep with
    | none => rw [collect_none hy]; rfl

/-- At the beginning of a header that is cut. -/
theorem cut_header {p : Profile} {A C : List UInt8} {s : Segment} {h : HDU} {n : Nat} {f : Fits} {a : AFits} {m : Nat}
    (hh : s.HeaderOk) (hd : Describes p A.length s false h) (hsize : (A ++ s.header ++ C).length + 2960 < 2 ^ 63)
    (b : Beside ((A ++ s.header ++ C).take n) f a) (hpos : f.rd.pos = f.posStart)
    (hin : f.posStart + f.numBytes ≤ ((A ++ s.header ++ C).take n).length)
    (ho : f.posStart + roundUp2880 f.numBytes = A.length) (hn : n < A.length + s.header.length) :
    Spec.Gives ([], decide (A.length < n)) (AFits.collect p (m + 1) a) := by
  have hlen : ((A ++ s.header ++ C).take n).length = n := by
    rw [List.length_take, List.length_append, List.length_append]; omega
  rw [List.length_append, List.length_append] at hsize
  by_cases h0 : A.length < n
  · rw [decide_eq_true h0]
    by_cases h80 : n < A.length + 80
    · obtain ⟨-, e, a', h2, h3⟩ := cut_step (p := p) b (by omega) (by omega) (fun h => by have := h.2; omega)
      exact ⟨e, by rw [collect_err h2 h3]; rfl⟩
    · have hstep := together_step (p := p) ⟨b, hin, .inr (by omega)⟩ (by omega)
      have hit := extensionItem_cut (C := C) hh hd (n := n) (by omega) hn
      rw [if_neg h80] at hit
      have hnext := Fits.next_inside (p := p) b.startF b.errF b.lo b.hi (by omega)
      rw [ho, b.dataEq, hit] at hnext
      rw [hnext] at hstep
      generalize hy : a.pollNext p = y at hstep
      obtain ⟨y1, y2⟩ := y
      simp only [Fits.record] at hstep
      cases hstep with
      | @err _ e' _ _ _ he => exact ⟨e', by rw [collect_err hy he]; rfl⟩
  · have := cut_end (p := p) (m := m) (by omega) b hpos (by omega) (by omega) (by omega)
    rw [decide_eq_false h0]
    rwa [decide_eq_false (by omega)] at this

/-- At the beginning of a header that is there. -/
theorem whole_header {p : Profile} {A C : List UInt8} {s : Segment} {h : HDU} {n : Nat} {f : Fits} {a : AFits}
    (hh : s.HeaderOk) (hd : Describes p A.length s false h) (hsize : (A ++ s.header ++ C).length + 2960 < 2 ^ 63)
    (b : Beside ((A ++ s.header ++ C).take n) f a)
    (hin : f.posStart + f.numBytes ≤ ((A ++ s.header ++ C).take n).length)
    (ho : f.posStart + roundUp2880 f.numBytes = A.length) (hn : A.length + s.header.length ≤ n) :
    ∃ f' a', a.pollNext p = (.ready (some (.ok h.forget)), a') ∧ Beside ((A ++ s.header ++ C).take n) f' a' ∧
      f'.posStart = A.length + s.header.length ∧ f'.rd.pos = f'.posStart ∧ f'.numBytes = s.data.length := by
  have hlen : A.length + s.header.length ≤ ((A ++ s.header ++ C).take n).length := by
    rw [List.length_take, List.length_append, List.length_append]; omega
  have hle : ((A ++ s.header ++ C).take n).length ≤ (A ++ s.header ++ C).length := by
    rw [List.length_take]; omega
  have h80 : 80 ≤ s.header.length := by
    have := hh.header_ge
    have := hh.records_pos
    omega
  have hstep := together_step (p := p) ⟨b, hin, .inr (by omega)⟩ (by omega)
  have hcut : (A ++ s.header ++ C).take n = A ++ s.header ++ C.take (n - (A ++ s.header).length) := by
    rw [List.take_append, List.take_of_length_le (by rw [List.length_append]; exact hn)]
  have hext := extensionAt_segment (C := C.take (n - (A ++ s.header).length)) hh hd
  rw [← hcut] at hext
  have hnext := Fits.next_inside (p := p) b.startF b.errF b.lo b.hi (by omega)
  rw [ho, b.dataEq, hext] at hnext
  simp only [Fits.extensionItem, Fits.record, hd.size] at hnext
  rw [hnext] at hstep
  generalize hy : a.pollNext p = y at hstep
  obtain ⟨y1, y2⟩ := y
  have hoff := hd.offset
  cases hstep with
  | ok g1 g2 g3 => exact ⟨_, y2, rfl, g1, hoff, rfl, rfl⟩

theorem Spec.Gives.cons {x : List HDU × Bool} {ys : List (Res AHdu)} (h : Spec.Gives x ys) (d : HDU) :
    Spec.Gives (d :: x.1, x.2) (.ok d.forget :: ys) := by
  obtain ⟨e, rfl⟩ := h
  exact ⟨e, rfl⟩

/-- What follows an HDU: the rest of its data unit and the HDUs after it. -/
theorem cut_after {p : Profile} {data : List UInt8} {n : Nat} {h : HDU} {f : Fits} {a : AFits} {m : Nat} {s : Segment}
    {x : List HDU × Bool} (hsize : data.length + 2960 < 2 ^ 63) (b : Beside data f a) (hpos : f.rd.pos = f.posStart)
    (hin : f.posStart ≤ data.length) (hm : f.posStart + roundUp2880 f.numBytes < 2 ^ 63) (hn : f.numBytes = s.data.length)
    (hcut : n < f.posStart + s.data.length ↔ data.length < f.posStart + s.data.length)
    (hrest : f.posStart + s.data.length ≤ data.length → Spec.Gives x (AFits.collect p (m + 1) a)) :
    Spec.Gives (if n < f.posStart + s.data.length then ([h], true) else (h :: x.1, x.2))
      (.ok h.forget :: AFits.collect p (m + 1) a) := by
  by_cases hc : n < f.posStart + s.data.length
  · rw [if_pos hc]
    have hge := roundUp2880_ge f.numBytes
    have := cut_end (p := p) (m := m) hsize b hpos hin hm (by rw [hn] at hge ⊢; have := hcut.1 hc; omega)
    rw [hn, decide_eq_true (hcut.1 hc)] at this
    exact this.cons h
  · rw [if_neg hc]
    exact (hrest (by have := fun g => hc (hcut.2 g); omega)).cons h

theorem cut_walk {p : Profile} {segs : List Segment} {hs : List HDU} {first : Bool} {o : Nat} (n : Nat)
    (hf : FileOf p first o segs hs) (hfirst : first = false)
    (hns : ∀ s ∈ segs, s.data.length + s.dataFill.length ≤ roundUp2880 s.data.length)
    (A : List UInt8) (hA : A.length = o)
    (hsize : (A ++ (segs.map Segment.bytes).flatten).length + 2960 < 2 ^ 63) {f : Fits} {a : AFits} {m : Nat}
    (b : Beside ((A ++ (segs.map Segment.bytes).flatten).take n) f a) (hpos : f.rd.pos = f.posStart)
    (hin : f.posStart + f.numBytes ≤ ((A ++ (segs.map Segment.bytes).flatten).take n).length)
    (ho : f.posStart + roundUp2880 f.numBytes = o) (hk : hs.length < m) :
    Spec.Gives (cutStream n first o segs hs) (AFits.collect p m a) := by
  induction hf generalizing A f a m with
  | @last first o s h hh hdsc hfill =>
    subst hfirst hA
    obtain ⟨m, rfl⟩ : ∃ m', m = m' + 2 := ⟨m - 2, by simp at hk; omega⟩
    have hD : A ++ (List.map Segment.bytes [s]).flatten = A ++ s.header ++ (s.data ++ s.dataFill) := by
      simp [Segment.bytes]
    rw [hD] at b hin hsize
    have hfull := hns s (List.mem_cons_self ..)
    unfold cutStream
    by_cases hn : A.length + s.header.length ≤ n
    · rw [if_pos hn]
      obtain ⟨f', a', e1, b', e2, e3, e4⟩ := whole_header hh hdsc hsize b hin ho hn
      rw [collect_ok e1]
      have hl : ((A ++ s.header ++ (s.data ++ s.dataFill)).take n).length =
          min n (A.length + s.header.length + (s.data.length + s.dataFill.length)) := by
        rw [List.length_take]; simp only [List.length_append]
      simp only [List.length_append] at hsize
      have hlt := roundUp2880_lt s.data.length
      rw [← e2]
      refine cut_after (by omega) b' e3 (by omega) (by rw [e4]; omega) e4 (by rw [hl]; omega) fun hr => ?_
      have := cut_end (p := p) (m := m) (by omega) b' e3 (by omega) (by rw [e4]; omega) (by rw [e4]; omega)
      rw [decide_eq_false (by rw [e4]; omega)] at this
      unfold cutStream
      exact this
    · rw [if_neg hn]
      exact cut_header hh hdsc hsize b hpos hin ho (by omega)
  | @cons first o s h ss hs hh hdsc hdok hrest ih =>
    subst hfirst hA
    obtain ⟨m, rfl⟩ : ∃ m', m = m' + 2 := ⟨m - 2, by simp at hk; omega⟩
    have hbl : s.bytes.length = s.header.length + s.data.length + s.dataFill.length := by
      simp only [Segment.bytes, List.length_append]
    have hD : A ++ (List.map Segment.bytes (s :: ss)).flatten =
        A ++ s.header ++ (s.data ++ s.dataFill ++ (ss.map Segment.bytes).flatten) := by
      simp [Segment.bytes]
    have hD2 : A ++ s.header ++ (s.data ++ s.dataFill ++ (ss.map Segment.bytes).flatten) =
        A ++ s.bytes ++ (ss.map Segment.bytes).flatten := by
      simp [Segment.bytes]
    rw [hD] at b hin hsize
    unfold Segment.DataOk at hdok
    unfold cutStream
    by_cases hn : A.length + s.header.length ≤ n
    · rw [if_pos hn]
      obtain ⟨f', a', e1, b', e2, e3, e4⟩ := whole_header hh hdsc hsize b hin ho hn
      rw [collect_ok e1]
      have hl : ((A ++ s.header ++ (s.data ++ s.dataFill ++ (ss.map Segment.bytes).flatten)).take n).length =
          min n (A.length + s.header.length + (s.data.length + s.dataFill.length + ((ss.map Segment.bytes).flatten).length)) := by
        rw [List.length_take]; simp only [List.length_append]
      have hsz := hsize
      simp only [List.length_append] at hsz
      have hlt := roundUp2880_lt s.data.length
      dsimp only
      rw [← e2]
      refine cut_after (by omega) b' e3 (by omega) (by rw [e4]; omega) e4 (by rw [hl]; omega) fun hr => ?_
      rw [hD2] at b' hl hr hsize
      exact ih rfl (fun s hs => hns s (List.mem_cons_of_mem _ hs)) (A ++ s.bytes) (by rw [List.length_append]) hsize b' e3
        (by rw [e4]; exact hr) (by rw [e4]; omega) (by simp at hk; omega)
    · rw [if_neg hn]
      exact cut_header hh hdsc hsize b hpos hin ho (by omega)

/-- The first card of a file that is cut after it. -/
theorem firstSimple_cut {p : Profile} {C : List UInt8} {s : Segment} {h : HDU} {n : Nat} (hh : s.HeaderOk)
    (hd : Describes p 0 s true h) (hn : 80 ≤ n) : FirstSimple ((s.header ++ C).take n) := by
  intro name c hc
  have hpos := hh.records_pos
  rw [recordAt_cut (by omega)] at hc
  have := recordAt_header (A := []) (C := C) hh 0 hpos
  simp only [List.nil_append, List.length_nil] at this
  rw [this] at hc
  cases hd with
  | @primary h c' cs hcs hcards hp ho hsz =>
    unfold CardsOf at hcs
    have h0 := congrArg (·[0]?) hcs
    simp only [List.getElem?_map] at h0
    rw [List.getElem?_eq_getElem hpos, hcards, Option.map_some, hc] at h0
    simp only [List.getElem?_cons_zero, Option.map_some, Option.some.injEq, Res.ok.injEq, Card.value.injEq] at h0
    exact h0.1

theorem first_cut {p : Profile} {r : AReader} (hr : Ready r.events) (hl : r.bytes.length < 80) :
    ∃ e a', (AFits.fromReader r).pollNext p = (.ready (some (.err e)), a') ∧ a'.errored = true := by
  obtain ⟨r2, g1, -⟩ := readExact_eof (n := 80) (Sees.of_ready hr (r.bytes.length + 1)) hl (by omega)
  have g2 : (AHdu.newPrimary (r.bytes.length + 1)).poll r = (.ready (.err failHeader), r2) := by
    have g3 : (consumeCardsA (r.bytes.length + 1) 0).poll r = (.ready (.err failHeader), r2) := by
      unfold consumeCardsA
      rw [poll_andThen_err g1]
    exact poll_andThen_err g3
  refine ⟨failHeader, { AFits.fromReader r with rd := r2, start := false, errored := true }, ?_, rfl⟩
  · unfold AFits.pollNext
    rw [if_neg (by simp [AFits.fromReader]), if_pos (by simp [AFits.fromReader])]
    show (match (AHdu.newPrimary (r.bytes.length + 1)).poll r with
      | (.pending _, rd) => (StreamPoll.pending, { AFits.fromReader r with rd })
      | (.ready x, rd) => AFits.record p (some x) { AFits.fromReader r with rd }) = _
    rw [g2]
    rfl

/-- **C90** A file that consists of HDUs and is cut after any number of bytes, read from an asynchronous source that is
always ready, however it cuts what is left into buffers: the stream gives the HDUs whose headers are complete, in order;
then an error if bytes of a header or of a data unit are missing, and nothing more; the end if only the fill after a data
unit, or nothing, is missing of the HDUs given. -/
theorem C90_cut {p : Profile} {segs : List Segment} {hs : List HDU} (hf : FileOf p true 0 segs hs)
    (hns : ∀ s ∈ segs, s.data.length + s.dataFill.length ≤ roundUp2880 s.data.length)
    (hsize : ((segs.map Segment.bytes).flatten).length + 2960 < 2 ^ 63) (n : Nat) {r : AReader} (hr : Ready r.events)
    (hb : r.bytes = ((segs.map Segment.bytes).flatten).take n) (m : Nat) (hm : hs.length < m) :
    Spec.Gives (cutStream n true 0 segs hs) (AFits.collect p m (AFits.fromReader r)) := by
  obtain ⟨s, ss, h, hs', rfl, rfl, hh, hdsc⟩ : ∃ s ss h hs', segs = s :: ss ∧ hs = h :: hs' ∧ s.HeaderOk ∧
      Describes p 0 s true h := by
    cases hf with
    | last hh hdsc _ => exact ⟨_, _, _, _, rfl, rfl, hh, hdsc⟩
    | cons hh hdsc _ _ => exact ⟨_, _, _, _, rfl, rfl, hh, hdsc⟩
  obtain ⟨m, rfl⟩ : ∃ m', m = m' + 2 := ⟨m - 2, by simp at hm; omega⟩
  have hD : (List.map Segment.bytes (s :: ss)).flatten =
      s.header ++ (s.data ++ s.dataFill ++ (ss.map Segment.bytes).flatten) := by
    simp [Segment.bytes]
  rw [hD] at hb hsize
  generalize hC : s.data ++ s.dataFill ++ (ss.map Segment.bytes).flatten = C at *
  have hCl : C.length = s.data.length + s.dataFill.length + ((ss.map Segment.bytes).flatten).length := by
    rw [← hC]; simp only [List.length_append]
  have hl : r.bytes.length = min n (s.header.length + C.length) := by
    rw [hb, List.length_take, List.length_append]
  have h80 : 80 ≤ s.header.length := by
    have := hh.header_ge
    have := hh.records_pos
    omega
  rw [List.length_append] at hsize
  unfold cutStream
  simp only [Nat.zero_add, Bool.true_or]
  by_cases hn80 : 80 ≤ n
  · have hstep := first_step (p := p) hr hb (firstSimple_cut hh hdsc hn80)
    by_cases hn : s.header.length ≤ n
    · rw [if_pos hn]
      have hcut : (s.header ++ C).take n = s.header ++ C.take (n - s.header.length) := by
        rw [List.take_append, List.take_of_length_le hn]
      have hnew := newPrimary_segment (C := C.take (n - s.header.length)) hh hdsc
      have hoff := hdsc.offset
      rw [← hcut] at hnew
      rw [Fits.next_start, hnew] at hstep
      simp only [Fits.record, hdsc.size] at hstep
      generalize hy : (AFits.fromReader r).pollNext p = y at hstep
      obtain ⟨y1, y2⟩ := y
      rw [hb] at hl
      have hlt := roundUp2880_lt s.data.length
      cases hstep with
      | ok b e1 e2 =>
        rw [collect_ok hy]
        dsimp only at b e1 e2
        have e0 : h.dataOffset = s.header.length := by omega
        rw [e0] at b
        refine cut_after (f := ⟨false, s.header.length, s.data.length, false, ⟨(s.header ++ C).take n, s.header.length⟩⟩)
          (s := s) (by rw [hl]; omega) b rfl (by rw [hl]; dsimp only; omega) (by dsimp only; omega) rfl
          (by rw [hl]; dsimp only; omega) fun hrr => ?_
        dsimp only at hrr
        cases hf with
        | last _ _ _ =>
          have hfull := hns s (List.mem_cons_self ..)
          have := cut_end (p := p) (m := m) (by rw [hl]; omega) b rfl (by rw [hl]; dsimp only; omega) (by dsimp only; omega)
            (by rw [hl]; simp at hCl; dsimp only; omega)
          rw [decide_eq_false (by dsimp only; omega)] at this
          unfold cutStream
          exact this
        | cons _ _ hdok hrest =>
          unfold Segment.DataOk at hdok
          have hbl : s.bytes.length = s.header.length + s.data.length + s.dataFill.length := by
            simp only [Segment.bytes, List.length_append]
          have hD2 : s.header ++ C = s.bytes ++ (ss.map Segment.bytes).flatten := by
            rw [← hC]; simp [Segment.bytes]
          rw [hD2] at b hrr
          rw [Nat.zero_add] at hrest
          exact cut_walk n hrest rfl (fun s hs => hns s (List.mem_cons_of_mem _ hs)) s.bytes rfl
            (by rw [← hD2, List.length_append]; omega) b rfl hrr (by dsimp only; omega) (by simp at hm; omega)
    · rw [if_neg hn]
      have hnew := newPrimary_cut (C := C) hh hdsc (n := n) (by omega)
      rw [Fits.next_start, hnew] at hstep
      generalize hy : (AFits.fromReader r).pollNext p = y at hstep
      obtain ⟨y1, y2⟩ := y
      simp only [Fits.record] at hstep
      cases hstep with
      | @err _ e' _ _ _ he => exact ⟨e', by rw [collect_err hy he]; rfl⟩
  · rw [if_neg (by omega)]
    obtain ⟨e, a', h1, h2⟩ := first_cut (p := p) hr (by omega)
    exact ⟨e, by rw [collect_err h1 h2]; rfl⟩

/-! ### The sample file, cut -/

theorem cutFile_bytes (n k : Nat) : (AReader.mk [] (deliver [(sampleFile.take n).take k, (sampleFile.take n).drop k])).bytes =
    (([samplePrimarySegment, sampleImageSegment].map Segment.bytes).flatten).take n := by
  show eventBytes _ = _
  rw [eventBytes_deliver, ← sampleFile_flatten]
  simp

theorem cutFile_gives (p : Profile) (n k : Nat)
    (hr : Ready (deliver [(sampleFile.take n).take k, (sampleFile.take n).drop k])) : Spec.Gives (cutStream n true 0 [samplePrimarySegment, sampleImageSegment]
      [samplePrimaryHdu, sampleImageHdu])
    (AFits.collect p 3 (AFits.fromReader ⟨[], deliver [(sampleFile.take n).take k, (sampleFile.take n).drop k]⟩)) :=
  C90_cut (sample_fileOf p) sample_segments_full (by rw [← sampleFile_flatten]; decide +kernel) n hr
    (cutFile_bytes n k) 3 (by decide)

set_option maxRecDepth 20000 in
/-- Cut in the data of the second HDU, in the fill of the first one, and in the header of the second. -/
theorem cutFile_cases : (cutStream 8650 true 0 [samplePrimarySegment, sampleImageSegment]
      [samplePrimaryHdu, sampleImageHdu] = ([samplePrimaryHdu, sampleImageHdu], true)) ∧
    (cutStream 3000 true 0 [samplePrimarySegment, sampleImageSegment]
      [samplePrimaryHdu, sampleImageHdu] = ([samplePrimaryHdu], false)) ∧
    (cutStream 5761 true 0 [samplePrimarySegment, sampleImageSegment]
      [samplePrimaryHdu, sampleImageHdu] = ([samplePrimaryHdu], true)) := by
  refine ⟨?_, ?_, ?_⟩ <;> decide +kernel

set_option maxRecDepth 20000 in
/-- The file cut in the fill after the data of its first HDU is taken for a whole file. -/
example (p : Profile) :
    AFits.collect p 3 (AFits.fromReader ⟨[], deliver [(sampleFile.take 3000).take 100, (sampleFile.take 3000).drop 100]⟩) =
      [.ok samplePrimaryHdu.forget] := by
  obtain ⟨e, h⟩ := cutFile_gives p 3000 100 (by decide +kernel)
  rw [cutFile_cases.2.1] at h
  exact h

set_option maxRecDepth 20000 in
/-- Cut one byte after the beginning of its second HDU, or in the data of this HDU, it is not. -/
example (p : Profile) : (∃ e,
    AFits.collect p 3 (AFits.fromReader ⟨[], deliver [(sampleFile.take 5761).take 100, (sampleFile.take 5761).drop 100]⟩) =
      [.ok samplePrimaryHdu.forget, .err e]) ∧ ∃ e,
    AFits.collect p 3 (AFits.fromReader ⟨[], deliver [(sampleFile.take 8650).take 100, (sampleFile.take 8650).drop 100]⟩) =
      [.ok samplePrimaryHdu.forget, .ok sampleImageHdu.forget, .err e] := by
  obtain ⟨e1, h1⟩ := cutFile_gives p 5761 100 (by decide +kernel)
  obtain ⟨e2, h2⟩ := cutFile_gives p 8650 100 (by decide +kernel)
  rw [cutFile_cases.2.2] at h1
  rw [cutFile_cases.1] at h2
  exact ⟨⟨e1, h1⟩, e2, h2⟩

end Fitsrs

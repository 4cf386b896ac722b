import Verif.Lemmas.AsyncSync
import Verif.Lemmas.AsyncData
import Verif.Props.C01
/-
C47 skipping bytes asynchronously, C48 the asynchronous stream on a ready reader, C49 and C50 independence of the
schedule, C51 acceptance of the primary header.
-/

namespace Fitsrs
open Spec Fut

theorem eventBytes_deliver (bufs : List (List UInt8)) : eventBytes (deliver bufs) = bufs.flatten := by
  induction bufs with
  | nil => rfl
  | cons b bufs ih =>
    cases b with
    | nil => exact ih
    | cons x xs =>
      show x :: xs ++ eventBytes (deliver bufs) = _
      rw [ih]
      rfl

/-! ## C47: skipping is exact -/

/-- **C47.** Whatever the buffers delivered by the source and its delays, if it does not fail, skipping `n` bytes of the stream, polled until
it is ready, succeeds when there are `n` bytes and consumes exactly these; otherwise it fails, and the stream is at its
end. -/
theorem C47_skip (r : AReader) (hh : Healthy r.events) (n m : Nat) (hm : pendings r.events < m) :
    ∃ r', (n ≤ r.bytes.length ∧ (readNBytesExact n).block m r = (some (.ok ()), r') ∧ r'.bytes = r.bytes.drop n) ∨
      (r.bytes.length < n ∧ ∃ e, (readNBytesExact n).block m r = (some (.err e), r') ∧ r'.bytes = []) := by
  obtain ⟨a, r', h1, h2⟩ := block_strip m (readNBytesExact n) r hm
  have hs : Sees r.strip (r.bytes.length + 1) r.bytes := by
    have := Sees.of_ready (r := r.strip) (strip_ready hh) (r.bytes.length + 1)
    rw [AReader.strip_bytes] at this
    exact this
  refine ⟨r', ?_⟩
  by_cases hn : n ≤ r.bytes.length
  · obtain ⟨r2, g1, g2⟩ := readNBytes_ok hs hn (by omega) (by omega)
    rw [g1] at h2
    simp only [Prod.mk.injEq, Poll.ready.injEq] at h2
    obtain ⟨rfl, rfl⟩ := h2
    exact .inl ⟨hn, h1, by rw [← AReader.strip_bytes]; exact g2.bytes⟩
  · obtain ⟨r2, g1, g2⟩ := readNBytes_eof (n := n) hs (by omega) (by omega)
    rw [g1] at h2
    simp only [Prod.mk.injEq, Poll.ready.injEq] at h2
    obtain ⟨rfl, rfl⟩ := h2
    exact .inr ⟨by omega, _, h1, by rw [← AReader.strip_bytes]; exact g2.bytes⟩

/-- Skipping 4 bytes delivered as 2, a delay and 3. -/
example : ∃ r', (readNBytesExact 4).block 2 ⟨[], deliver [[1, 2], [], [3, 4, 5]]⟩ = (some (.ok ()), r') ∧ r'.bytes = [5] := by
  obtain ⟨r', ⟨-, h1, h2⟩ | ⟨h, -⟩⟩ := C47_skip ⟨[], deliver [[1, 2], [], [3, 4, 5]]⟩ (by decide) 4 2 (by decide)
  · exact ⟨r', h1, h2⟩
  · exact absurd h (by decide)

/-! ## C48: asynchronous and synchronous reading agree -/

/-- **C48**, for every file: on a source that is always ready, the asynchronous stream returns the same HDUs as the
iterator, and fails or panics where it does, if the data units of the HDUs are in the file, with nothing or at least a
record after the last block of each, and if the name of the first card, when this is a true logical, is `SIMPLE`. -/
theorem C48_agree {p : Profile} {r : AReader} (hr : Ready r.events) (hsize : r.bytes.length + 2960 < 2 ^ 63)
    (hs : FirstSimple r.bytes) (n : Nat)
    (hc : ∀ h, .ok h ∈ Fits.collect p n (Fits.fromReader ⟨r.bytes, 0⟩) → CompleteIn p r.bytes h) :
    SameItems (Fits.collect p n (Fits.fromReader ⟨r.bytes, 0⟩)) (AFits.collect p n (AFits.fromReader r)) :=
  async_sync hr hsize hs n hc

theorem Spec.PendingsAt.of_ready {S : Nat → Prop} {pos : Nat} {es : List Event} (h : Ready es) : PendingsAt S pos es := by
  induction es generalizing pos with
  | nil => trivial
  | cons e es ih =>
    cases e with
    | pending => exact h.pending.elim
    | fail x => exact h.fail.elim
    | chunk b bs => exact ih h.tail

theorem pendings_of_ready {es : List Event} (h : Ready es) : pendings es = 0 := by
  induction es with
  | nil => rfl
  | cons e es ih =>
    cases e with
    | pending => exact h.pending.elim
    | fail x => exact h.fail.elim
    | chunk b bs => exact ih h.tail

theorem At.of_pendingsAt {S : Nat → Prop} {r : AReader} (h : PendingsAt S r.cur.length r.events) :
    At S r.bytes.length r := by
  have : r.bytes.length - (eventBytes r.events).length = r.cur.length := by
    unfold AReader.bytes; rw [List.length_append]; omega
  refine ⟨by unfold AReader.bytes; rw [List.length_append]; omega, ?_⟩
  rw [this]
  exact h

/-- **C48**, for well-formed files: on a source that is always ready, however it cuts the file, the stream returns the
HDUs that the iterator returns (whatever is read between its calls), that is, those of the file. -/
theorem C48_wellformed {p : Profile} {segs : List Segment} {hs : List HDU} (hf : FileOf p true 0 segs hs)
    (hns : ∀ s ∈ segs, s.data.length + s.dataFill.length ≤ roundUp2880 s.data.length) {r : AReader}
    (hb : r.bytes = (segs.map Segment.bytes).flatten) (hr : Ready r.events) (hsize : r.bytes.length + 2960 < 2 ^ 63)
    (m : Nat) (hm : hs.length < m) (ks : List Nat) (hk : hs.length < ks.length) :
    AFits.collect p m (AFits.fromReader r) =
      (collectReading p ks (Fits.fromReader ⟨r.bytes, 0⟩)).map (Res.map HDU.forget) ∧
    AFits.collect p m (AFits.fromReader r) = hs.map fun h => .ok h.forget := by
  have h1 := walk_async hf (fun _ => False) hns (fun s _ h => h.elim) r hb (.of_pendingsAt (.of_ready hr)) m
    (by rw [pendings_of_ready hr]; omega)
  refine ⟨?_, h1⟩
  rw [h1, hb, C01_walk hf (by rw [← hb]; exact hsize) ks hk, List.map_map]
  rfl

theorem sampleFile_flatten : sampleFile = ([samplePrimarySegment, sampleImageSegment].map Segment.bytes).flatten := by
  simp [sampleFile]

theorem sample_segments_full : ∀ s ∈ [samplePrimarySegment, sampleImageSegment],
    s.data.length + s.dataFill.length ≤ roundUp2880 s.data.length := by
  intro s hs
  rcases List.mem_cons.1 hs with rfl | hs
  · decide +kernel
  · rw [List.mem_singleton] at hs
    subst hs
    decide +kernel

/-- The two HDUs of the sample file, delivered as two buffers cut inside the first header. -/
example (p : Profile) :
    AFits.collect p 3 (AFits.fromReader ⟨[], deliver [sampleFile.take 100, sampleFile.drop 100]⟩)
      = [.ok samplePrimaryHdu.forget, .ok sampleImageHdu.forget] := by
  have hb : (AReader.mk [] (deliver [sampleFile.take 100, sampleFile.drop 100])).bytes = sampleFile := by
    show eventBytes _ = _
    rw [eventBytes_deliver]
    simp
  exact (C48_wellformed (sample_fileOf p) sample_segments_full (hb.trans sampleFile_flatten)
    (by decide +kernel) (by rw [hb]; decide +kernel) 3 (by decide) [0, 0, 0] (by decide)).2

/-- The primary HDU of the sample, followed by a header that is not one of an extension. -/
def badExtensionFile : List UInt8 := samplePrimarySegment.bytes ++ rec80 "FOO     = 1" ++ rec80 "END" ++ blanks 2720

set_option maxRecDepth 20000 in
theorem badExtension_collect (p : Profile) : Fits.collect p 3 (Fits.fromReader ⟨badExtensionFile, 0⟩) =
    [.ok samplePrimaryHdu, .err (.static "XTENSION card has not been found in the header")] := by
  cases p <;> decide +kernel

set_option maxRecDepth 20000 in
/-- `C48_agree` on this file, delivered in two buffers: both return the primary HDU and fail. -/
example (p : Profile) : SameItems [.ok samplePrimaryHdu, .err (.static "XTENSION card has not been found in the header")]
    (AFits.collect p 3 (AFits.fromReader ⟨[], deliver [badExtensionFile.take 3000, badExtensionFile.drop 3000]⟩)) := by
  have hb : (AReader.mk [] (deliver [badExtensionFile.take 3000, badExtensionFile.drop 3000])).bytes = badExtensionFile := by
    show eventBytes _ = _
    rw [eventBytes_deliver]
    simp
  have hl : badExtensionFile.length = 8640 := by decide +kernel
  have h1 : recordCard (recordAt badExtensionFile 0 0) = .ok (.value "SIMPLE".toList (.logical true none)) := by
    decide +kernel
  have := C48_agree (p := p) (r := ⟨[], deliver [badExtensionFile.take 3000, badExtensionFile.drop 3000]⟩)
    (by decide +kernel) (by rw [hb, hl]; decide) (by
      rw [hb]
      intro name c h
      rw [h1] at h
      cases h
      rfl) 3 (by
      rw [hb, badExtension_collect]
      intro h hm
      rcases List.mem_cons.1 hm with hm | hm
      · cases hm
        have h2 : samplePrimaryHdu.dataSize p = .ok 10 := by cases p <;> decide +kernel
        refine ⟨fun sz hsz => ?_, fun sz hsz => ?_⟩ <;> (rw [h2] at hsz; cases hsz; rw [hl]; decide)
      · rw [List.mem_singleton] at hm
        cases hm)
  rw [hb, badExtension_collect] at this
  exact this

set_option maxRecDepth 20000 in
/-- Without the hypothesis that the data units are in the file the two differ: of a file cut inside the data of the
primary HDU, the iterator returns this HDU and ends, but the stream returns it and fails. -/
example : Fits.collect .checked 2 (Fits.fromReader ⟨sampleFile.take 2884, 0⟩) = [.ok samplePrimaryHdu] ∧
    AFits.collect .checked 2 (AFits.fromReader ⟨sampleFile.take 2884, []⟩)
      = [.ok samplePrimaryHdu.forget, .err (.static "The file has reached EOF")] := by
  constructor <;> decide +kernel

/-! ## C49: the pixels do not depend on the schedule -/

/-- **C49**, the full statement: from any source, whatever its buffers and delays, the stream of an image returns the
pixels of the data unit in order, and ends. -/
def C49_statement : Prop :=
  ∀ (p : Profile) (b : Bitpix) (ps : List Pixel) (rest : List UInt8) (r : AReader) (m : Nat), (∀ v ∈ ps, PixelOk b v) →
    r.bytes = arrayBytes ps ++ rest → Healthy r.events → pendings r.events + ps.length < m →
    St.collect p m ⟨b, r, ps.length * pixelSize b⟩ = ps.map .ok

/-- **C49**, partial: if the source is not ready only between two pixels.  (Missing: delays inside a pixel, where the
statement is false, see below.) -/
theorem C49_partial {p : Profile} {b : Bitpix} {ps : List Pixel} {rest : List UInt8} {r : AReader} {m : Nat}
    (hok : ∀ v ∈ ps, PixelOk b v) (hb : r.bytes = arrayBytes ps ++ rest)
    (hS : PendingsAt (fun n => n % pixelSize b = 0) r.cur.length r.events) (hm : pendings r.events + ps.length < m) :
    St.collect p m ⟨b, r, ps.length * pixelSize b⟩ = ps.map .ok :=
  St.collect_pixels (data := r.bytes) m ps r 0 rest hok (.of_pendingsAt hS) rfl hb (Nat.zero_le _)
    (fun s hs => by rw [hs, Nat.zero_mod]) hm

/-- The pixels of an image that arrive as a whole pixel, a delay, and the others in two buffers. -/
example (p : Profile) :
    St.collect p 5 ⟨.i16, ⟨[], deliver [[0, 1], [], [255], [255, 0, 3, 9]]⟩, 6⟩ = [.ok (.i16 1), .ok (.i16 (-1)), .ok (.i16 3)] :=
  C49_partial (b := .i16) (ps := [.i16 1, .i16 (-1), .i16 3]) (rest := [9])
    (r := ⟨[], deliver [[0, 1], [], [255], [255, 0, 3, 9]]⟩) (by decide) (by decide)
    ⟨by decide, by trivial⟩ (by decide)

theorem Spec.PendingsAt.of_all {S : Nat → Prop} (hS : ∀ n, S n) {pos : Nat} {es : List Event} (hh : Healthy es) :
    PendingsAt S pos es := by
  induction es generalizing pos with
  | nil => trivial
  | cons e es ih =>
    cases e with
    | pending => exact ⟨hS _, ih hh.tail⟩
    | fail x => exact hh.fail.elim
    | chunk b bs => exact ih hh.tail

/-- **C49** for images of bytes, and the bytes of tables: any schedule. -/
theorem C49_bytes_partial {p : Profile} {ps : List Pixel} {rest : List UInt8} {r : AReader} {m : Nat}
    (hh : Healthy r.events) (hok : ∀ v ∈ ps, PixelOk .u8 v) (hb : r.bytes = arrayBytes ps ++ rest)
    (hm : pendings r.events + ps.length < m) :
    St.collect p m ⟨.u8, r, ps.length⟩ = ps.map .ok := by
  have := C49_partial (p := p) hok hb (.of_all (fun n => Nat.mod_one n) hh) hm
  rw [show ps.length * pixelSize .u8 = ps.length from Nat.mul_one _] at this
  exact this

/-- **C49** on a source that is always ready, however it cuts the file. -/
theorem C49_ready_partial {p : Profile} {b : Bitpix} {ps : List Pixel} {rest : List UInt8} {r : AReader} {m : Nat}
    (hok : ∀ v ∈ ps, PixelOk b v) (hb : r.bytes = arrayBytes ps ++ rest) (hr : Ready r.events) (hm : ps.length < m) :
    St.collect p m ⟨b, r, ps.length * pixelSize b⟩ = ps.map .ok :=
  C49_partial hok hb (.of_ready hr) (by rw [pendings_of_ready hr]; omega)

/-- **C49 is false**: the code drops the future of `read_exact` when it is pending, with the bytes it has read.  Of an
image of two 16-bit pixels 1 and 2 that arrives with a delay after its first byte, the stream returns 256 and fails. -/
theorem C49_fails : ¬ C49_statement := by
  intro h
  have := h .checked .i16 [.i16 1, .i16 2] [] ⟨[], deliver [[0], [], [1, 0, 2]]⟩ 4 (by decide) (by decide) (by decide) (by decide)
  revert this
  decide +kernel

/-! ## C50: the HDUs do not depend on the schedule -/

/-- **C50**, the full statement: whatever the delays of the source, the stream returns the HDUs of the file. -/
def C50_statement : Prop :=
  ∀ (p : Profile) (segs : List Segment) (hs : List HDU) (r : AReader) (m : Nat), FileOf p true 0 segs hs →
    (∀ s ∈ segs, s.data.length + s.dataFill.length ≤ roundUp2880 s.data.length) →
    r.bytes = (segs.map Segment.bytes).flatten → r.cur = [] → Healthy r.events → pendings r.events + hs.length < m →
    AFits.collect p m (AFits.fromReader r) = hs.map fun h => .ok h.forget

/-- **C50**, partial: if the source is not ready only at the beginning of the file and between a header and the data unit
that follows it.  (Missing: the other delays, for which the statement is false, see below.) -/
theorem C50_partial {p : Profile} {segs : List Segment} {hs : List HDU} {r : AReader} {m : Nat}
    (hf : FileOf p true 0 segs hs)
    (hns : ∀ s ∈ segs, s.data.length + s.dataFill.length ≤ roundUp2880 s.data.length)
    (hb : r.bytes = (segs.map Segment.bytes).flatten) (hc : r.cur = [])
    (hS : PendingsAt (fun n => n = 0 ∨ ∃ h ∈ hs, n = h.dataOffset) 0 r.events)
    (hm : pendings r.events + hs.length < m) :
    AFits.collect p m (AFits.fromReader r) = hs.map fun h => .ok h.forget := by
  refine walk_async hf (fun n => n = 0 ∨ ∃ h ∈ hs, n = h.dataOffset) hns ?_ r hb (.of_pendingsAt (by rw [hc]; exact hS)) m hm
  intro s h1 h2
  rcases h2 with h2 | h2
  · omega
  · exact h2

theorem deliver_bytes (bufs : List (List UInt8)) : (AReader.mk [] (deliver bufs)).bytes = bufs.flatten :=
  eventBytes_deliver bufs

theorem deliver_cons {b : List UInt8} (h : b ≠ []) (bufs : List (List UInt8)) {S : Nat → Prop} {pos : Nat} :
    PendingsAt S pos (deliver (b :: bufs)) ↔ PendingsAt S (pos + b.length) (deliver bufs) := by
  cases b with
  | nil => exact absurd rfl h
  | cons x xs => exact Iff.rfl

/-- The sample file, with a delay at its beginning and two before the data of the primary HDU. -/
example (p : Profile) :
    AFits.collect p 6 (AFits.fromReader ⟨[], deliver [[], sampleFile.take 2880, [], [], sampleFile.drop 2880]⟩)
      = [.ok samplePrimaryHdu.forget, .ok sampleImageHdu.forget] := by
  have hb := deliver_bytes [[], sampleFile.take 2880, [], [], sampleFile.drop 2880]
  refine C50_partial (sample_fileOf p) sample_segments_full (hb.trans (Eq.trans (by simp) sampleFile_flatten)) rfl ?_ (by decide +kernel)
  have hp : samplePrimaryHdu.dataOffset = 2880 := by decide +kernel
  refine ⟨.inl rfl, ?_⟩
  rw [deliver_cons (by decide +kernel), show (sampleFile.take 2880).length = 2880 by decide +kernel]
  refine ⟨.inr ⟨samplePrimaryHdu, by simp, hp.symm⟩, .inr ⟨samplePrimaryHdu, by simp, hp.symm⟩, ?_⟩
  rw [deliver_cons (by decide +kernel)]
  trivial

set_option maxRecDepth 20000 in
/-- **C50 is false**: the code drops the futures that read a header or skip a data unit when they are pending, with
what they have read.  Here the source is not ready after the first record, which is lost. -/
theorem C50_fails : ¬ C50_statement := by
  intro h
  have := h .checked [samplePrimarySegment, sampleImageSegment] [samplePrimaryHdu, sampleImageHdu]
    ⟨[], deliver [sampleFile.take 80, [], sampleFile.drop 80]⟩ 4 (sample_fileOf _) sample_segments_full
    ((deliver_bytes _).trans (Eq.trans (by simp) sampleFile_flatten)) rfl (by decide +kernel) (by decide +kernel)
  revert this
  decide +kernel

/-! ## C51: the same primary headers are accepted -/

/-- The iterator accepts the primary HDU of a file. -/
def AcceptsSync (p : Profile) (data : List UInt8) : Prop := ∃ h, ((Fits.fromReader ⟨data, 0⟩).next p).1 = some (.ok h)

/-- The asynchronous stream accepts the primary HDU. -/
def AcceptsAsync (p : Profile) (r : AReader) : Prop := ∃ h, ((AFits.fromReader r).pollNext p).1 = .ready (some (.ok h))

/-- **C51**, the full statement. -/
def C51_statement : Prop := ∀ (p : Profile) (r : AReader), Ready r.events → (AcceptsAsync p r ↔ AcceptsSync p r.bytes)

/-- **C51**, partial: what the iterator accepts the stream accepts, with the same header. -/
theorem C51_sync_async_partial {p : Profile} {r : AReader} (hr : Ready r.events) {h : HDU}
    (hs : ((Fits.fromReader ⟨r.bytes, 0⟩).next p).1 = some (.ok h)) :
    ((AFits.fromReader r).pollNext p).1 = .ready (some (.ok h.forget)) := by
  have hx : (Fits.fromReader ⟨r.bytes, 0⟩).next p = Fits.record p (some (HDU.newPrimary ⟨r.bytes, 0⟩).1)
      { start := false, posStart := 0, numBytes := 0, errored := false, rd := (HDU.newPrimary ⟨r.bytes, 0⟩).2.rd } := rfl
  rw [hx] at hs
  have h1 := Fits.record_ok (show Fits.record p _ _ = (some (.ok h), _) from Prod.ext hs rfl)
  obtain ⟨h1, sz, hsz, -⟩ := h1
  obtain ⟨r', h2, -⟩ := pollNext_first (p := p) (a := AFits.fromReader r) (k := h.dataOffset) rfl rfl
    (Sees.of_ready hr h.dataOffset) (show HDU.newPrimary ⟨r.bytes, 0⟩ = (.ok h, _) from Prod.ext (by simpa using h1) rfl) hsz
    (Nat.le_refl _)
  rw [h2]

/-- **C51**, partial: the two agree when the first card, if it is a true logical, is named `SIMPLE`.  (Missing: the other
first cards, for which the statement is false, see below.) -/
theorem C51_partial {p : Profile} {r : AReader} (hr : Ready r.events) (hs : FirstSimple r.bytes) :
    AcceptsAsync p r ↔ AcceptsSync p r.bytes := by
  constructor
  · rintro ⟨a, ha⟩
    have hstep := first_step (p := p) hr rfl hs
    unfold AcceptsSync
    generalize ((AFits.fromReader r).pollNext p) = y at ha hstep
    generalize ((Fits.fromReader ⟨r.bytes, 0⟩).next p) = x at hstep ⊢
    rw [ha] at hstep
    generalize x.1 = x1 at hstep ⊢
    cases hstep with
    | ok h1 _ _ => exact ⟨_, rfl⟩
  · rintro ⟨h, hh⟩
    exact ⟨_, C51_sync_async_partial hr hh⟩

/-- A file whose first record is not `SIMPLE`. -/
def notSimpleFile : List UInt8 :=
  rec80 "ABCDEF  =                    T" ++ rec80 "BITPIX  =                    8" ++ rec80 "NAXIS   =                    0" ++
    rec80 "END" ++ List.replicate 2560 0x20

set_option maxRecDepth 20000 in
/-- **C51 is false**: the stream does not look at the name of the first card. -/
theorem C51_fails : ¬ C51_statement := by
  intro h
  have h1 := (h .checked ⟨notSimpleFile, []⟩ (by decide)).1
  have hb : (AReader.mk notSimpleFile []).bytes = notSimpleFile := List.append_nil _
  rw [hb] at h1
  have h2 : AcceptsAsync .checked ⟨notSimpleFile, []⟩ := by
    have : (match ((AFits.fromReader ⟨notSimpleFile, []⟩).pollNext .checked).1 with
      | .ready (some (.ok _)) => true | _ => false) = true := by decide +kernel
    unfold AcceptsAsync
    generalize ((AFits.fromReader ⟨notSimpleFile, []⟩).pollNext .checked).1 = x at this
    split at this
    · exact ⟨_, rfl⟩
    · cases this
  obtain ⟨hd, h3⟩ := h1 h2
  have : ((Fits.fromReader ⟨notSimpleFile, 0⟩).next .checked).1 = some (.err .dynamic) := by decide +kernel
  rw [this] at h3
  cases h3

set_option maxRecDepth 20000 in
/-- The sample file satisfies the hypothesis of `C51_partial`, and is accepted. -/
example : FirstSimple sampleFile ∧ AcceptsSync .checked sampleFile := by
  have h1 : recordCard (recordAt sampleFile 0 0) = .ok (.value "SIMPLE".toList (.logical true none)) := by decide +kernel
  refine ⟨fun name c h => ?_, samplePrimaryHdu, by decide +kernel⟩
  rw [h1] at h
  cases h
  rfl

end Fitsrs

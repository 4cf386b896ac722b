import Verif.Lemmas.Pixels
import Verif.Props.C02_C08
import Verif.Spec.Extension
import Verif.Spec.Samples
/-
C29 pixels are the big-endian decoding of the data unit, C30 random access, C31 truncated images,
C32 raw bytes, C54 get_data.
-/

namespace Fitsrs
open Spec

/-! ## The iterator follows the specification until it meets a missing pixel -/

theorem It.run_append (p : Profile) (it : It) (a b : List PixelOp) : it.run p (a ++ b) = it.run p a ++ (it.after p a).run p b := by
  induction a generalizing it with
  | nil => rfl
  | cons o a ih => simp only [List.cons_append, It.run, It.after, ih]

theorem It.after_append (p : Profile) (it : It) (a b : List PixelOp) : it.after p (a ++ b) = (it.after p a).after p b := by
  induction a generalizing it with
  | nil => rfl
  | cons o a ih => simp only [List.cons_append, It.after, ih]

theorem pixelRun_append (ps : List Pixel) (c : Nat) (a b : List PixelOp) :
    pixelRun ps c (a ++ b) = pixelRun ps c a ++ pixelRun ps (pixelAfter ps c a) b := by
  induction a generalizing c with
  | nil => rfl
  | cons o a ih => simp only [List.cons_append, pixelRun, pixelAfter, ih]

theorem step_avail {p : Profile} {b : Bitpix} {data : List UInt8} {start n : Nat} {ps : List Pixel} (h : Avail b data start n ps)
    (o : PixelOp) (c : Nat) (hc : c ≤ ps.length) (hm : ¬ asksMissing ps n c [o]) :
    (pixelStep ps c o).2 ≤ ps.length ∧
      (itAt b data start n c).step p o = ((pixelStep ps c o).1, itAt b data start n (pixelStep ps c o).2) := by
  have hle := h.le
  cases o with
  | next =>
    simp only [asksMissing, or_false] at hm
    by_cases hlt : c < ps.length
    · simp [pixelStep, It.step, next_avail h hlt, hlt]; omega
    · rw [show pixelStep ps c .next = (.item none, c) by
        simp only [pixelStep, if_neg hlt]
        rw [List.getElem?_eq_none (by omega)]]
      simp only [It.step, next_end (b := b) (data := data) (start := start) c (show c = n by omega), and_true]
      omega
  | read i =>
    simp only [asksMissing, or_false] at hm
    by_cases hlt : i < ps.length
    · simp [pixelStep, It.step, read_avail h (c := c) (by omega) hlt, hlt]; omega
    · obtain ⟨er, e⟩ := read_out (p := p) (b := b) (data := data) (start := start) (n := n) (c := c) (i := i) (by omega)
      rw [show pixelStep ps c (.read i) = (.value none, c) by
        simp only [pixelStep, if_neg hlt]
        rw [List.getElem?_eq_none (by omega)]]
      simp only [It.step, e, and_true]
      omega

theorem asksMissing_cons {ps : List Pixel} {n c : Nat} {o : PixelOp} {os : List PixelOp} :
    asksMissing ps n c (o :: os) ↔ asksMissing ps n c [o] ∨ asksMissing ps n (pixelStep ps c o).2 os := by
  cases o <;> simp [asksMissing]

theorem run_avail {p : Profile} {b : Bitpix} {data : List UInt8} {start n : Nat} {ps : List Pixel} (h : Avail b data start n ps)
    (ops : List PixelOp) (c : Nat) (hc : c ≤ ps.length) (hm : ¬ asksMissing ps n c ops) :
    pixelAfter ps c ops ≤ ps.length ∧
      It.after p (itAt b data start n c) ops = itAt b data start n (pixelAfter ps c ops) ∧
      It.run p (itAt b data start n c) ops = pixelRun ps c ops := by
  induction ops generalizing c with
  | nil => exact ⟨hc, rfl, rfl⟩
  | cons o ops ih =>
    rw [asksMissing_cons, not_or] at hm
    obtain ⟨g1, g2⟩ := step_avail (p := p) h o c hc hm.1
    obtain ⟨k1, k2, k3⟩ := ih _ g1 hm.2
    simp only [It.after, It.run, pixelAfter, pixelRun, g2]
    exact ⟨k1, k2, by rw [k3]⟩

theorem not_asksMissing {ps : List Pixel} (ops : List PixelOp) (c : Nat) : ¬ asksMissing ps ps.length c ops := by
  induction ops generalizing c with
  | nil => simp [asksMissing]
  | cons o ops ih => cases o <;> simp only [asksMissing, not_or] <;> exact ⟨by omega, ih _⟩

theorem avail_full {b : Bitpix} {ps : List Pixel} (h : ∀ v ∈ ps, PixelOk b v) (before after : List UInt8)
    (hf : before.length + (arrayBytes ps).length < 2 ^ 63) :
    Avail b (before ++ arrayBytes ps ++ after) before.length ps.length ps :=
  ⟨h, Nat.le_refl _, ⟨before, after, rfl, rfl, fun h => absurd h (Nat.lt_irrefl _)⟩, by
    rw [← arrayBytes_length h]; exact hf⟩

/-! ## C30 -/

/-- **C30.** Over a data unit that holds the pixels `ps`, any sequence of `next` and `read_value` calls returns what
a sequence with a cursor returns. -/
theorem C30_random_access {p : Profile} {b : Bitpix} {ps : List Pixel} (h : ∀ v ∈ ps, PixelOk b v) (before after : List UInt8)
    (hf : before.length + (arrayBytes ps).length < 2 ^ 63) (ops : List PixelOp) :
    It.run p (It.new b ⟨before ++ arrayBytes ps ++ after, before.length⟩ (arrayBytes ps).length) ops =
      pixelRun ps 0 ops := by
  rw [itAt_zero (arrayBytes_length h)]
  exact (run_avail (avail_full h before after hf) ops 0 (by omega) (not_asksMissing _ _)).2.2

example : It.run p (It.new .i16 ⟨[9] ++ arrayBytes [.i16 1, .i16 (-2), .i16 300] ++ [7, 7], 1⟩ 6)
    [.next, .read 2, .next, .read 0, .next, .read 3, .next] =
    [.item (some (.i16 1)), .value (some (.i16 300)), .item none, .value (some (.i16 1)),
     .item (some (.i16 (-2))), .value none, .item (some (.i16 300))] :=
  C30_random_access (ps := [.i16 1, .i16 (-2), .i16 300]) (by decide +kernel) [9] [7, 7] (by decide +kernel) _

/-- **C30**, the specification in words: after any operations, `read_value(i)` is pixel `i`, or an error if there is
none, and `next` after it is the following pixel. -/
theorem C30_value {p : Profile} {b : Bitpix} {ps : List Pixel} (h : ∀ v ∈ ps, PixelOk b v) (before after : List UInt8)
    (hf : before.length + (arrayBytes ps).length < 2 ^ 63) (ops : List PixelOp) (i : Nat) :
    let it := It.after p (It.new b ⟨before ++ arrayBytes ps ++ after, before.length⟩ (arrayBytes ps).length) ops
    (∀ hi : i < ps.length, (it.readValue p i).1 = .ok ps[i] ∧ (it.readValue p i).2.next.1 = ps[i + 1]?) ∧
    (ps.length ≤ i → ∃ e, it.readValue p i = (.err e, it)) := by
  have hav := avail_full h before after hf
  intro it
  obtain ⟨hc, g, -⟩ := run_avail hav ops 0 (by omega) (not_asksMissing _ _)
  generalize pixelAfter ps 0 ops = c at *
  have hit : it = itAt b (before ++ arrayBytes ps ++ after) before.length ps.length c := by
    rw [← g, ← itAt_zero (arrayBytes_length h)]
  rw [hit]
  refine ⟨fun hi => ?_, fun hi => ?_⟩
  · rw [read_avail hav hc hi]
    refine ⟨rfl, ?_⟩
    by_cases hn : i + 1 < ps.length
    · rw [next_avail hav hn]; simp [hn]
    · rw [next_end _ (by omega)]; rw [List.getElem?_eq_none (by omega)]
  · exact read_out hi

/-! ## C29 -/

/-- What repeated calls of `next` return. -/
theorem pixelRun_nexts (ps : List Pixel) (k : Nat) : ∀ c, c ≤ ps.length →
    pixelRun ps c (List.replicate k .next) = (List.range k).map fun i => .item ps[c + i]? := by
  induction k with
  | zero => intro c _; rfl
  | succ k ih =>
    intro c hc
    rw [List.replicate_succ, List.range_succ_eq_map, List.map_cons, List.map_map, pixelRun]
    by_cases hl : c < ps.length
    · simp only [pixelStep, if_pos hl, Nat.add_zero]
      rw [ih (c + 1) hl]
      simp only [Function.comp_def, Nat.succ_eq_add_one, Nat.add_comm 1, Nat.add_assoc]
    · simp only [pixelStep, if_neg hl, Nat.add_zero]
      rw [ih c hc]
      congr 1
      apply List.map_congr_left
      intro i _
      simp only [Function.comp_def]
      rw [List.getElem?_eq_none (by omega), List.getElem?_eq_none (by omega)]

/-- **C29.** Iterating over a data unit that holds the pixels `ps` gives these pixels and then `None`. -/
theorem C29_pixels {p : Profile} {b : Bitpix} {ps : List Pixel} (h : ∀ v ∈ ps, PixelOk b v) (before after : List UInt8)
    (hf : before.length + (arrayBytes ps).length < 2 ^ 63) (k : Nat) :
    It.run p (It.new b ⟨before ++ arrayBytes ps ++ after, before.length⟩ (arrayBytes ps).length)
      (List.replicate k .next) = (List.range k).map fun i => .item ps[i]? := by
  rw [C30_random_access h before after hf]
  simpa using pixelRun_nexts ps k 0 (by omega)

/-- **C29**, reads stay in the data unit: after any operations the reader stands inside the data unit, on the
boundary of a pixel. -/
theorem C29_position {p : Profile} {b : Bitpix} {ps : List Pixel} (h : ∀ v ∈ ps, PixelOk b v) (before after : List UInt8)
    (hf : before.length + (arrayBytes ps).length < 2 ^ 63) (ops : List PixelOp) :
    let it := It.after p (It.new b ⟨before ++ arrayBytes ps ++ after, before.length⟩ (arrayBytes ps).length) ops
    before.length ≤ it.rd.pos ∧ it.rd.pos ≤ before.length + (arrayBytes ps).length ∧
      (it.rd.pos - before.length) % pixelSize b = 0 := by
  intro it
  obtain ⟨hc, g, -⟩ := run_avail (avail_full h before after hf) ops 0 (by omega) (not_asksMissing _ _)
  generalize pixelAfter ps 0 ops = c at *
  have hit : it = itAt b (before ++ arrayBytes ps ++ after) before.length ps.length c := by
    rw [← g, ← itAt_zero (arrayBytes_length h)]
  rw [hit, arrayBytes_length h]
  have hm : c * pixelSize b ≤ ps.length * pixelSize b := Nat.mul_le_mul_right _ hc
  dsimp only [itAt]
  exact ⟨by omega, by omega, by rw [Nat.add_sub_cancel_left]; exact Nat.mul_mod_left _ _⟩

/-- Each pixel is written on the number of bytes of its type, and decodes to itself: the bytes determine the
pixels. -/
theorem C29_bytes {b : Bitpix} {ps qs : List Pixel} (h : ∀ v ∈ ps, PixelOk b v) (h' : ∀ v ∈ qs, PixelOk b v)
    (e : arrayBytes ps = arrayBytes qs) : ps = qs := by
  have hl : ps.length = qs.length := by
    have := arrayBytes_length h
    rw [e, arrayBytes_length h'] at this
    exact (Nat.eq_of_mul_eq_mul_right (pixelSize_pos b) this).symm
  apply List.ext_getElem hl
  intro i hi hi'
  have h1 := arrayBytes_get h i hi
  rw [e, arrayBytes_get h' i hi'] at h1
  rw [← ofBytes_pixelBytes (h _ (List.getElem_mem hi)), ← ofBytes_pixelBytes (h' _ (List.getElem_mem hi')), h1]

/-- The state after an HDU has been returned. -/
theorem next_ok_state {p : Profile} {f f' : Fits} {h : HDU} (hn : f.next p = (some (.ok h), f')) :
    f'.rd.data = f.rd.data ∧ f'.rd.pos = h.dataOffset ∧ f'.posStart = h.dataOffset ∧
      h.dataSize p = .ok f'.numBytes ∧ f'.errored = false ∧ f'.start = false := by
  have hd := Fits.next_data (p := p) (f := f)
  rw [hn] at hd
  refine ⟨hd, ?_⟩
  unfold Fits.next at hn
  by_cases he : f.errored = true
  · rw [if_pos he] at hn; simp at hn
  rw [if_neg he] at hn
  by_cases hs : f.start = true
  · rw [if_pos hs] at hn
    cases hp : HDU.newPrimary f.rd with
    | mk r s =>
      rw [hp] at hn
      dsimp only at hn
      obtain ⟨h1, sz, h2, rfl⟩ := Fits.record_ok hn
      simp only [Option.some.injEq] at h1
      subst h1
      obtain ⟨-, -, -, -, g⟩ := newPrimary_ok hp
      exact ⟨by dsimp only; rw [g], rfl, h2, by simpa using he, rfl⟩
  · rw [if_neg hs] at hn
    cases hc : f.consumeUntilNextHdu p with
    | mk r rd =>
      rw [hc] at hn
      cases r with
      | panic => dsimp only at hn; obtain ⟨h1, -⟩ := Fits.record_ok hn; simp at h1
      | err e => dsimp only at hn; obtain ⟨h1, -⟩ := Fits.record_ok hn; simp at h1
      | ok u =>
        dsimp only at hn
        cases hp : HDU.newXtension p { rd, nread := 0 } with
        | mk r s =>
          rw [hp] at hn
          dsimp only at hn
          obtain ⟨h1, sz, h2, rfl⟩ := Fits.record_ok hn
          have h3 : r = .ok h := by
            split at h1
            · split at h1 <;> simp at h1
            · simpa using h1
          subst h3
          obtain ⟨-, -, -, g⟩ := newXtension_ok rfl hp
          exact ⟨by dsimp only; rw [g], rfl, h2, by simpa using he, rfl⟩

/-- Cutting a list at two places. -/
theorem cut_list (data : List UInt8) (o n : Nat) (h : o + n ≤ data.length) :
    ∃ before after, data = before ++ (data.drop o).take n ++ after ∧ before.length = o ∧
      ((data.drop o).take n).length = n := by
  refine ⟨data.take o, (data.drop o).drop n, ?_, by rw [List.length_take]; omega,
    by rw [List.length_take, List.length_drop]; omega⟩
  rw [List.append_assoc, List.take_append_drop, List.take_append_drop]

theorem imageBytes_size (b : Bitpix) (ns : List Nat) :
    imageBytes b ns = (if ns = [] then 0 else product ns) * pixelSize b := by
  unfold imageBytes
  split
  · simp
  · rw [Nat.mul_comm]
    cases b <;> rfl

/-- **C29, C30, end to end.** When the iterator of HDUs returns a primary HDU or an image extension whose data unit
is in the file, `get_data` gives an iterator over exactly as many pixels as the product of the axes; their bytes
are the data unit, and any sequence of `next` and `read_value` calls returns them.  The last hypothesis is C22. -/
theorem C29_image {p : Profile} {f f' : Fits} {x : Hdu Image} {h : HDU}
    (hx : h = .primary x ∨ h = .image x) (hn : f.next p = (some (.ok h), f'))
    (hs : x.header.xtension.numBytes p = .ok (imageBytes x.header.xtension.bitpix x.header.xtension.naxisn))
    (hc : x.dataOffset + imageBytes x.header.xtension.bitpix x.header.xtension.naxisn ≤ f.rd.data.length)
    (hl : f.rd.data.length < 2 ^ 63) :
    ∃ d ps, f'.getImage p x = .ok d ∧ (∀ v ∈ ps, PixelOk x.header.xtension.bitpix v) ∧
      ps.length = (if x.header.xtension.naxisn = [] then 0 else product x.header.xtension.naxisn) ∧
      arrayBytes ps = (f.rd.data.drop x.dataOffset).take
        (imageBytes x.header.xtension.bitpix x.header.xtension.naxisn) ∧
      (∀ ops, d.pixels.run p ops = pixelRun ps 0 ops) ∧
      ∀ k, d.pixels.run p (List.replicate k .next) = (List.range k).map fun i => .item ps[i]? := by
  obtain ⟨h1, h2, h3, -⟩ := next_ok_state hn
  have hoff : h.dataOffset = x.dataOffset := by rcases hx with rfl | rfl <;> rfl
  rw [hoff] at h2 h3
  obtain ⟨before, after, e1, e2, e3⟩ := cut_list _ _ _ hc
  have hsz := imageBytes_size x.header.xtension.bitpix x.header.xtension.naxisn
  obtain ⟨ps, g1, g2, g3⟩ := exists_pixels x.header.xtension.bitpix _ _ (e3.trans hsz)
  have hpx : (It.new x.header.xtension.bitpix f'.rd
      (imageBytes x.header.xtension.bitpix x.header.xtension.naxisn)) =
      It.new x.header.xtension.bitpix ⟨before ++ arrayBytes ps ++ after, before.length⟩ (arrayBytes ps).length := by
    rw [g2, e3, ← e1, e2, ← h1, ← h2]
  have hf : before.length + (arrayBytes ps).length < 2 ^ 63 := by rw [g2, e3, e2]; omega
  refine ⟨_, ps, by unfold Fits.getImage ImageData.new; rw [hs, h3]; rfl, g1, g3, g2, fun ops => ?_, fun k => ?_⟩
  · dsimp only
    rw [hpx]; exact C30_random_access g1 _ _ hf ops
  · dsimp only
    rw [hpx]; exact C29_pixels g1 _ _ hf k

/-- The HDUs of the sample file, with their types. -/
def samplePrimaryImage : Hdu Image :=
  { header :=
      { cards := samplePrimaryHdu.cards, values := samplePrimaryHdu.values
        xtension := { bitpix := .u8, naxisn := [10] } }
    dataOffset := 2880 }

def sampleSecondImage : Hdu Image :=
  { header :=
      { cards := sampleImageHdu.cards, values := sampleImageHdu.values
        xtension := { bitpix := .i16, naxisn := [2, 3] } }
    dataOffset := 8640 }

/-- The iterator after the two HDUs of the sample file have been returned. -/
def sampleEnd : Fits :=
  { start := false, posStart := 8640, numBytes := 12, errored := false, rd := ⟨sampleFile, 8640⟩ }

theorem sample_calls (p : Profile) :
    (Fits.fromReader ⟨sampleFile, 0⟩).next p = (some (.ok (.primary samplePrimaryImage)), sampleAfterPrimary sampleFile) ∧
    (sampleAfterPrimary sampleFile).next p = (some (.ok (.image sampleSecondImage)), sampleEnd) := by
  have h1 := sample_first p sampleFile (.inl rfl)
  have h2 := sample_second p 0
  rw [sample_read] at h2
  exact ⟨h1, h2⟩

theorem sample_fits (p : Profile) :
    sampleSecondImage.header.xtension.numBytes p = .ok 12 ∧
    sampleSecondImage.dataOffset + 12 ≤ (sampleAfterPrimary sampleFile).rd.data.length ∧
    (sampleAfterPrimary sampleFile).rd.data.length < 2 ^ 63 := by
  cases p <;> decide +kernel

example (p : Profile) : ∃ d ps, sampleEnd.getImage p sampleSecondImage = .ok d ∧ ps.length = 6 ∧
    ∀ ops, d.pixels.run p ops = pixelRun ps 0 ops := by
  obtain ⟨d, ps, h1, -, h2, -, h3, -⟩ := C29_image (p := p) (f := sampleAfterPrimary sampleFile)
    (f' := sampleEnd) (x := sampleSecondImage) (h := .image sampleSecondImage) (.inr rfl)
    (sample_calls p).2 (sample_fits p).1 (sample_fits p).2.1 (sample_fits p).2.2
  exact ⟨d, ps, h1, h2, h3⟩

/-! ## C31 -/

/-- A prefix of the bytes of an array holds some whole pixels and less than one more. -/
theorem avail_cut {b : Bitpix} {ps : List Pixel} (h : ∀ v ∈ ps, PixelOk b v) (before : List UInt8) (k : Nat)
    (hk : k < (arrayBytes ps).length) (hf : before.length + (arrayBytes ps).length < 2 ^ 63) :
    Avail b (before ++ (arrayBytes ps).take k) before.length ps.length (ps.take (k / pixelSize b)) := by
  have hl := arrayBytes_length h
  have hp := pixelSize_pos b
  have hm : k / pixelSize b * pixelSize b ≤ k := Nat.div_mul_le_self _ _
  have hm2 : k < (k / pixelSize b + 1) * pixelSize b := by
    rw [Nat.mul_comm]; exact Nat.lt_mul_div_succ k hp
  have hok : ∀ v ∈ ps.take (k / pixelSize b), PixelOk b v := fun v hv => h v (List.mem_of_mem_take hv)
  have hlt : k / pixelSize b < ps.length := by
    apply Nat.lt_of_mul_lt_mul_right (a := pixelSize b); omega
  have hl2 := arrayBytes_length hok
  rw [List.length_take, Nat.min_eq_left (by omega)] at hl2
  have e : arrayBytes ps = arrayBytes (ps.take (k / pixelSize b)) ++ arrayBytes (ps.drop (k / pixelSize b)) := by
    unfold arrayBytes
    rw [← List.flatMap_append, List.take_append_drop]
  refine ⟨hok, by rw [List.length_take]; omega,
    ⟨before, (arrayBytes (ps.drop (k / pixelSize b))).take (k - (arrayBytes (ps.take (k / pixelSize b))).length),
      ?_, rfl, fun _ => ?_⟩, by omega⟩
  · rw [List.append_assoc, e, List.take_append, List.take_of_length_le (l := arrayBytes (ps.take _)) (by omega)]
  · rw [List.length_take]
    rw [Nat.succ_mul] at hm2
    omega

/-- **C31**, the full statement, which the code does not meet: over a file that ends inside the data unit, no
sequence of operations ever returns a wrong pixel. -/
def C31_statement : Prop :=
  ∀ (p : Profile) (b : Bitpix) (ps : List Pixel) (before : List UInt8) (k : Nat), (∀ v ∈ ps, PixelOk b v) →
    k < (arrayBytes ps).length → before.length + (arrayBytes ps).length < 2 ^ 63 →
    ∀ (ops : List PixelOp) (i : Nat) (v : Pixel),
      ((It.after p (It.new b ⟨before ++ (arrayBytes ps).take k, before.length⟩ (arrayBytes ps).length) ops).readValue
        p i).1 = .ok v → ps[i]? = some v

theorem run_dead {p : Profile} (j : Nat) {it : It} (h : it.rd.data.length ≤ it.rd.pos) :
    It.run p it (List.replicate j .next) = List.replicate j (.item none) := by
  induction j generalizing it with
  | zero => rfl
  | succ j ih =>
    obtain ⟨it', e, h'⟩ := next_dead h
    simp only [List.replicate_succ, It.run, It.step, e]
    rw [ih h']

/-- The first operation that asks for a missing pixel. -/
theorem step_missing {p : Profile} {b : Bitpix} {data : List UInt8} {start n : Nat} {ps : List Pixel} (h : Avail b data start n ps)
    (c : Nat) (hc : c ≤ ps.length) (o : PixelOp) (hm : asksMissing ps n c [o]) :
    ((itAt b data start n c).step p o).1 = (pixelStep ps c o).1 ∧ (pixelStep ps c o).2 = c ∧
      (o = .next → c = ps.length) ∧
      ((itAt b data start n c).step p o).2.rd.data.length ≤ ((itAt b data start n c).step p o).2.rd.pos := by
  cases o with
  | next =>
    simp only [asksMissing, or_false] at hm
    obtain ⟨it, e, -, h2, h3⟩ := next_missing h hm.1 hm.2
    rw [show pixelStep ps c .next = (.item none, c) by
      simp only [pixelStep, if_neg (by omega : ¬ c < ps.length)]
      rw [List.getElem?_eq_none (by omega)]]
    simp only [It.step, e]
    exact ⟨trivial, trivial, fun _ => by omega, by rw [h2]; exact h3⟩
  | read i =>
    simp only [asksMissing, or_false] at hm
    obtain ⟨er, it, e, h3⟩ := read_missing (p := p) h (c := c) (by have := h.le; omega) hm.1 hm.2
    rw [show pixelStep ps c (.read i) = (.value none, c) by
      simp only [pixelStep, if_neg (by omega : ¬ i < ps.length)]
      rw [List.getElem?_eq_none (by omega)]]
    simp only [It.step, e]
    exact ⟨trivial, trivial, by simp, h3⟩

theorem run_nexts {p : Profile} {b : Bitpix} {data : List UInt8} {start n : Nat} {ps : List Pixel} (h : Avail b data start n ps)
    (j c : Nat) (hc : c ≤ ps.length) :
    It.run p (itAt b data start n c) (List.replicate j .next) = pixelRun ps c (List.replicate j .next) := by
  induction j generalizing c with
  | zero => rfl
  | succ j ih =>
    rw [List.replicate_succ]
    by_cases hm : asksMissing ps n c [.next]
    · obtain ⟨g1, g2, g3, g4⟩ := step_missing h c hc _ hm
      rw [It.run, pixelRun, g1, run_dead _ g4, g2, pixelRun_nexts _ _ _ hc, g3 rfl]
      congr 1
      apply List.ext_getElem
      · simp
      · intro i h1 h2
        simp
    · obtain ⟨g1, g2⟩ := step_avail h .next c hc hm
      rw [It.run, pixelRun, g2, ih _ g1]

/-- **C31, partial.** Over a file that ends inside the data unit, where `k / size` pixels remain: as long as no
missing pixel has been asked for, the results are those expected of the pixels that remain, and so is the result of
the first operation that asks for a missing one; after it `next` returns `None` for ever.  Missing: `read_value`
after an operation that asked for a missing pixel. -/
theorem C31_partial {p : Profile} {b : Bitpix} {ps : List Pixel} (h : ∀ v ∈ ps, PixelOk b v) (before : List UInt8) (k : Nat)
    (hk : k < (arrayBytes ps).length) (hf : before.length + (arrayBytes ps).length < 2 ^ 63) (ops : List PixelOp)
    (hm : ¬ asksMissing (ps.take (k / pixelSize b)) ps.length 0 ops) (o : PixelOp) (j : Nat) :
    let it := It.new b ⟨before ++ (arrayBytes ps).take k, before.length⟩ (arrayBytes ps).length
    let left := ps.take (k / pixelSize b)
    it.run p (ops ++ [o]) = pixelRun left 0 (ops ++ [o]) ∧
    (asksMissing left ps.length 0 (ops ++ [o]) →
      it.run p (ops ++ [o] ++ List.replicate j .next) =
        pixelRun left 0 (ops ++ [o]) ++ List.replicate j (.item none)) := by
  have hav := avail_cut h before k hk hf
  intro it left
  have hit : it = itAt b (before ++ (arrayBytes ps).take k) before.length ps.length 0 := itAt_zero (arrayBytes_length h)
  obtain ⟨g1, g2, g3⟩ := run_avail hav ops 0 (by omega) hm
  have g3' : it.run p ops = pixelRun left 0 ops := by rw [hit]; exact g3
  have g2' : it.after p ops = itAt b (before ++ (arrayBytes ps).take k) before.length ps.length (pixelAfter left 0 ops) := by
    rw [hit]; exact g2
  have hone : it.run p (ops ++ [o]) = pixelRun left 0 (ops ++ [o]) := by
    rw [It.run_append, pixelRun_append, g3', g2']
    congr 1
    by_cases hmo : asksMissing left ps.length (pixelAfter left 0 ops) [o]
    · rw [It.run, pixelRun, (step_missing hav _ g1 o hmo).1]; rfl
    · rw [It.run, pixelRun, (step_avail hav o _ g1 hmo).2]; rfl
  refine ⟨hone, fun hmo => ?_⟩
  have hmo' : asksMissing left ps.length (pixelAfter left 0 ops) [o] := by
    have : ∀ (os : List PixelOp) (c : Nat), asksMissing left ps.length c (os ++ [o]) →
        ¬ asksMissing left ps.length c os → asksMissing left ps.length (pixelAfter left c os) [o] := by
      intro os
      induction os with
      | nil => intro c h _; exact h
      | cons o' os ih =>
        intro c h1 h2
        rw [List.cons_append, asksMissing_cons] at h1
        rw [asksMissing_cons, not_or] at h2
        exact ih _ (h1.resolve_left h2.1) h2.2
    exact this ops 0 hmo hm
  rw [It.run_append, hone, It.after_append, g2', It.after, It.after,
    run_dead _ (step_missing hav _ g1 o hmo').2.2.2]

/-- **C31, iteration.** Iterating over a file that ends inside the data unit gives the pixels that are entirely in
the file, then `None` for ever. -/
theorem C31_iterate {p : Profile} {b : Bitpix} {ps : List Pixel} (h : ∀ v ∈ ps, PixelOk b v) (before : List UInt8) (k : Nat)
    (hk : k < (arrayBytes ps).length) (hf : before.length + (arrayBytes ps).length < 2 ^ 63) (j : Nat) :
    It.run p (It.new b ⟨before ++ (arrayBytes ps).take k, before.length⟩ (arrayBytes ps).length)
        (List.replicate j .next) =
      (List.range j).map fun i => .item (ps.take (k / pixelSize b))[i]? := by
  rw [itAt_zero (arrayBytes_length h), run_nexts (avail_cut h before k hk hf) j 0 (by omega),
    pixelRun_nexts _ _ _ (by omega)]
  simp

example : It.run p (It.new .i16 ⟨[9] ++ (arrayBytes [.i16 1, .i16 (-2), .i16 300]).take 3, 1⟩ 6)
    (List.replicate 4 .next) =
    [.item (some (.i16 1)), .item none, .item none, .item none] :=
  (C31_iterate (b := .i16) (ps := [.i16 1, .i16 (-2), .i16 300]) (by decide +kernel) [9] 3 (by decide +kernel)
    (by decide +kernel) 4).trans (by decide +kernel)

example : It.run p (It.new .i16 ⟨[9] ++ [0, 1, 255, 254, 1], 1⟩ 6) ([.read 1, .read 0, .read 7] ++ [.read 2]) =
    [.value (some (.i16 (-2))), .value (some (.i16 1)), .value none, .value none] :=
  (C31_partial (ps := [.i16 1, .i16 (-2), .i16 300]) (by decide +kernel) [9] 5 (by decide +kernel) (by decide +kernel)
    [.read 1, .read 0, .read 7] (by simp [asksMissing, pixelSize]) (.read 2) 0).1

/-- **C31 fails**: once a missing pixel has been asked for, `read_value` may return a wrong pixel.  Here an image of
four bytes `1, 2, 3, 4` preceded by a byte 9, in a file that ends after `2`: after three calls of `next`,
`read_value(0)` returns 9, a byte outside the data unit. -/
theorem C31_fails : ¬ C31_statement := by
  intro h
  have := h .checked .u8 [.u8 1, .u8 2, .u8 3, .u8 4] [9] 2 (by decide +kernel) (by decide +kernel) (by decide +kernel)
    [.next, .next, .next] 0 (.u8 9) (by decide +kernel)
  exact absurd this (by decide +kernel)

/-! ## C32 -/

theorem Reader.readExact_keeps {r : Reader} {n : Nat} : (r.readExact n).2.data = r.data := by
  unfold Reader.readExact
  dsimp only
  split <;> rfl

theorem slice_ok {p : Profile} {data : List UInt8} {s n : Nat} (h : s + n ≤ data.length)
    (hl : data.length < 2 ^ 64) : slice p data s n = .ok ((data.drop s).take n) := by
  unfold slice
  rw [uadd_ok (by unfold two64; omega)]
  simp only [Res.bind_ok]
  rw [if_pos ⟨by omega, h⟩, Nat.add_sub_cancel_left]

theorem It.next_rd (it : It) : it.next.2.rd.data = it.rd.data := by
  have := Reader.readExact_keeps (r := it.rd) (n := it.ty.byteSize)
  unfold It.next
  split
  · rfl
  · split <;> simp_all

theorem Reader.seekRelative_data {r : Reader} {o : Int} : (r.seekRelative o).2.data = r.data := by
  unfold Reader.seekRelative
  dsimp only
  split <;> rfl

theorem It.readValue_rd (p : Profile) (it : It) (i : Nat) : (it.readValue p i).2.rd.data = it.rd.data := by
  unfold It.readValue
  split
  · rfl
  cases it.readOffset p i with
  | err e => rfl
  | panic => rfl
  | ok off =>
    dsimp only
    unfold It.readAt
    have hs := Reader.seekRelative_data (r := it.rd) (o := off)
    split
    · rename_i u rd hrd
      rw [hrd] at hs
      have hnx := It.next_rd { it with rd, cur := i }
      split <;> rename_i hq <;> rw [hq] at hnx <;> exact hnx.trans hs
    · rename_i hrd; rw [hrd] at hs; exact hs
    · rename_i hrd; rw [hrd] at hs; exact hs

theorem It.after_rd (p : Profile) (ops : List PixelOp) (it : It) : (it.after p ops).rd.data = it.rd.data := by
  induction ops generalizing it with
  | nil => rfl
  | cons o ops ih =>
    rw [It.after, ih]
    cases o with
    | next => exact It.next_rd it
    | read i => exact It.readValue_rd p it i

/-- **C32, images.** When the iterator of HDUs returns a primary HDU or an image extension whose data unit is in
memory, `raw_bytes` gives exactly the bytes of the data unit, wherever the reader stands and whatever pixels are
read before. -/
theorem C32_image {p : Profile} {f f' : Fits} {x : Hdu Image} {h : HDU} {n : Nat}
    (hx : h = .primary x ∨ h = .image x) (hn : f.next p = (some (.ok h), f'))
    (hs : x.header.xtension.numBytes p = .ok n) (hc : x.dataOffset + n ≤ f.rd.data.length)
    (hl : f.rd.data.length < 2 ^ 64) (k : Nat) (ops : List PixelOp) :
    ∃ d, (readData k f').getImage p x = .ok d ∧
      { d with pixels := d.pixels.after p ops }.rawBytes p = .ok ((f.rd.data.drop x.dataOffset).take n) := by
  obtain ⟨h1, -, h3, -⟩ := next_ok_state hn
  have hoff : h.dataOffset = x.dataOffset := by rcases hx with rfl | rfl <;> rfl
  rw [hoff] at h3
  refine ⟨_, by unfold Fits.getImage ImageData.new; rw [hs]; rfl, ?_⟩
  show slice p ((It.new _ (readData k f').rd n).after p ops).rd.data f'.posStart n = _
  rw [It.after_rd, h3]
  show slice p f'.rd.data _ _ = _
  rw [h1]
  exact slice_ok hc hl

example (p : Profile) (k : Nat) (ops : List PixelOp) : ∃ d, (readData k sampleEnd).getImage p sampleSecondImage = .ok d ∧
    ∃ bs, { d with pixels := d.pixels.after p ops }.rawBytes p = .ok bs := by
  obtain ⟨d, h1, h2⟩ := C32_image (p := p) (f := sampleAfterPrimary sampleFile) (f' := sampleEnd)
    (x := sampleSecondImage) (h := .image sampleSecondImage) (n := 12) (.inr rfl)
    (sample_calls p).2 (sample_fits p).1 (sample_fits p).2.1
    (by have := (sample_fits p).2.2; omega) k ops
  exact ⟨d, h1, _, h2⟩

/-! ## C54 -/

/-- What remains of the HDU iterator when the pixels are dropped: they borrow its reader. -/
def Fits.putBack (f : Fits) (d : ImageData) : Fits := { f with rd := d.pixels.rd }

/-- **C54**, the full statement, which the code does not meet: `get_data` on the current HDU gives the data unit from
its start, whatever was read before. -/
def C54_statement : Prop :=
  ∀ (p : Profile) (f f' : Fits) (x : Hdu Image) (d : ImageData) (ops : List PixelOp),
    f.next p = (some (.ok (.primary x)), f') → f'.getImage p x = .ok d →
    (f'.putBack { d with pixels := d.pixels.after p ops }).getImage p x = .ok d

/-- **C54, partial.** If nothing has been read, `get_data` again gives the data unit from its start; in every case
the extent used by `raw_bytes` is the right one.  Missing: the case where something has been read. -/
theorem C54_partial {p : Profile} {f : Fits} {x : Hdu Image} {d : ImageData} (hd : f.getImage p x = .ok d)
    (ops : List PixelOp) :
    (f.putBack d).getImage p x = .ok d ∧
    ∃ d', (f.putBack { d with pixels := d.pixels.after p ops }).getImage p x = .ok d' ∧
      d'.startPos = d.startPos ∧ d'.numBytes = d.numBytes ∧ d'.rawBytes p = d.rawBytes p := by
  unfold Fits.getImage ImageData.new at hd
  obtain ⟨n, hn, hd⟩ := Res.bind_eq_ok.1 hd
  simp only [Res.ok.injEq] at hd
  subst hd
  refine ⟨?_, ⟨_, _, It.new x.header.xtension.bitpix ((It.new x.header.xtension.bitpix f.rd n).after p ops).rd n⟩, ?_,
    rfl, rfl, ?_⟩
  · unfold Fits.getImage ImageData.new
    rw [hn]; rfl
  · unfold Fits.getImage ImageData.new
    rw [hn]; rfl
  · unfold ImageData.rawBytes
    dsimp only [Fits.putBack, It.new]
    rw [It.after_rd]

set_option maxRecDepth 20000 in
/-- **C54 fails**: after one pixel of the primary image of the sample file has been read, `get_data` starts at the
second pixel. -/
theorem C54_fails : ¬ C54_statement := by
  intro h
  have := h .checked _ _ samplePrimaryImage ⟨2880, 10, ⟨.u8, ⟨sampleFile, 2880⟩, 10, 0⟩⟩ [.next]
    (sample_calls .checked).1 (by decide +kernel)
  exact absurd this (by decide +kernel)

/-! ## C56 -/

/-- **C56**, the full statement, which the code does not meet: `get_data` on an HDU returned earlier gives access to
the data unit of that HDU. -/
def C56_statement : Prop :=
  ∀ (p : Profile) (data : List UInt8) (f0 f1 f2 : Fits) (x y : Hdu Image),
    f0 = Fits.fromReader ⟨data, 0⟩ → f0.next p = (some (.ok (.primary x)), f1) →
    f1.next p = (some (.ok (.image y)), f2) →
    ∃ d n, x.header.xtension.numBytes p = .ok n ∧ f2.getImage p x = .ok d ∧
      d.rawBytes p = .ok ((data.drop x.dataOffset).take n)

/-- **C56, partial.** For the last HDU returned this holds, if its data unit is in the file. -/
theorem C56_partial {p : Profile} {f f' : Fits} {x : Hdu Image} {h : HDU} {n : Nat}
    (hx : h = .primary x ∨ h = .image x) (hn : f.next p = (some (.ok h), f'))
    (hs : x.header.xtension.numBytes p = .ok n) (hc : x.dataOffset + n ≤ f.rd.data.length)
    (hl : f.rd.data.length < 2 ^ 64) :
    ∃ d, f'.getImage p x = .ok d ∧ d.rawBytes p = .ok ((f.rd.data.drop x.dataOffset).take n) ∧
      d.pixels.rd.pos = x.dataOffset := by
  obtain ⟨h1, h2, h3, -⟩ := next_ok_state hn
  have hoff : h.dataOffset = x.dataOffset := by rcases hx with rfl | rfl <;> rfl
  rw [hoff] at h2 h3
  refine ⟨_, by unfold Fits.getImage ImageData.new; rw [hs]; rfl, ?_, h2⟩
  show slice p f'.rd.data f'.posStart n = _
  rw [h1, h3]
  exact slice_ok hc hl

set_option maxRecDepth 20000 in
/-- **C56 fails**: on the sample file, once the second HDU has been returned, `get_data` on the first one gives bytes
of the second. -/
theorem C56_fails : ¬ C56_statement := by
  intro h
  obtain ⟨d, n, h1, h2, h3⟩ := h .checked sampleFile _ _ _ _ _ rfl (sample_calls _).1 (sample_calls _).2
  have e1 : samplePrimaryImage.header.xtension.numBytes .checked = .ok 10 := by decide +kernel
  rw [e1] at h1
  have e2 : sampleEnd.getImage .checked samplePrimaryImage =
      .ok ⟨8640, 10, ⟨.u8, ⟨sampleFile, 8640⟩, 10, 0⟩⟩ := by decide +kernel
  rw [e2] at h2
  cases h1
  cases h2
  exact absurd h3 (by decide +kernel)

end Fitsrs

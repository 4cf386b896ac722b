import Verif.Props.C29_C32
/-
C31, C54 and C56, exactly: what is read after the end of a truncated file has been met, from a data unit that is opened
again, and from an HDU returned earlier.
-/

namespace Fitsrs
open Spec

/-! ## C31 -/

/-- The iterator after `f` calls of `next` beyond the end of the file. -/
theorem after_end {p : Profile} {b : Bitpix} {data : List UInt8} {n : Nat} (f : Nat) : ∀ c, c + f ≤ n →
    It.after p ⟨b, ⟨data, data.length⟩, n, c⟩ (List.replicate f .next) = ⟨b, ⟨data, data.length⟩, n, c + f⟩ := by
  induction f with
  | zero => intro c _; rfl
  | succ f ih =>
    intro c hc
    rw [List.replicate_succ, It.after]
    have : (It.step p ⟨b, ⟨data, data.length⟩, n, c⟩ .next).2 = ⟨b, ⟨data, data.length⟩, n, c + 1⟩ := by
      unfold It.step
      dsimp only
      unfold It.next
      dsimp only
      have hp := pixelSize_pos b
      rw [if_neg (by omega), byteSize_eq, read_truncated hp (by omega)]
      dsimp only
      rw [Nat.max_self]
    rw [this, ih _ (by omega), Nat.add_assoc, Nat.add_comm 1 f]

/-- **C31**, exactly, after the end of the file has been met: a file ends `k` bytes after the start of the data unit, inside
it; `next` has been called until it returned `None` `f` times.  Then `read_value(i)` returns the value of the bytes that
stand at the place of pixel `i - f`, shifted by the bytes of the pixel that is cut. -/
theorem C31_shift {p : Profile} {b : Bitpix} {ps : List Pixel} (h : ∀ v ∈ ps, PixelOk b v) (before : List UInt8) (k : Nat)
    (hk : k < (arrayBytes ps).length) (hf : before.length + (arrayBytes ps).length < 2 ^ 63) {f i : Nat} (hf0 : 0 < f)
    (hn : k / pixelSize b + f ≤ ps.length) (hi : f ≤ i) (hi2 : i < k / pixelSize b + f) :
    ∃ v, PixelOk b v ∧ pixelBytes v = ((arrayBytes ps).drop ((i - f) * pixelSize b + k % pixelSize b)).take (pixelSize b) ∧
      ((It.after p (It.new b ⟨before ++ (arrayBytes ps).take k, before.length⟩ (arrayBytes ps).length)
        (List.replicate (k / pixelSize b + f) .next)).readValue p i).1 = .ok v := by
  have hp := pixelSize_pos b
  have hl := arrayBytes_length h
  have hav := avail_cut h before k hk hf
  have hdm := Nat.div_add_mod k (pixelSize b)
  have hmod := Nat.mod_lt k hp
  rw [Nat.mul_comm] at hdm
  generalize hq : k / pixelSize b = q at *
  generalize hρ : k % pixelSize b = ρ at *
  have hlq : (ps.take q).length = q := by rw [List.length_take]; omega
  have hdata : (before ++ (arrayBytes ps).take k).length = before.length + k := by
    rw [List.length_append, List.length_take]; omega
  -- the pixels in the file
  have e1 : It.after p (It.new b ⟨before ++ (arrayBytes ps).take k, before.length⟩ (arrayBytes ps).length)
      (List.replicate q .next) = itAt b (before ++ (arrayBytes ps).take k) before.length ps.length q := by
    rw [itAt_zero hl]
    have : ∀ j c, c + j ≤ q → It.after p (itAt b (before ++ (arrayBytes ps).take k) before.length ps.length c)
        (List.replicate j .next) = itAt b (before ++ (arrayBytes ps).take k) before.length ps.length (c + j) := by
      intro j
      induction j with
      | zero => intro c _; rfl
      | succ j ih =>
        intro c hc
        rw [List.replicate_succ, It.after]
        have : (It.step p (itAt b (before ++ (arrayBytes ps).take k) before.length ps.length c) .next).2 =
            itAt b (before ++ (arrayBytes ps).take k) before.length ps.length (c + 1) := by
          unfold It.step
          dsimp only
          rw [next_avail hav (show c < (ps.take q).length by omega)]
        rw [this, ih _ (by omega), Nat.add_assoc, Nat.add_comm 1 j]
    rw [this q 0 (by omega), Nat.zero_add]
  -- the first that is not
  have e2 : It.after p (itAt b (before ++ (arrayBytes ps).take k) before.length ps.length q) (List.replicate f .next) =
      ⟨b, ⟨before ++ (arrayBytes ps).take k, (before ++ (arrayBytes ps).take k).length⟩, ps.length, q + f⟩ := by
    obtain ⟨f, rfl⟩ : ∃ g, f = g + 1 := ⟨f - 1, by omega⟩
    rw [List.replicate_succ, It.after]
    have : (It.step p (itAt b (before ++ (arrayBytes ps).take k) before.length ps.length q) .next).2 =
        ⟨b, ⟨before ++ (arrayBytes ps).take k, (before ++ (arrayBytes ps).take k).length⟩, ps.length, q + 1⟩ := by
      unfold It.step
      dsimp only
      unfold It.next itAt
      dsimp only
      rw [if_neg (by omega), byteSize_eq, read_truncated hp (by omega)]
      dsimp only
      rw [Nat.max_eq_right (by omega)]
    rw [this, after_end f _ (by omega), Nat.add_assoc, Nat.add_comm 1 f]
  rw [List.replicate_append_replicate.symm, It.after_append, e1, e2]
  -- the value
  have hmi : (i - f) * pixelSize b + (q + f - i) * pixelSize b = q * pixelSize b := by
    rw [← Nat.add_mul]; congr 1; omega
  have hpos : 1 * pixelSize b ≤ (q + f - i) * pixelSize b := Nat.mul_le_mul_right _ (by omega)
  have hsize : (q + f - i) * 1 ≤ (q + f - i) * pixelSize b := Nat.mul_le_mul_left _ hp
  have hnn : ps.length * 1 ≤ ps.length * pixelSize b := Nat.mul_le_mul_left _ hp
  obtain ⟨v1, v2⟩ := ofBytes_ok b (((arrayBytes ps).drop ((i - f) * pixelSize b + ρ)).take (pixelSize b)) (by
    rw [List.length_take, List.length_drop]; omega)
  refine ⟨_, v1, v2, ?_⟩
  have hoff : ((i : Int) - ((q + f : Nat) : Int)) * pixelSize b = -(((q + f - i) * pixelSize b : Nat) : Int) := by
    rw [Int.natCast_mul, ← Int.neg_mul]
    congr 1
    omega
  unfold It.readValue
  dsimp only
  rw [if_neg (by omega)]
  have hro : It.readOffset p i ⟨b, ⟨before ++ (arrayBytes ps).take k, (before ++ (arrayBytes ps).take k).length⟩, ps.length, q + f⟩ =
      .ok (-(((q + f - i) * pixelSize b : Nat) : Int)) := by
    unfold It.readOffset
    dsimp only
    rw [byteSize_eq, asI64_lt (by omega), asI64_lt (by omega), i64op_fits ⟨by omega, by omega⟩]
    simp only [Res.bind_ok]
    rw [hoff]
    exact i64op_fits ⟨by omega, by omega⟩
  rw [hro]
  dsimp only
  unfold It.readAt Reader.seekRelative
  dsimp only
  rw [hdata]
  generalize hL : (q + f - i) * pixelSize b = L at *
  rw [if_pos ⟨by omega, by unfold two64; omega⟩]
  dsimp only
  have hq2 : ((before.length + k : Nat) : Int) + -(L : Int) = ((before.length + ((i - f) * pixelSize b + ρ) : Nat) : Int) := by omega
  rw [hq2, Int.toNat_natCast]
  unfold It.next
  dsimp only
  rw [if_neg (by omega), byteSize_eq, Reader.readExact_of_le (by dsimp only; omega)]
  dsimp only
  congr 2
  rw [← List.drop_drop, List.drop_left, List.drop_take, List.take_take, Nat.min_eq_left (by omega)]

/-- **C31**, exactly, if the file ends between two pixels: after `next` has returned `None` `f` times, `read_value(i)`
returns pixel `i - f`. -/
theorem C31_shift_whole {p : Profile} {b : Bitpix} {ps : List Pixel} (h : ∀ v ∈ ps, PixelOk b v) (before : List UInt8)
    (hf : before.length + (arrayBytes ps).length < 2 ^ 63) {q f i : Nat} (hf0 : 0 < f)
    (hn : q + f ≤ ps.length) (hi : f ≤ i) (hi2 : i < q + f) :
    ((It.after p (It.new b ⟨before ++ arrayBytes (ps.take q), before.length⟩ (arrayBytes ps).length)
      (List.replicate (q + f) .next)).readValue p i).1 = .ok ps[i - f] := by
  have hp := pixelSize_pos b
  have hl := arrayBytes_length h
  have ht : arrayBytes (ps.take q) = (arrayBytes ps).take (q * pixelSize b) := by
    have h1 := arrayBytes_length (b := b) (ps := ps.take q) fun v hv => h v (List.mem_of_mem_take hv)
    rw [List.length_take, Nat.min_eq_left (by omega)] at h1
    have h2 : arrayBytes ps = arrayBytes (ps.take q) ++ arrayBytes (ps.drop q) := by
      unfold arrayBytes
      rw [← List.flatMap_append, List.take_append_drop]
    rw [h2, ← h1, List.take_left]
  have hlt : q * pixelSize b < ps.length * pixelSize b := Nat.mul_lt_mul_of_pos_right (by omega) hp
  obtain ⟨v, hv, h2, h3⟩ := C31_shift (p := p) h before (q * pixelSize b) (by omega) hf hf0
    (by rw [Nat.mul_div_cancel _ hp]; exact hn) hi (by rw [Nat.mul_div_cancel _ hp]; exact hi2)
  rw [Nat.mul_mod_left, Nat.add_zero, arrayBytes_get h (i - f) (by omega)] at h2
  rw [Nat.mul_div_cancel _ hp] at h3
  rw [ht, h3]
  congr 1
  have e1 := ofBytes_pixelBytes (h _ (List.getElem_mem (show i - f < ps.length by omega)))
  rw [← e1, ← h2, ofBytes_pixelBytes hv]

/-- An image of six shorts of which three are in the file: after `next` has returned `None` twice, `read_value(4)` returns
pixel 2. -/
example : ((It.after p (It.new .i16 ⟨[9] ++ [0, 1, 0, 2, 0, 3], 1⟩ 12) (List.replicate 5 .next)).readValue p 4).1 =
    .ok (.i16 3) :=
  C31_shift_whole (b := .i16) (ps := [.i16 1, .i16 2, .i16 3, .i16 4, .i16 5, .i16 6]) (by decide) [9] (by decide +kernel)
    (q := 3) (f := 2) (i := 4) (by decide) (by decide) (by decide) (by decide)

/-- With one byte more, it returns a value made of two pixels. -/
example : ((It.after p (It.new .i16 ⟨[9] ++ [0, 1, 0, 2, 0, 3, 0], 1⟩ 12) (List.replicate 5 .next)).readValue p 4).1 =
    .ok (.i16 768) := by
  obtain ⟨v, h1, h2, h3⟩ := C31_shift (p := p) (b := .i16) (ps := [.i16 1, .i16 2, .i16 3, .i16 4, .i16 5, .i16 6]) (by decide)
    [9] 7 (by decide +kernel) (by decide +kernel) (f := 2) (i := 4) (by decide) (by decide) (by decide) (by decide)
  have h4 : v = .i16 768 := by
    rw [← ofBytes_pixelBytes h1, h2]
    decide +kernel
  rw [← h4]
  exact h3

/-! ## C54 -/

/-- **C54**, exactly, after any operations: `get_data` again gives the image as if its first pixel were the one after the
last one read, and as many pixels as before, the last ones being taken from the bytes after the data unit. -/
theorem C54_exact {p : Profile} {f : Fits} {x : Hdu Image} {d : ImageData} {ps qs : List Pixel} {before after : List UInt8}
    {ops : List PixelOp} (h : ∀ v ∈ ps, PixelOk x.header.xtension.bitpix v) (h' : ∀ v ∈ qs, PixelOk x.header.xtension.bitpix v)
    (hr : f.rd = ⟨before ++ arrayBytes ps ++ (arrayBytes qs ++ after), before.length⟩)
    (hn : x.header.xtension.numBytes p = .ok (arrayBytes ps).length)
    (hq : qs.length = pixelAfter ps 0 ops)
    (hf : before.length + (arrayBytes ps).length + (arrayBytes qs).length < 2 ^ 63)
    (hd : f.getImage p x = .ok d) :
    ∃ d', (f.putBack { d with pixels := d.pixels.after p ops }).getImage p x = .ok d' ∧
      ∀ ops', d'.pixels.run p ops' = pixelRun (ps.drop qs.length ++ qs) 0 ops' := by
  generalize hb : x.header.xtension.bitpix = b at h h'
  have hl := arrayBytes_length h
  have hl' := arrayBytes_length h'
  unfold Fits.getImage ImageData.new at hd
  rw [hn, hb, hr] at hd
  simp only [Res.bind_ok, Res.ok.injEq] at hd
  subst hd
  refine ⟨_, by unfold Fits.getImage ImageData.new; rw [hn, hb]; rfl, fun ops' => ?_⟩
  dsimp only [Fits.putBack]
  obtain ⟨hc, g, -⟩ := run_avail (p := p) (avail_full h before (arrayBytes qs ++ after) (by omega)) ops 0 (by omega)
    (not_asksMissing _ _)
  rw [itAt_zero (data := before ++ arrayBytes ps ++ (arrayBytes qs ++ after)) (start := before.length) hl, g, ← hq]
  rw [← hq] at hc
  have hok : ∀ v ∈ ps.drop qs.length ++ qs, PixelOk b v := by
    intro v hv
    rcases List.mem_append.1 hv with hv | hv
    · exact h v (List.mem_of_mem_drop hv)
    · exact h' v hv
  have hlen : (ps.drop qs.length ++ qs).length = ps.length := by
    rw [List.length_append, List.length_drop]; omega
  have h1 := arrayBytes_length (b := b) (ps := ps.take qs.length) fun v hv => h v (List.mem_of_mem_take hv)
  rw [List.length_take, Nat.min_eq_left hc] at h1
  have h2 : arrayBytes ps = arrayBytes (ps.take qs.length) ++ arrayBytes (ps.drop qs.length) := by
    unfold arrayBytes
    rw [← List.flatMap_append, List.take_append_drop]
  have h3 : arrayBytes (ps.drop qs.length ++ qs) = arrayBytes (ps.drop qs.length) ++ arrayBytes qs := by
    unfold arrayBytes
    rw [List.flatMap_append]
  have h4 := arrayBytes_length hok
  rw [hlen] at h4
  have hlq : qs.length * pixelSize b ≤ ps.length * pixelSize b := Nat.mul_le_mul_right _ hc
  have key : It.new b (itAt b (before ++ arrayBytes ps ++ (arrayBytes qs ++ after)) before.length ps.length qs.length).rd
      (arrayBytes ps).length = It.new b ⟨(before ++ arrayBytes (ps.take qs.length)) ++
        arrayBytes (ps.drop qs.length ++ qs) ++ after, (before ++ arrayBytes (ps.take qs.length)).length⟩
        (arrayBytes (ps.drop qs.length ++ qs)).length := by
    unfold itAt
    dsimp only
    rw [h4, hl, h3, h2, List.length_append, h1]
    congr 2
    simp only [List.append_assoc]
  rw [key]
  exact C30_random_access hok _ _ (by rw [List.length_append, h4, h1]; omega) ops'

/-- An image of three bytes in a file that goes on: after one has been read, the data unit that is opened again has the
other two and the byte that follows. -/
example : ∃ d', (({ start := false, posStart := 1, numBytes := 3, errored := false, rd := ⟨[9, 1, 2, 3, 4, 5], 1⟩ } : Fits).putBack
      ⟨1, 3, It.after p (It.new .u8 ⟨[9, 1, 2, 3, 4, 5], 1⟩ 3) [.next]⟩).getImage p
        { header := { cards := [], values := [], xtension := { bitpix := .u8, naxisn := [3] } }, dataOffset := 1 } = .ok d' ∧
    ∀ ops', d'.pixels.run p ops' = pixelRun [.u8 2, .u8 3, .u8 4] 0 ops' :=
  C54_exact (ps := [.u8 1, .u8 2, .u8 3]) (qs := [.u8 4]) (before := [9]) (after := [5]) (ops := [.next])
    (d := ⟨1, 3, It.new .u8 ⟨[9, 1, 2, 3, 4, 5], 1⟩ 3⟩)
    (by decide) (by decide) (by decide +kernel) (by cases p <;> decide +kernel) (by decide +kernel) (by decide +kernel)
    (by cases p <;> decide +kernel)

/-! ## C56 -/

/-- **C56**, exactly, for any HDU: after an HDU has been returned, `get_data` and `raw_bytes` of any image give its number of
pixels of its type, but from the data unit of the HDU returned last. -/
theorem C56_exact {p : Profile} {f f' : Fits} {x : Hdu Image} {h : HDU} (hn : f.next p = (some (.ok h), f'))
    (hs : x.header.xtension.numBytes p = .ok (imageBytes x.header.xtension.bitpix x.header.xtension.naxisn))
    (hc : h.dataOffset + imageBytes x.header.xtension.bitpix x.header.xtension.naxisn ≤ f.rd.data.length)
    (hl : f.rd.data.length < 2 ^ 63) :
    ∃ d ps, f'.getImage p x = .ok d ∧ (∀ v ∈ ps, PixelOk x.header.xtension.bitpix v) ∧
      arrayBytes ps = (f.rd.data.drop h.dataOffset).take (imageBytes x.header.xtension.bitpix x.header.xtension.naxisn) ∧
      d.rawBytes p = .ok (arrayBytes ps) ∧ ∀ ops, d.pixels.run p ops = pixelRun ps 0 ops := by
  obtain ⟨h1, h2, h3, -⟩ := next_ok_state hn
  obtain ⟨before, after, e1, e2, e3⟩ := cut_list _ _ _ hc
  have hsz := imageBytes_size x.header.xtension.bitpix x.header.xtension.naxisn
  obtain ⟨ps, g1, g2, g3⟩ := exists_pixels x.header.xtension.bitpix _ _ (e3.trans hsz)
  have hpx : (It.new x.header.xtension.bitpix f'.rd
      (imageBytes x.header.xtension.bitpix x.header.xtension.naxisn)) =
      It.new x.header.xtension.bitpix ⟨before ++ arrayBytes ps ++ after, before.length⟩ (arrayBytes ps).length := by
    rw [g2, e3, ← e1, e2, ← h1, ← h2]
  have hf : before.length + (arrayBytes ps).length < 2 ^ 63 := by rw [g2, e3, e2]; omega
  refine ⟨_, ps, by unfold Fits.getImage ImageData.new; rw [hs, h3]; rfl, g1, g2, ?_, fun ops => ?_⟩
  · show slice p f'.rd.data h.dataOffset _ = _
    rw [h1, g2]
    exact slice_ok hc (by omega)
  · dsimp only
    rw [hpx]; exact C30_random_access g1 _ _ hf ops

set_option maxRecDepth 20000 in
/-- On the sample file, once the second HDU has been returned, the first one is read from the data unit of the second. -/
example (p : Profile) : ∃ d ps, sampleEnd.getImage p samplePrimaryImage = .ok d ∧
    arrayBytes ps = (sampleFile.drop 8640).take 10 ∧ ∀ ops, d.pixels.run p ops = pixelRun ps 0 ops := by
  obtain ⟨d, ps, h1, -, h2, -, h3⟩ := C56_exact (p := p) (x := samplePrimaryImage) (sample_calls p).2
    (by cases p <;> decide +kernel) (by decide +kernel) (by decide +kernel)
  exact ⟨d, ps, h1, h2, h3⟩

end Fitsrs

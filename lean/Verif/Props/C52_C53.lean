import Verif.Lemmas.ImageDecoder
import Verif.Props.C29_C32
import Verif.Props.C22_C24
import Verif.Props.C01
/-
C52 the layout of the decoded image, C53 colour type and size, C58 the HDU that is decoded.
-/

namespace Fitsrs
open Spec

/-! ## C52 -/

/-- **C52**, colour: channel `c` of pixel `i` of the buffer is sample `c * n + i`, for the `n` pixels of the buffer.
Where there are not enough samples the buffer keeps its content. -/
theorem C52_rgb {σ : Type} {next : Source σ} {ended : σ → Prop} (hend : Exhausted next ended) {P n : Nat}
    (hP : 0 < P) {buf : List UInt8} (hb : buf.length = 3 * n * P) {s : σ} {vs : List (List UInt8)}
    (hy : Yields next ended s vs) (hv : ∀ v ∈ vs, v.length = P) :
    ∃ out s', writeRgb next P buf s = some (.ok out, s') ∧ out.length = buf.length ∧
      ∀ i < n, ∀ c < 3, sampleAt P out (3 * i + c) = (vs[c * n + i]?).getD (sampleAt P buf (3 * i + c)) := by
  have hk : ∀ b : List UInt8, b.length = buf.length → b.length / P / 3 = n := by
    intro b h
    rw [h, hb, Nat.mul_div_cancel _ hP]; omega
  have hl : ∀ b : List UInt8, b.length = buf.length → 3 * P * n ≤ b.length := by
    intro b h
    rw [h, hb, Nat.mul_assoc, Nat.mul_comm P n, ← Nat.mul_assoc]; exact Nat.le_refl _
  obtain ⟨o0, s0, a0, y0, l0, -, g0⟩ := writeChannel_spec hend (P := P) (n := n) (c := 0) (by omega) buf s vs
    (hl _ rfl) hy hv
  obtain ⟨o1, s1, a1, y1, l1, -, g1⟩ := writeChannel_spec hend (P := P) (n := n) (c := 1) (by omega) o0 s0 _
    (hl _ l0) y0 fun v h => hv v (List.mem_of_mem_drop h)
  obtain ⟨o2, s2, a2, y2, l2, -, g2⟩ := writeChannel_spec hend (P := P) (n := n) (c := 2) (by omega) o1 s1 _
    (hl _ (l1.trans l0)) y1 fun v h => hv v (List.mem_of_mem_drop (List.mem_of_mem_drop h))
  refine ⟨o2, s2, ?_, l2.trans (l1.trans l0), ?_⟩
  · unfold writeRgb
    rw [writeChannels, hk _ rfl, a0]
    dsimp only
    rw [writeChannels, hk _ l0, a1]
    dsimp only
    rw [writeChannels, hk _ (l1.trans l0), a2]
    rfl
  · intro i hi c hc
    rw [g2 i hi c hc, g1 i hi c hc, g0 i hi c hc]
    simp only [List.getElem?_drop]
    have h3 : c = 0 ∨ c = 1 ∨ c = 2 := by omega
    rcases h3 with rfl | rfl | rfl
    · simp
    · simp
    · simp only [if_true, show ¬ (2 = 1) by omega, show ¬ (2 = 0) by omega, if_false]
      rw [show n + (n + i) = 2 * n + i by omega]

/-- **C52**, gray: sample `i` of the buffer is sample `i` of the image. -/
theorem C52_luma {σ : Type} {next : Source σ} {ended : σ → Prop} (hend : Exhausted next ended) {P n : Nat}
    (hP : 0 < P) {buf : List UInt8} (hb : buf.length = n * P) {s : σ} {vs : List (List UInt8)}
    (hy : Yields next ended s vs) (hv : ∀ v ∈ vs, v.length = P) :
    ∃ out s', writeLuma next P buf s = some (.ok out, s') ∧ out.length = buf.length ∧
      ∀ i < n, sampleAt P out i = (vs[i]?).getD (sampleAt P buf i) := by
  obtain ⟨out, s', h1, -, h3, -, h5⟩ := writeLoop_spec hend P (fun v _ => v) n buf s vs (by omega) hy
    fun v h _ _ => hv v h
  refine ⟨out, s', by unfold writeLuma; rw [hb, Nat.mul_div_cancel _ hP]; exact h1, h3, fun i hi => ?_⟩
  rw [h5 i hi]
  cases vs[i]? <;> rfl

/-- **C52**, gray shown as colour: the three channels of pixel `i` are sample `i`. -/
theorem C52_splat {σ : Type} {next : Source σ} {ended : σ → Prop} (hend : Exhausted next ended) {P n : Nat}
    (hP : 0 < P) {buf : List UInt8} (hb : buf.length = 3 * n * P) {s : σ} {vs : List (List UInt8)}
    (hy : Yields next ended s vs) (hv : ∀ v ∈ vs, v.length = P) :
    ∃ out s', writeSplat next P buf s = some (.ok out, s') ∧ out.length = buf.length ∧
      ∀ i < n, ∀ c < 3, sampleAt P out (3 * i + c) = (vs[i]?).getD (sampleAt P buf (3 * i + c)) := by
  obtain ⟨out, s', h1, -, h3, -, h5⟩ := writeLoop_spec hend (3 * P) (fun v _ => v ++ v ++ v) n buf s vs
    (by rw [hb, ← Nat.mul_assoc, Nat.mul_comm n 3]; exact Nat.le_refl _) hy
    fun v h _ _ => by simp only [List.length_append, hv v h]; omega
  refine ⟨out, s', by
    unfold writeSplat
    rw [hb, Nat.mul_div_cancel _ hP, Nat.mul_div_cancel_left _ (by omega)]; exact h1, h3, fun i hi c hc => ?_⟩
  rw [← sampleAt_sub out i c hc, h5 i hi, ← sampleAt_sub buf i c hc]
  cases hi' : vs[i]? with
  | none => rfl
  | some v =>
    have hl := hv v (List.mem_of_getElem? hi')
    dsimp only [Option.getD]
    have e : v ++ v ++ v = setChannel P c v (v ++ v ++ v) := by
      unfold setChannel
      have h3 : c = 0 ∨ c = 1 ∨ c = 2 := by omega
      rcases h3 with rfl | rfl | rfl <;> subst hl
      · simp
      · simp [Nat.two_mul, List.drop_append]
      · rw [show 2 * v.length = (v ++ v).length by simp; omega, show (2 + 1) * v.length = (v ++ v ++ v).length by simp; omega,
          List.take_left, List.drop_length, List.append_nil]
    rw [e, setChannel_same hc hl (by simp only [List.length_append, hl]; omega)]

/-! ## C53 -/

theorem isRgb_ok {extra : List Nat} {r : Bool} (h : isRgb extra = .ok r) :
    (r = false ∧ (extra = [] ∨ extra = [1])) ∨ (r = true ∧ extra = [3]) := by
  unfold isRgb at h
  split at h
  · injection h with h; exact .inl ⟨h.symm, .inl rfl⟩
  · rename_i n
    by_cases h1 : n = 1
    · rw [if_pos h1] at h; injection h with h; exact .inl ⟨h.symm, .inr (by rw [h1])⟩
    · rw [if_neg h1] at h
      by_cases h3 : n = 3
      · rw [if_pos h3] at h; injection h with h; exact .inr ⟨h.symm, by rw [h3]⟩
      · rw [if_neg h3] at h; exact absurd h (by simp)
  · exact absurd h (by simp)

theorem axesAndBitpix_ok {k : ImageKind} {ns : List Nat} {b : Bitpix} :
    k.axesAndBitpix = .ok (ns, b) ↔ ImageAxes k ns b := by
  cases k with
  | image x => simp [ImageKind.axesAndBitpix, ImageAxes]
  | tiles x =>
    cases hz : x.header.xtension.zImage <;> simp [ImageKind.axesAndBitpix, ImageAxes, hz]

theorem toU32_ok {n m : Nat} : toU32 n = .ok m ↔ n < 2 ^ 32 ∧ m = n := by
  unfold toU32
  by_cases h : n < 2 ^ 32
  · rw [if_pos h]
    constructor
    · intro e; injection e with e; exact ⟨h, e.symm⟩
    · rintro ⟨-, rfl⟩; rfl
  · rw [if_neg h]
    constructor
    · intro e; cases e
    · rintro ⟨h', -⟩; exact absurd h' h

theorem ofKind_ok {k : ImageKind} {f : Fits} {d : Decoder} (h : Decoder.ofKind k f = .ok d) :
    ∃ ns, ImageAxes k ns d.bitpix ∧ Shape ns d.width d.height d.rgb ∧ d.width < 2 ^ 32 ∧ d.height < 2 ^ 32 ∧
      d.fits = f ∧ d.hdu = k := by
  unfold Decoder.ofKind at h
  obtain ⟨⟨ns, b⟩, ha, h⟩ := Res.bind_eq_ok.1 h
  dsimp only at h
  split at h
  · rename_i extra
    obtain ⟨r, hr, hd1⟩ := Res.bind_eq_ok.1 h
    obtain ⟨w', hw, hd2⟩ := Res.bind_eq_ok.1 hd1
    obtain ⟨h', hh', hd⟩ := Res.bind_eq_ok.1 hd2
    obtain ⟨hw1, rfl⟩ := toU32_ok.1 hw
    obtain ⟨hh1, rfl⟩ := toU32_ok.1 hh'
    injection hd with hd
    subst hd
    refine ⟨_, axesAndBitpix_ok.1 ha, ?_, hw1, hh1, rfl, rfl⟩
    rcases isRgb_ok hr with ⟨rfl, rfl | rfl⟩ | ⟨rfl, rfl⟩
    · exact .inl ⟨rfl, .inl rfl⟩
    · exact .inl ⟨rfl, .inr rfl⟩
    · exact .inr ⟨rfl, rfl⟩
  · exact absurd h (by simp)

theorem ofKind_of {k : ImageKind} (f : Fits) {ns : List Nat} {b : Bitpix} {w h : Nat} {rgb : Bool}
    (ha : ImageAxes k ns b) (hs : Shape ns w h rgb) (hw : w < 2 ^ 32) (hh : h < 2 ^ 32) :
    Decoder.ofKind k f = .ok { width := w, height := h, rgb, bitpix := b, fits := f, hdu := k } := by
  unfold Decoder.ofKind
  rw [axesAndBitpix_ok.2 ha, Res.bind_ok]
  have e1 : toU32 w = .ok w := toU32_ok.2 ⟨hw, rfl⟩
  have e2 : toU32 h = .ok h := toU32_ok.2 ⟨hh, rfl⟩
  rcases hs with ⟨rfl, rfl | rfl⟩ | ⟨rfl, rfl⟩
  all_goals
    dsimp only [isRgb]
    simp only [e1, e2, Res.bind_ok, if_true, show ¬ (3 = 1) by omega, if_false]

theorem ofKind_ne_panic (k : ImageKind) (f : Fits) : Decoder.ofKind k f ≠ .panic := by
  unfold Decoder.ofKind
  cases h : k.axesAndBitpix with
  | panic =>
    cases k with
    | image x => simp [ImageKind.axesAndBitpix] at h
    | tiles x => cases hz : x.header.xtension.zImage <;> simp [ImageKind.axesAndBitpix, hz] at h
  | err e => simp
  | ok ab =>
    simp only [Res.bind_ok]
    split
    · rename_i w hh extra _
      have h1 : isRgb extra ≠ .panic := by
        unfold isRgb
        split
        · simp
        · split
          · simp
          · split <;> simp
        · simp
      have h2 : ∀ n, toU32 n ≠ .panic := by
        intro n; unfold toU32; split <;> simp
      cases ha : isRgb extra with
      | panic => exact absurd ha h1
      | err e => simp
      | ok r =>
        cases hb : toU32 w with
        | panic => exact absurd hb (h2 _)
        | err e => simp
        | ok r =>
          cases hc : toU32 hh with
          | panic => exact absurd hc (h2 _)
          | err e => simp
          | ok r => simp
    · simp

theorem decoder_new_ok {p : Profile} {fuel : Nat} {rd : Reader} {d : Decoder} (h : Decoder.new p fuel rd = some (.ok d)) :
    ∃ k f, findImage p fuel (Fits.fromReader rd) = some (.ok (k, f)) ∧ Decoder.ofKind k f = .ok d := by
  unfold Decoder.new at h
  cases hf : findImage p fuel (Fits.fromReader rd) with
  | none => rw [hf] at h; exact absurd h (by simp)
  | some r =>
    rw [hf] at h
    cases r with
    | ok kf => exact ⟨kf.1, kf.2, rfl, by simpa using h⟩
    | err e => exact absurd h (by simp)
    | panic => exact absurd h (by simp)

theorem colorType_eq (d : Decoder) : d.colorType = colorOf d.bitpix d.rgb := by
  unfold Decoder.colorType
  cases d.bitpix <;> cases d.rgb <;> rfl

theorem bytesPerPixel_eq (c : ColorType) : c.bytesPerPixel = channels c * channelBytes c := by cases c <;> rfl

theorem Spec.Shape.product {ns : List Nat} {w h : Nat} {rgb : Bool} (hs : Shape ns w h rgb) :
    product ns = w * h * planes rgb := by
  rcases hs with ⟨rfl, rfl | rfl⟩ | ⟨rfl, rfl⟩ <;> simp [Spec.product, planes, Nat.mul_assoc]

/-- **C53.** For an accepted image: the axes are the two dimensions reported, or these and a third one, of length 1 or,
for colours, 3; so there are as many values as pixels, times the number of planes.  The colour type reported is that of
the type of the values; the number of bytes reported is the number of pixels, times the number of channels, times the
size of a sample (or `u64::MAX` if that is larger).  There are as many channels as planes, or three of them for one
plane. -/
theorem C53_accepted {p : Profile} {fuel : Nat} {rd : Reader} {d : Decoder}
    (h : Decoder.new p fuel rd = some (.ok d)) :
    ∃ ns, ImageAxes d.hdu ns d.bitpix ∧ Shape ns d.width d.height d.rgb ∧ d.width < 2 ^ 32 ∧ d.height < 2 ^ 32 ∧
      product ns = d.width * d.height * planes d.rgb ∧ d.colorType = colorOf d.bitpix d.rgb ∧
      d.totalBytes = min (d.width * d.height * channels d.colorType * channelBytes d.colorType) (2 ^ 64 - 1) ∧
      (channels d.colorType = planes d.rgb ∨ planes d.rgb = 1 ∧ channels d.colorType = 3) := by
  obtain ⟨k, f, -, hk⟩ := decoder_new_ok h
  obtain ⟨ns, h1, h2, h3, h4, -, h6⟩ := ofKind_ok hk
  refine ⟨ns, by rw [h6]; exact h1, h2, h3, h4, h2.product, colorType_eq d, ?_, ?_⟩
  · unfold Decoder.totalBytes
    rw [bytesPerPixel_eq, Nat.mul_assoc (d.width * d.height)]
  · rw [colorType_eq d]
    cases d.bitpix <;> cases d.rgb <;> decide

/-- **C53**, what is accepted: once the image has been found, it is accepted exactly when it has such axes; otherwise
there is an error. -/
theorem C53_shapes {p : Profile} {fuel : Nat} {rd : Reader} {k : ImageKind} {f : Fits}
    (h : findImage p fuel (Fits.fromReader rd) = some (.ok (k, f))) :
    (∀ ns b w hh rgb, ImageAxes k ns b → Shape ns w hh rgb → w < 2 ^ 32 → hh < 2 ^ 32 →
      Decoder.new p fuel rd = some (.ok { width := w, height := hh, rgb, bitpix := b, fits := f, hdu := k })) ∧
    ((¬ ∃ ns b w hh rgb, ImageAxes k ns b ∧ Shape ns w hh rgb ∧ w < 2 ^ 32 ∧ hh < 2 ^ 32) →
      ∃ e, Decoder.new p fuel rd = some (.err e)) := by
  have e : Decoder.new p fuel rd = some (Decoder.ofKind k f) := by unfold Decoder.new; rw [h]
  refine ⟨fun ns b w hh rgb ha hs hw hh' => ?_, fun hno => ?_⟩
  · rw [e, ofKind_of f ha hs hw hh']
  · rw [e]
    cases ho : Decoder.ofKind k f with
    | panic => exact absurd ho (ofKind_ne_panic k f)
    | err e => exact ⟨e, rfl⟩
    | ok d =>
      obtain ⟨ns, h1, h2, h3, h4, -⟩ := ofKind_ok ho
      exact absurd ⟨ns, _, _, _, _, h1, h2, h3, h4⟩ hno

/-! ## C58 -/

theorem selects_of {p : Profile} {h : HDU} {n : Nat} (hn : h.dataSize p = .ok n) :
    (showable p h = true → ∃ k, selects p h = .ok (some k) ∧ Shows h k) ∧
    (showable p h = false → selects p h = .ok none) := by
  cases h with
  | primary x =>
    simp only [HDU.dataSize] at hn
    by_cases h0 : n = 0
    · subst h0; simp [showable, selects, hn]
    · simp [showable, selects, hn, h0, Shows]
  | image x =>
    simp only [HDU.dataSize] at hn
    by_cases h0 : n = 0
    · subst h0; simp [showable, selects, hn]
    · simp [showable, selects, hn, h0, Shows]
  | binTable x =>
    cases hz : x.header.xtension.zImage <;> simp [showable, selects, hz, Shows]
  | asciiTable x => simp [showable, selects]

theorem selects_shows {p : Profile} {h : HDU} {k : ImageKind} (hs : selects p h = .ok (some k)) : Shows h k := by
  cases h with
  | primary x | image x =>
    simp only [selects] at hs
    obtain ⟨n, -, hs⟩ := Res.bind_eq_ok.1 hs
    injection hs with hs
    by_cases h0 : n ≠ 0
    · rw [if_pos h0] at hs; injection hs with hs; exact hs.symm
    · rw [if_neg h0] at hs; cases hs
  | binTable x =>
    simp only [selects] at hs
    injection hs with hs
    split at hs
    · injection hs with hs; exact hs.symm
    · cases hs
  | asciiTable x => simp [selects] at hs

/-- The image found is that of an HDU just returned by the iterator. -/
theorem findImage_ok {p : Profile} (fuel : Nat) : ∀ {f f' : Fits} {k : ImageKind},
    findImage p fuel f = some (.ok (k, f')) →
    ∃ (g : Fits) (h : HDU), g.next p = (some (.ok h), f') ∧ Shows h k ∧ g.rd.data = f.rd.data := by
  induction fuel with
  | zero => intro f f' k h; simp [findImage] at h
  | succ n ih =>
    intro f f' k h
    rw [findImage] at h
    cases hn : f.next p with
    | mk r g =>
      rw [hn] at h
      cases r with
      | none => simp at h
      | some r =>
        cases r with
        | err e => simp at h
        | panic => simp at h
        | ok x =>
          dsimp only at h
          cases hs : selects p x with
          | err e => rw [hs] at h; simp at h
          | panic => rw [hs] at h; simp at h
          | ok o =>
            rw [hs] at h
            cases o with
            | none =>
              dsimp only at h
              obtain ⟨g', x', h1, h2, h3⟩ := ih h
              exact ⟨g', x', h1, h2, h3.trans (next_ok_state hn).1⟩
            | some k' =>
              simp only [Option.some.injEq, Res.ok.injEq, Prod.mk.injEq] at h
              obtain ⟨rfl, rfl⟩ := h
              exact ⟨f, x, hn, selects_shows hs, rfl⟩

theorem readData_fresh {p : Profile} {f f' : Fits} {h : HDU} (hn : f.next p = (some (.ok h), f')) :
    readData 0 f' = f' := by
  obtain ⟨-, h2, h3, -⟩ := next_ok_state hn
  obtain ⟨a, b, c, d, e, q⟩ := f'
  simp only [readData, Nat.zero_min, Nat.add_zero] at h2 h3 ⊢
  rw [h3, ← h2]

theorem findImage_items {p : Profile} (n : Nat) : ∀ {f : Fits} {hs : List HDU},
    collectReading p (List.replicate (n + 1) 0) f = hs.map .ok → hs.length ≤ n →
    match hs.find? (showable p) with
    | some h => ∃ k f', findImage p (n + 1) f = some (.ok (k, f')) ∧ Shows h k
    | none => ∃ e, findImage p (n + 1) f = some (.err e) := by
  induction n with
  | zero =>
    intro f hs hc hl
    obtain rfl : hs = [] := List.length_eq_zero_iff.1 (by omega)
    cases hn : f.next p with
    | mk r g =>
      simp only [List.replicate, collectReading, hn] at hc
      cases r with
      | none => exact ⟨.dynamic, by rw [findImage, hn]⟩
      | some r => cases r <;> simp at hc
  | succ n ih =>
    intro f hs hc hl
    cases hn : f.next p with
    | mk r g =>
      rw [List.replicate_succ, collectReading, hn] at hc
      cases r with
      | none =>
        dsimp only at hc
        obtain rfl : hs = [] := by cases hs with
          | nil => rfl
          | cons a b => simp at hc
        exact ⟨.dynamic, by rw [findImage, hn]⟩
      | some r =>
        cases hs with
        | nil => cases r <;> simp at hc
        | cons h hs =>
          cases r with
          | panic => simp at hc
          | err e => simp at hc
          | ok x =>
            simp only [List.map_cons, List.cons.injEq, Res.ok.injEq] at hc
            obtain ⟨rfl, hc⟩ := hc
            rw [readData_fresh hn] at hc
            obtain ⟨-, -, -, hsz, -⟩ := next_ok_state hn
            rw [findImage, hn]
            dsimp only
            cases hsh : showable p x with
            | true =>
              obtain ⟨k, e, hk⟩ := (selects_of hsz).1 hsh
              simp only [List.find?_cons, hsh, e]
              exact ⟨k, g, rfl, hk⟩
            | false =>
              rw [(selects_of hsz).2 hsh]
              simp only [List.find?_cons, hsh]
              exact ih hc (by simp at hl; omega)

/-- **C58.** In a well-formed file, the image decoded is that of the first HDU that can be shown (an image that is not
empty, or a compressed image): it is accepted exactly when its shape is right.  If there is no such HDU, there is an
error. -/
theorem C58_first_image {p : Profile} {segs : List Segment} {hs : List HDU} (hf : FileOf p true 0 segs hs)
    (hsize : ((segs.map Segment.bytes).flatten).length + 2960 < 2 ^ 63) (fuel : Nat) (hfuel : hs.length < fuel) :
    let r := Decoder.new p fuel ⟨(segs.map Segment.bytes).flatten, 0⟩
    (hs.find? (showable p) = none → ∃ e, r = some (.err e)) ∧
    ∀ h, hs.find? (showable p) = some h → ∃ k, Shows h k ∧
      (∀ ns b w hh rgb, ImageAxes k ns b → Shape ns w hh rgb → w < 2 ^ 32 → hh < 2 ^ 32 →
        ∃ f, r = some (.ok { width := w, height := hh, rgb, bitpix := b, fits := f, hdu := k })) ∧
      ((¬ ∃ ns b w hh rgb, ImageAxes k ns b ∧ Shape ns w hh rgb ∧ w < 2 ^ 32 ∧ hh < 2 ^ 32) →
        ∃ e, r = some (.err e)) := by
  intro r
  obtain ⟨n, rfl⟩ : ∃ n, fuel = n + 1 := ⟨fuel - 1, by omega⟩
  have h1 := findImage_items n (C01_walk hf hsize (List.replicate (n + 1) 0) (by simpa using hfuel)) (by omega)
  refine ⟨fun hh => ?_, fun h hh => ?_⟩
  · rw [hh] at h1
    obtain ⟨e, h1⟩ := h1
    exact ⟨e, by show Decoder.new _ _ _ = _; unfold Decoder.new; rw [h1]⟩
  · rw [hh] at h1
    obtain ⟨k, f', h1, h2⟩ := h1
    obtain ⟨g1, g2⟩ := C53_shapes h1
    exact ⟨k, h2, fun ns b w hh rgb a1 a2 a3 a4 => ⟨f', g1 ns b w hh rgb a1 a2 a3 a4⟩, g2⟩

/-! ## C52, end to end -/

/-- The iterator over pixels gives no more. -/
def It.Ended (p : Profile) (it : It) : Prop := ∀ k, it.run p (List.replicate k .next) = List.replicate k (.item none)

theorem imageSource_exhausted (p : Profile) (o : FloatOps) (s : Scale) : Exhausted (imageSource o s) (It.Ended p) := by
  intro it h
  have h1 := h 1
  simp only [List.replicate, It.run, It.step, List.cons.injEq, PixelOut.item.injEq, and_true] at h1
  refine ⟨it.next.2, by unfold imageSource; rw [h1]; rfl, fun k => ?_⟩
  have h2 := h (k + 1)
  simp only [List.replicate_succ, It.run, It.step, List.cons.injEq] at h2
  exact h2.2

theorem imageSource_yields (p : Profile) (o : FloatOps) (s : Scale) (ps : List Pixel) : ∀ it : It,
    (∀ k, it.run p (List.replicate k .next) = (List.range k).map fun i => .item ps[i]?) →
    Yields (imageSource o s) (It.Ended p) it (ps.map (o.sample s)) := by
  induction ps with
  | nil =>
    intro it h
    refine .nil fun k => ?_
    rw [h k]
    apply List.ext_getElem
    · simp
    · intro i h1 h2; simp
  | cons v ps ih =>
    intro it h
    have h1 := h 1
    simp only [List.replicate, It.run, It.step, List.range_succ_eq_map, List.range_zero, List.map_cons, List.map_nil,
      List.cons.injEq, PixelOut.item.injEq, and_true, List.getElem?_cons_zero] at h1
    refine .cons (s' := it.next.2) (by unfold imageSource; rw [h1]; rfl) (ih _ fun k => ?_)
    have h2 := h (k + 1)
    simp only [List.replicate_succ, It.run, It.step, List.range_succ_eq_map, List.map_cons, List.map_map,
      List.cons.injEq] at h2
    rw [h2.2]
    apply List.map_congr_left
    intro i _
    simp

theorem leBytes_length (k n : Nat) : (leBytes k n).length = k := by
  induction k generalizing n with
  | zero => rfl
  | succ k ih => simp [leBytes, ih]

theorem sample_length {b : Bitpix} {v : Pixel} (h : PixelOk b v) (o : FloatOps) (s : Scale) :
    (o.sample s v).length = sampleSize b := by
  cases b <;> cases v <;> first | exact False.elim h | exact leBytes_length _ _

/-- Where the sample of channel `c` of pixel `i` comes from, in an image of `n` pixels. -/
def Spec.valueIndex (rgb : Bool) (n i c : Nat) : Nat := if rgb then c * n + i else i

theorem writeAs_spec {σ : Type} {next : Source σ} {ended : σ → Prop} (hend : Exhausted next ended) {ty : Bitpix}
    {rgb : Bool} {n : Nat} {buf : List UInt8}
    (hb : buf.length = n * channels (colorOf ty rgb) * channelBytes (colorOf ty rgb)) {s : σ} {vs : List (List UInt8)}
    (hy : Yields next ended s vs) (hv : ∀ v ∈ vs, v.length = sampleSize ty) :
    ∃ out s', writeAs next ty rgb buf s = some (.ok out, s') ∧ out.length = buf.length ∧
      ∀ i < n, ∀ c < channels (colorOf ty rgb),
        sampleAt (channelBytes (colorOf ty rgb)) out (i * channels (colorOf ty rgb) + c) =
          (vs[valueIndex rgb n i c]?).getD
            (sampleAt (channelBytes (colorOf ty rgb)) buf (i * channels (colorOf ty rgb) + c)) := by
  have hsz : channelBytes (colorOf ty rgb) = sampleSize ty := by cases ty <;> cases rgb <;> rfl
  have hpos : 0 < sampleSize ty := by cases ty <;> decide
  rw [hsz] at hb ⊢
  cases rgb with
  | true =>
    have hch : channels (colorOf ty true) = 3 := by cases ty <;> rfl
    rw [hch] at hb ⊢
    obtain ⟨out, s', h1, h2, h3⟩ := C52_rgb hend hpos (by rw [hb, Nat.mul_comm n 3]) hy hv
    refine ⟨out, s', h1, h2, fun i hi c hc => ?_⟩
    rw [Nat.mul_comm i 3]
    exact h3 i hi c hc
  | false =>
    by_cases hty : ty = .u8 ∨ ty = .i16
    · have hch : channels (colorOf ty false) = 1 := by rcases hty with rfl | rfl <;> rfl
      rw [hch] at hb ⊢
      obtain ⟨out, s', h1, h2, h3⟩ := C52_luma hend hpos (by rw [hb, Nat.mul_one]) hy hv
      refine ⟨out, s', by rw [← h1]; rcases hty with rfl | rfl <;> rfl, h2, fun i hi c hc => ?_⟩
      obtain rfl : c = 0 := by omega
      rw [Nat.mul_one, Nat.add_zero]
      exact h3 i hi
    · have hch : channels (colorOf ty false) = 3 := by
        cases ty <;> first | rfl | exact absurd (by simp) hty
      rw [hch] at hb ⊢
      obtain ⟨out, s', h1, h2, h3⟩ := C52_splat hend hpos (by rw [hb, Nat.mul_comm n 3]) hy hv
      refine ⟨out, s', by
        rw [← h1]
        cases ty <;> first | rfl | exact absurd (by simp) hty, h2, fun i hi c hc => ?_⟩
      rw [Nat.mul_comm i 3]
      exact h3 i hi c hc

/-- **C52, end to end.** When the image accepted is not compressed and its data unit is in the file, and the buffer has
the size reported, then there are `width * height` values per plane, whose bytes are the data unit, and channel `c` of
pixel `i` in the buffer is made from value `c * width * height + i` for a colour image and from value `i` otherwise.
`hs` is C22. -/
theorem C52_image {p : Profile} {n : Nat} {rd : Reader} {d : Decoder} (hd : Decoder.new p n rd = some (.ok d))
    {x : Hdu Image} (hx : d.hdu = .image x)
    (hs : x.header.xtension.numBytes p = .ok (imageBytes x.header.xtension.bitpix x.header.xtension.naxisn))
    (hc : x.dataOffset + imageBytes x.header.xtension.bitpix x.header.xtension.naxisn ≤ rd.data.length)
    (hl : rd.data.length < 2 ^ 63) {s : Scale} (hsc : Scale.ofMap x.header.values = .ok s)
    (gz : Gunzip) (fuel : Nat) (o : FloatOps) (buf : List UInt8)
    (hb : buf.length = d.width * d.height * channels d.colorType * channelBytes d.colorType) :
    ∃ ps out, (∀ v ∈ ps, PixelOk d.bitpix v) ∧ ps.length = d.width * d.height * planes d.rgb ∧
      arrayBytes ps = (rd.data.drop x.dataOffset).take
        (imageBytes x.header.xtension.bitpix x.header.xtension.naxisn) ∧
      d.readImage p gz fuel o buf = some (.ok out) ∧ out.length = buf.length ∧
      ∀ i < d.width * d.height, ∀ c < channels d.colorType, ∃ v, ps[valueIndex d.rgb (d.width * d.height) i c]? = some v ∧
        sampleAt (channelBytes d.colorType) out (i * channels d.colorType + c) = o.sample s v := by
  obtain ⟨k, f, hk, ho⟩ := decoder_new_ok hd
  obtain ⟨ns, h1, h2, h3, h4, rfl, rfl⟩ := ofKind_ok ho
  obtain ⟨g, h, g1, g2, g3⟩ := findImage_ok n hk
  have hg : g.rd.data = rd.data := g3
  rw [hx] at h1 g2
  obtain ⟨rfl, hbp⟩ := h1
  have hh : h = .primary x ∨ h = .image x := by
    cases h with
    | primary y => exact .inl (by rw [ImageKind.image.inj g2])
    | image y => exact .inr (by rw [ImageKind.image.inj g2])
    | binTable y => exact absurd g2 (by simp [Shows])
    | asciiTable y => exact False.elim g2
  obtain ⟨im, ps, e1, e2, e3, e4, -, e6⟩ := C29_image hh g1 hs (by rw [hg]; exact hc) (by rw [hg]; exact hl)
  rw [colorType_eq] at hb ⊢
  have hty : im.pixels.ty = d.bitpix := by
    unfold Fits.getImage ImageData.new at e1
    rw [hs, Res.bind_ok] at e1
    injection e1 with e1
    rw [← e1, ← hbp]; rfl
  rw [hbp] at e2
  have hne : x.header.xtension.naxisn ≠ [] := by
    intro hn
    rw [hn] at h2
    rcases h2 with ⟨-, h | h⟩ | ⟨-, h⟩ <;> cases h
  rw [if_neg hne, h2.product] at e3
  obtain ⟨out, it', w1, w2, w3⟩ := writeAs_spec (imageSource_exhausted p o s) (ty := d.bitpix) (rgb := d.rgb) hb
    (imageSource_yields p o s ps im.pixels e6) (by
      intro v hv
      obtain ⟨q, hq, rfl⟩ := List.mem_map.1 hv
      exact sample_length (e2 q hq) o s)
  refine ⟨ps, out, e2, e3, by rw [e4, hg], ?_, w2, fun i hi c hc => ?_⟩
  · unfold Decoder.readImage
    rw [hx]
    dsimp only
    rw [hsc, e1]
    dsimp only
    rw [hty, w1]
    rfl
  · have hlt : valueIndex d.rgb (d.width * d.height) i c < ps.length := by
      rw [e3]
      unfold valueIndex planes
      cases hr : d.rgb with
      | false => simpa using hi
      | true =>
        rw [if_pos rfl, if_pos rfl]
        have hc3 : c < 3 := by
          rw [hr] at hc
          cases hb : d.bitpix <;> rw [hb] at hc <;> exact hc
        have : (c + 1) * (d.width * d.height) ≤ 3 * (d.width * d.height) := Nat.mul_le_mul_right _ hc3
        rw [Nat.succ_mul] at this
        omega
    refine ⟨ps[valueIndex d.rgb (d.width * d.height) i c], List.getElem?_eq_getElem hlt, ?_⟩
    rw [w3 i hi c hc, List.getElem?_map, List.getElem?_eq_getElem hlt]
    rfl

/-- The scale of a header without `BZERO` and `BSCALE`. -/
theorem scale_default {m : ValueMap} (h0 : m.get "BZERO".toList = none) (h1 : m.get "BSCALE".toList = none) :
    Scale.ofMap m = .ok {} := by
  unfold Scale.ofMap scaleField
  rw [h0, h1]
  rfl

/-- **C52**, the samples: without `BZERO` and `BSCALE`, bytes are copied, 16-bit integers are copied in little-endian
order when they are not negative and replaced by zero when they are, and 32-bit floating-point numbers are copied in
little-endian order, that is the bytes of the file in reverse order. -/
theorem C52_samples (o : FloatOps) :
    (∀ n, n < 2 ^ 8 → o.sample {} (.u8 n) = pixelBytes (.u8 n)) ∧
    (∀ n : Int, 0 ≤ n → n < 2 ^ 15 → o.sample {} (.i16 n) = (pixelBytes (.i16 n)).reverse) ∧
    (∀ n : Int, n < 0 → o.sample {} (.i16 n) = [0, 0]) ∧
    (∀ (s : Scale) (b : Nat), b < 2 ^ 32 → o.sample s (.f32 b) = (pixelBytes (.f32 b)).reverse) := by
  have hn : o.needsScale {} = false := by
    unfold FloatOps.needsScale
    show (!(o.isZero (.fin false 0 0) && o.isOne (.fin false 1 0))) = false
    rw [o.isZero_zero, o.isOne_one]
    rfl
  have hb : ∀ a : Nat, UInt8.ofNat (a % 256) = UInt8.ofNat a := by
    intro a
    apply UInt8.toNat_inj.1
    simp
  refine ⟨fun n h => ?_, fun n h h' => ?_, fun n h => ?_, fun s b h => ?_⟩
  · simp only [FloatOps.sample, hn, pixelBytes, bigEndian, leBytes, hb]
    simp
  · have e : (n % 2 ^ 16).toNat = n.toNat := by omega
    simp only [FloatOps.sample, hn, pixelBytes, bigEndian, leBytes, hb, e, if_pos h]
    simp
  · simp only [FloatOps.sample, hn, if_neg (show ¬ 0 ≤ n by omega), Bool.false_eq_true, if_false]
    rfl
  · simp only [FloatOps.sample, pixelBytes, bigEndian, leBytes, hb]
    simp

/-! ## Examples -/

/-- An iterator over a list, that gives its elements and then nothing. -/
def listSource : Source (List (List UInt8)) := fun l => some (.ok l.head?, l.tail)

theorem listSource_exhausted : Exhausted listSource (· = []) := by
  rintro _ rfl; exact ⟨[], rfl, rfl⟩

theorem listSource_yields (vs : List (List UInt8)) : Yields listSource (· = []) vs vs := by
  induction vs with
  | nil => exact .nil rfl
  | cons v vs ih => exact .cons rfl ih

/-- Two colour pixels, of 16 bits per channel. -/
example : ∃ out s', writeRgb listSource 2 (List.replicate 12 9)
    [[1, 10], [2, 20], [3, 30], [4, 40], [5, 50], [6, 60]] = some (.ok out, s') ∧
    sampleAt 2 out 1 = [3, 30] ∧ sampleAt 2 out 3 = [2, 20] := by
  obtain ⟨out, s', h1, -, h3⟩ := C52_rgb listSource_exhausted (P := 2) (n := 2) (by decide) (buf := List.replicate 12 9)
    (by decide) (listSource_yields [[1, 10], [2, 20], [3, 30], [4, 40], [5, 50], [6, 60]]) (by decide)
  exact ⟨out, s', h1, h3 0 (by omega) 1 (by omega), h3 1 (by omega) 0 (by omega)⟩

example : writeRgb listSource 1 (List.replicate 6 9) [[1], [2], [3], [4]] = some (.ok [1, 3, 9, 2, 4, 9], []) := by
  decide

example : writeSplat listSource 1 (List.replicate 6 9) [[1], [2], [3]] = some (.ok [1, 1, 1, 2, 2, 2], [[3]]) := by
  decide

/-- Arithmetic for the examples. -/
def sampleOps : FloatOps where
  isZero x := decide (x = .fin false 0 0)
  isOne x := decide (x = .fin false 1 0)
  scaled _ _ := 0
  narrow n := n
  tile _ := 0
  isZero_zero := rfl
  isOne_one := rfl

/-- The sample file (a primary HDU with one axis) is rejected. -/
example (p : Profile) : ∃ e, Decoder.new p 3 ⟨sampleFile, 0⟩ = some (.err e) := by
  have h : findImage p 3 (Fits.fromReader ⟨sampleFile, 0⟩) =
      some (.ok (.image samplePrimaryImage, sampleAfterPrimary sampleFile)) := by
    rw [findImage, (sample_calls p).1]
    cases p <;> rfl
  refine (C53_shapes h).2 ?_
  rintro ⟨ns, b, w, hh, rgb, ⟨h1, -⟩, h2, -⟩
  have h1 : [10] = ns := h1
  subst h1
  rcases h2 with ⟨-, h | h⟩ | ⟨-, h⟩ <;> cases h

/-- In the sample file the first HDU is the one shown, or rather rejected, although the second one could be shown. -/
example (p : Profile) : ∃ e, Decoder.new p 3 ⟨([samplePrimarySegment, sampleImageSegment].map Segment.bytes).flatten, 0⟩ =
    some (.err e) := by
  have h := (C58_first_image (sample_fileOf p) (by decide +kernel) 3 (by decide)).2 samplePrimaryHdu (by
    cases p <;> decide +kernel)
  obtain ⟨k, h1, -, h3⟩ := h
  refine h3 ?_
  rintro ⟨ns, b, w, hh, rgb, h2, h4, -⟩
  have h1 : k = .image samplePrimaryImage := h1
  subst h1
  obtain ⟨h2, -⟩ := h2
  have h2 : [10] = ns := h2
  subst h2
  rcases h4 with ⟨-, h | h⟩ | ⟨-, h⟩ <;> cases h

/-- A file with an empty primary HDU and an image of 2 x 1 colour pixels of 16 bits. -/
def colourSegments : List Segment :=
  [{ records := [rec80 "SIMPLE  =                    T", rec80 "BITPIX  =                    8",
                 rec80 "NAXIS   =                    0", rec80 "END"]
     headerFill := blanks 2560, data := [], dataFill := [] },
   { records := [rec80 "XTENSION= 'IMAGE   '", rec80 "BITPIX  =                   16",
                 rec80 "NAXIS   =                    3", rec80 "NAXIS1  =                    2",
                 rec80 "NAXIS2  =                    1", rec80 "NAXIS3  =                    3", rec80 "END"]
     headerFill := blanks 2320
     data := [0, 1, 0, 2, 0, 3, 0, 4, 0xFF, 0xFF, 1, 6], dataFill := [] }]

def colourFile : List UInt8 := (colourSegments.map Segment.bytes).flatten

/-- What is looked at in the decoder of the sample. -/
structure DecoderView where
  width : Nat
  height : Nat
  rgb : Bool
  bitpix : Bitpix
  offset : Nat
  axes : List Nat
  type : Bitpix
  scale : Res Scale
  deriving DecidableEq

def decoderView (d : Decoder) : Option DecoderView :=
  match d.hdu with
  | .image x => some ⟨d.width, d.height, d.rgb, d.bitpix, x.dataOffset, x.header.xtension.naxisn,
      x.header.xtension.bitpix, Scale.ofMap x.header.values⟩
  | .tiles _ => none

set_option maxRecDepth 20000 in
theorem colour_view (p : Profile) : (Decoder.new p 3 ⟨colourFile, 0⟩).map (·.map decoderView) =
    some (.ok (some ⟨2, 1, true, .i16, 5760, [2, 1, 3], .i16, .ok {}⟩)) := by
  cases p <;> decide +kernel

theorem colour_decoder (p : Profile) : ∃ d x, Decoder.new p 3 ⟨colourFile, 0⟩ = some (.ok d) ∧ d.hdu = .image x ∧
    d.width = 2 ∧ d.height = 1 ∧ d.rgb = true ∧ d.bitpix = .i16 ∧ x.dataOffset = 5760 ∧
    x.header.xtension.naxisn = [2, 1, 3] ∧ x.header.xtension.bitpix = .i16 ∧ Scale.ofMap x.header.values = .ok {} := by
  have h := colour_view p
  cases hd : Decoder.new p 3 ⟨colourFile, 0⟩ with
  | none => rw [hd] at h; cases h
  | some r =>
    rw [hd] at h
    cases r with
    | err e => cases h
    | panic => cases h
    | ok d =>
      simp only [Option.map_some, Res.map_ok, Option.some.injEq, Res.ok.injEq, decoderView] at h
      cases hk : d.hdu with
      | tiles x => rw [hk] at h; cases h
      | image x =>
        rw [hk] at h
        simp only [Option.some.injEq, DecoderView.mk.injEq] at h
        exact ⟨d, x, rfl, hk, h⟩

/-- The hypotheses of `C52_image` hold for the sample. -/
example (p : Profile) (gz : Gunzip) (o : FloatOps) : ∃ (d : Decoder) (ps : List Pixel) (out : List UInt8),
    Decoder.new p 3 ⟨colourFile, 0⟩ = some (.ok d) ∧ ps.length = 6 ∧
    d.readImage p gz 0 o (List.replicate 12 0) = some (.ok out) ∧
    ∃ v, ps[5]? = some v ∧ sampleAt 2 out 5 = o.sample {} v := by
  obtain ⟨d, x, h1, h2, h3, h4, h5, h6, h7, h8, h9, h10⟩ := colour_decoder p
  have hct : d.colorType = .rgb16 := by rw [colorType_eq, h5, h6]; rfl
  have hib : imageBytes x.header.xtension.bitpix x.header.xtension.naxisn = 12 := by rw [h8, h9]; rfl
  have hlen : colourFile.length = 5772 := by decide +kernel
  obtain ⟨ps, out, -, g2, -, g4, -, g6⟩ := C52_image h1 h2 (by
      unfold Image.numBytes Image.numPixels
      rw [h8, h9]
      cases p <;> decide +kernel) (by rw [hib, h7]; show 5760 + 12 ≤ colourFile.length; omega)
    (by show colourFile.length < _; omega) h10 gz 0 o (List.replicate 12 0)
    (by rw [h3, h4, hct]; decide)
  rw [h3, h4, h5] at g2
  have := g6 1 (by rw [h3, h4]; decide) 2 (by rw [hct]; decide)
  rw [h3, h4, h5, hct] at this
  exact ⟨d, ps, out, h1, g2, g4, this⟩

set_option maxRecDepth 20000 in
example (p : Profile) : ((Decoder.new p 3 ⟨colourFile, 0⟩).map fun r => (r.map Decoder.totalBytes,
    match r with
    | .ok d => d.readImage p (.of id) 0 sampleOps (List.replicate 12 0)
    | _ => none)) = some (.ok 12, some (.ok [1, 0, 3, 0, 0, 0, 2, 0, 4, 0, 6, 1])) := by
  cases p <;> decide +kernel

end Fitsrs

import Verif.Model.ItBytes
import Verif.Props.C64
/-
C97: the bytes of an iterator over pixels.
-/

namespace Fitsrs
open Spec Fits

/-- **C97**, in full: for an image returned by the iterator of HDUs whose data unit is in memory, `bytes` of the iterator over its
pixels gives the bytes of these pixels, before and after any calls. -/
def C97_statement (p : Profile) : Prop :=
  ∀ (f f' : Fits) (x : Hdu Image) (h : HDU) (n : Nat) (d : ImageData) (ops : List PixelOp),
    h = .primary x ∨ h = .image x → f.next p = (some (.ok h), f') → x.header.xtension.numBytes p = .ok n →
    x.dataOffset + n ≤ f.rd.data.length → f.rd.data.length < 2 ^ 63 → f'.getImage p x = .ok d →
    (d.pixels.after p ops).bytes = (f.rd.data.drop x.dataOffset).take n

/-- The data unit of an HDU that is returned does not start at the beginning of the file. -/
theorem next_ok_after {p : Profile} {f f' : Fits} {h : HDU} (hn : f.next p = (some (.ok h), f')) : 80 ≤ h.dataOffset := by
  have hx : ∀ {c : List Card} {o : Nat} {data : List UInt8}, HeaderAt data o c → 80 ≤ o + roundUp2880 (80 * c.length) := by
    intro c o data hc
    have h1 : 0 < c.length := hc.1
    unfold roundUp2880
    omega
  unfold Fits.next at hn
  split at hn
  · cases hn
  split at hn
  · dsimp only at hn
    have h1 := (record_ok hn).1
    simp only [Option.some.injEq] at h1
    obtain ⟨g1, -, -, g2, -⟩ := newPrimary_ok (rd := f.rd) (h := h) (s' := (HDU.newPrimary f.rd).2) (by rw [← h1])
    rw [g2]
    exact hx g1
  split at hn
  · rename_i rd hc
    dsimp only at hn
    have h1 := (record_ok hn).1
    have h3 : (HDU.newXtension p { rd, nread := 0 }).1 = .ok h := by
      split at h1
      · split at h1
        · cases h1
        · simpa using h1
      · simpa using h1
    obtain ⟨g1, -, g2, -⟩ := newXtension_ok (p := p) (s := { rd, nread := 0 }) (h := h)
      (s' := (HDU.newXtension p { rd, nread := 0 }).2) rfl (by rw [← h3])
    rw [g2]
    exact hx g1
  · have h1 := (record_ok hn).1
    simp at h1
  · have h1 := (record_ok hn).1
    simp at h1

theorem getImage_bytes {p : Profile} {f : Fits} {x : Hdu Image} {d : ImageData} (ops : List PixelOp)
    (hd : f.getImage p x = .ok d) : (d.pixels.after p ops).bytes = f.rd.data := by
  unfold It.bytes
  rw [It.after_rd]
  unfold Fits.getImage ImageData.new at hd
  obtain ⟨n, -, hd⟩ := Res.bind_eq_ok.1 hd
  cases hd
  rfl

/-- **C97, exactly**: `bytes` gives the whole file, before and after any calls, whatever the image. -/
theorem C97_exact {p : Profile} {f f' : Fits} {x : Hdu Image} {h : HDU} {d : ImageData} (k : Nat) (ops : List PixelOp)
    (hn : f.next p = (some (.ok h), f')) (hd : (readData k f').getImage p x = .ok d) :
    (d.pixels.after p ops).bytes = f.rd.data := by
  rw [getImage_bytes ops hd]
  exact (next_ok_state hn).1

/-- **C97 never holds**: the file has at least a header record before the data unit, so `bytes` is never the data unit of an image
returned by the iterator of HDUs, nor any part of it. -/
theorem C97_never {p : Profile} {f f' : Fits} {x : Hdu Image} {h : HDU} {d : ImageData} (ops : List PixelOp)
    (hx : h = .primary x ∨ h = .image x) (hn : f.next p = (some (.ok h), f')) (hd : f'.getImage p x = .ok d) (n : Nat) :
    (d.pixels.after p ops).bytes ≠ (f.rd.data.drop x.dataOffset).take n := by
  have he := (getImage_bytes ops hd).trans (next_ok_state hn).1
  have hoff : h.dataOffset = x.dataOffset := by rcases hx with rfl | rfl <;> rfl
  have h1 := next_ok_after hn
  have h2 := next_ok_inside hn
  rw [hoff] at h1 h2
  intro h3
  rw [he] at h3
  have h4 := congrArg List.length h3
  rw [List.length_take, List.length_drop] at h4
  omega

/-- **C97**, partial: for an iterator that a program makes itself on the bytes of some pixels, alone in memory. -/
theorem C97_partial {p : Profile} {b : Bitpix} {ps : List Pixel} (h : ∀ v ∈ ps, PixelOk b v) (hl : (arrayBytes ps).length < 2 ^ 63)
    (ops : List PixelOp) :
    let it := It.new b ⟨arrayBytes ps, 0⟩ (arrayBytes ps).length
    (it.after p ops).bytes = arrayBytes ps ∧ ∀ k, it.run p (List.replicate k .next) = (List.range k).map fun i => .item ps[i]? := by
  dsimp only
  refine ⟨?_, fun k => ?_⟩
  · unfold It.bytes
    rw [It.after_rd]
    rfl
  · have := C29_pixels (p := p) h [] [] (by simpa using hl) k
    simpa using this

/-- In the sample file, `bytes` of the iterator over the 12 bytes of the second image gives the whole file. -/
example (p : Profile) (ops : List PixelOp) : ∃ d, sampleEnd.getImage p sampleSecondImage = .ok d ∧
    (d.pixels.after p ops).bytes = sampleFile ∧ sampleFile.length = 8652 := by
  refine ⟨_, by unfold Fits.getImage ImageData.new; rw [(sample_fits p).1]; rfl, ?_, by decide +kernel⟩
  exact C97_exact (p := p) (f' := sampleEnd) (x := sampleSecondImage) 0 ops (sample_calls p).2
    (by unfold Fits.getImage ImageData.new; rw [(sample_fits p).1]; rfl)

example : ∃ ps : List Pixel, ps.length = 3 ∧ ∀ v ∈ ps, PixelOk .i16 v := by
  obtain ⟨ps, h1, -, h2⟩ := exists_pixels .i16 3 [0, 1, 2, 3, 4, 5] rfl
  exact ⟨ps, h2, h1⟩

theorem C97_fails (p : Profile) : ¬ C97_statement p := by
  intro hs
  have hd : sampleEnd.getImage p sampleSecondImage = .ok
      { startPos := 8640, numBytes := 12, pixels := It.new .i16 sampleEnd.rd 12 } := by
    unfold Fits.getImage ImageData.new
    rw [(sample_fits p).1]
    rfl
  exact C97_never (p := p) [] (.inr rfl) (sample_calls p).2 hd 12
    (hs _ _ _ _ 12 _ [] (.inr rfl) (sample_calls p).2 (sample_fits p).1 (sample_fits p).2.1 (sample_fits p).2.2 hd)

end Fitsrs

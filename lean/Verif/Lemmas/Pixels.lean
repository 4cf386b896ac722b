import Verif.Spec.Pixels
import Verif.Lemmas.Basic
/-
Helper lemmas on pixels.
-/

namespace Fitsrs
open Spec

theorem beNat_append (a : List UInt8) (b : UInt8) : beNat (a ++ [b]) = 256 * beNat a + b.toNat := by
  simp [beNat, List.foldl_append]

theorem beNat_bigEndian (k n : Nat) : beNat (bigEndian k n) = n % 256 ^ k := by
  induction k generalizing n with
  | zero => simp [bigEndian, beNat, Nat.mod_one]
  | succ k ih =>
    rw [bigEndian, beNat_append, ih, UInt8.toNat_ofNat', Nat.pow_succ 256 k, Nat.mul_comm (256 ^ k) 256, Nat.mod_mul]
    omega

theorem bigEndian_length (k n : Nat) : (bigEndian k n).length = k := by
  induction k generalizing n with
  | zero => rfl
  | succ k ih => simp [bigEndian, ih]

theorem byteSize_eq (b : Bitpix) : b.byteSize = pixelSize b := by cases b <;> rfl

theorem pixelSize_pos (b : Bitpix) : 0 < pixelSize b := by cases b <;> decide

theorem pixelSize_le (b : Bitpix) : pixelSize b ≤ 8 := by cases b <;> decide

theorem pixelBytes_length {b : Bitpix} {v : Pixel} (h : PixelOk b v) : (pixelBytes v).length = pixelSize b := by
  cases b <;> cases v <;> first | exact bigEndian_length _ _ | exact False.elim h

theorem ofBytes_pixelBytes {b : Bitpix} {v : Pixel} (h : PixelOk b v) : Pixel.ofBytes b (pixelBytes v) = v := by
  cases b <;> cases v <;> first
    | exact False.elim h
    | skip
  all_goals simp only [PixelOk] at h
  all_goals simp only [pixelBytes, Pixel.ofBytes, beNat_bigEndian, toSigned]
  · congr 1; omega
  · congr 1
    split <;> omega
  · congr 1
    split <;> omega
  · congr 1
    split <;> omega
  · congr 1; omega
  · congr 1; omega

theorem arrayBytes_length {b : Bitpix} {ps : List Pixel} (h : ∀ v ∈ ps, PixelOk b v) :
    (arrayBytes ps).length = ps.length * pixelSize b := by
  induction ps with
  | nil => simp [arrayBytes]
  | cons v ps ih =>
    have : arrayBytes (v :: ps) = pixelBytes v ++ arrayBytes ps := rfl
    rw [this, List.length_append, pixelBytes_length (h v (by simp)), ih (fun x hx => h x (by simp [hx])),
      List.length_cons, Nat.succ_mul, Nat.add_comm]

theorem arrayBytes_get {b : Bitpix} {ps : List Pixel} (h : ∀ v ∈ ps, PixelOk b v) (i : Nat) (hi : i < ps.length) :
    ((arrayBytes ps).drop (i * pixelSize b)).take (pixelSize b) = pixelBytes ps[i] := by
  induction ps generalizing i with
  | nil => simp at hi
  | cons v ps ih =>
    have e : arrayBytes (v :: ps) = pixelBytes v ++ arrayBytes ps := rfl
    have hl := pixelBytes_length (h v (by simp))
    cases i with
    | zero => rw [e, Nat.zero_mul, List.drop_zero, List.take_append_of_le_length (by omega), ← hl, List.take_length]; rfl
    | succ i =>
      rw [e, Nat.succ_mul, Nat.add_comm, ← hl, ← List.drop_drop, List.drop_left, hl]
      exact ih (fun x hx => h x (by simp [hx])) i (by simpa using hi)

/-- Reading pixel `i` from the file. -/
theorem read_pixel {b : Bitpix} {ps : List Pixel} (h : ∀ v ∈ ps, PixelOk b v) {before after : List UInt8} {i : Nat}
    (hi : i < ps.length) :
    (Reader.mk (before ++ arrayBytes ps ++ after) (before.length + i * pixelSize b)).readExact (pixelSize b) =
      (.ok (pixelBytes ps[i]), ⟨before ++ arrayBytes ps ++ after, before.length + (i + 1) * pixelSize b⟩) := by
  have hlen := arrayBytes_length h
  have hle : (i + 1) * pixelSize b ≤ ps.length * pixelSize b := Nat.mul_le_mul_right _ hi
  have hs : (i + 1) * pixelSize b = i * pixelSize b + pixelSize b := Nat.succ_mul _ _
  rw [Reader.readExact_of_le (by simp only [List.length_append]; omega)]
  dsimp only
  congr 2
  · rw [List.append_assoc, ← List.drop_drop, List.drop_left, List.drop_append_of_le_length (by omega),
      List.take_append_of_le_length (by rw [List.length_drop]; omega)]
    exact arrayBytes_get h i hi
  · rw [hs, ← Nat.add_assoc]

/-- Reading from a file that ends before the end of pixel `i`. -/
theorem read_truncated {data : List UInt8} {pos n : Nat} (hn : 0 < n) (h : data.length < pos + n) :
    (Reader.mk data pos).readExact n = (.err (.io .unexpectedEof), ⟨data, max pos data.length⟩) :=
  Reader.readExact_of_gt hn h

end Fitsrs

namespace Fitsrs
open Spec

/-! ### Decoding any bytes -/

theorem snoc_induction {α : Type} {P : List α → Prop} (h0 : P []) (h1 : ∀ a b, P a → P (a ++ [b])) (l : List α) :
    P l := by
  rw [← List.reverse_reverse l]
  induction l.reverse with
  | nil => exact h0
  | cons x xs ih => rw [List.reverse_cons]; exact h1 _ _ ih

theorem beNat_lt (bs : List UInt8) : beNat bs < 256 ^ bs.length := by
  induction bs using snoc_induction with
  | h0 => simp [beNat]
  | h1 a b ih =>
    rw [beNat_append, List.length_append, List.length_singleton, Nat.pow_succ]
    have := UInt8.toNat_lt b
    omega

theorem bigEndian_beNat (bs : List UInt8) : bigEndian bs.length (beNat bs) = bs := by
  induction bs using snoc_induction with
  | h0 => rfl
  | h1 a b ih =>
    rw [beNat_append, List.length_append, List.length_singleton, bigEndian]
    have h := UInt8.toNat_lt b
    rw [show (256 * beNat a + b.toNat) / 256 = beNat a by omega, ih,
      show (256 * beNat a + b.toNat) % 256 = b.toNat by omega, UInt8.ofNat_toNat]

theorem ofBytes_ok (b : Bitpix) (bs : List UInt8) (h : bs.length = pixelSize b) :
    PixelOk b (Pixel.ofBytes b bs) ∧ pixelBytes (Pixel.ofBytes b bs) = bs := by
  have h1 := beNat_lt bs
  have h2 := bigEndian_beNat bs
  rw [h] at h1 h2
  cases b <;> simp only [pixelSize] at h1 h2 <;> simp only [Pixel.ofBytes, PixelOk, pixelBytes, toSigned] <;>
    generalize beNat bs = n at *
  · exact ⟨by omega, h2⟩
  · have e : ((if n < 2 ^ (16 - 1) then (n : Int) else n - 2 ^ 16) % 2 ^ 16).toNat = n := by split <;> omega
    rw [e]
    exact ⟨by split <;> omega, h2⟩
  · have e : ((if n < 2 ^ (32 - 1) then (n : Int) else n - 2 ^ 32) % 2 ^ 32).toNat = n := by split <;> omega
    rw [e]
    exact ⟨by split <;> omega, h2⟩
  · have e : ((if n < 2 ^ (64 - 1) then (n : Int) else n - 2 ^ 64) % 2 ^ 64).toNat = n := by split <;> omega
    rw [e]
    exact ⟨by split <;> omega, h2⟩
  · exact ⟨by omega, h2⟩
  · exact ⟨by omega, h2⟩

/-- Any bytes are those of an array of pixels. -/
theorem exists_pixels (b : Bitpix) (k : Nat) (bs : List UInt8) (h : bs.length = k * pixelSize b) :
    ∃ ps : List Pixel, (∀ v ∈ ps, PixelOk b v) ∧ arrayBytes ps = bs ∧ ps.length = k := by
  induction k generalizing bs with
  | zero => exact ⟨[], by simp, by simpa [arrayBytes] using (List.length_eq_zero_iff.1 (by simpa using h)).symm, rfl⟩
  | succ k ih =>
    rw [Nat.succ_mul] at h
    obtain ⟨ps, g1, g2, g3⟩ := ih (bs.drop (pixelSize b)) (by rw [List.length_drop]; omega)
    obtain ⟨e1, e2⟩ := ofBytes_ok b (bs.take (pixelSize b)) (by rw [List.length_take]; omega)
    refine ⟨Pixel.ofBytes b (bs.take (pixelSize b)) :: ps, ?_, ?_, by simp [g3]⟩
    · intro v hv
      rcases List.mem_cons.1 hv with rfl | hv
      · exact e1
      · exact g1 v hv
    · show pixelBytes _ ++ arrayBytes ps = bs
      rw [e2, g2, List.take_append_drop]

/-! ### The iterator -/

/-- The iterator standing before pixel `c`, when `n` pixels are announced. -/
def itAt (b : Bitpix) (data : List UInt8) (start n c : Nat) : It :=
  { ty := b, rd := ⟨data, start + c * pixelSize b⟩, numItems := n, cur := c }

theorem itAt_zero {b : Bitpix} {data : List UInt8} {start n : Nat} {limit : Nat} (h : limit = n * pixelSize b) :
    It.new b ⟨data, start⟩ limit = itAt b data start n 0 := by
  unfold It.new itAt
  rw [byteSize_eq, h, Nat.mul_div_cancel _ (pixelSize_pos b), Nat.zero_mul, Nat.add_zero]

/-- The file: `ps` are the pixels entirely in it, out of `n`. -/
structure Avail (b : Bitpix) (data : List UInt8) (start n : Nat) (ps : List Pixel) : Prop where
  ok : ∀ v ∈ ps, PixelOk b v
  le : ps.length ≤ n
  bytes : ∃ before after, data = before ++ arrayBytes ps ++ after ∧ before.length = start ∧
    (ps.length < n → after.length < pixelSize b)
  fits : start + n * pixelSize b < 2 ^ 63

section
variable {b : Bitpix} {data : List UInt8} {start n : Nat} {ps : List Pixel}

theorem next_avail (h : Avail b data start n ps) {c : Nat} (hc : c < ps.length) :
    (itAt b data start n c).next = (some ps[c], itAt b data start n (c + 1)) := by
  obtain ⟨before, after, rfl, rfl, -⟩ := h.bytes
  have hn := h.le
  unfold It.next itAt
  dsimp only
  rw [if_neg (by omega), byteSize_eq, read_pixel h.ok hc]
  dsimp only
  rw [ofBytes_pixelBytes (h.ok _ (List.getElem_mem _))]

theorem next_end (c : Nat) (hc : c = n) :
    (itAt b data start n c).next = (none, itAt b data start n c) := by
  unfold It.next itAt
  dsimp only
  rw [if_pos hc]

theorem next_missing (h : Avail b data start n ps) {c : Nat} (hc : ps.length ≤ c) (hn : c < n) :
    ∃ it, (itAt b data start n c).next = (none, it) ∧ it.ty = b ∧ it.rd.data = data ∧ data.length ≤ it.rd.pos := by
  obtain ⟨before, after, rfl, rfl, ha⟩ := h.bytes
  have hl := arrayBytes_length h.ok
  have hm : ps.length * pixelSize b ≤ c * pixelSize b := Nat.mul_le_mul_right _ hc
  have := ha (by omega)
  unfold It.next itAt
  dsimp only
  rw [if_neg (by omega), byteSize_eq, read_truncated (pixelSize_pos b)
    (by simp only [List.length_append]; omega)]
  dsimp only
  exact ⟨_, rfl, rfl, rfl, Nat.le_max_right _ _⟩

theorem next_dead {it : It} (h : it.rd.data.length ≤ it.rd.pos) :
    ∃ it', it.next = (none, it') ∧ it'.rd.data.length ≤ it'.rd.pos := by
  unfold It.next
  by_cases hc : it.cur = it.numItems
  · rw [if_pos hc]; exact ⟨it, rfl, h⟩
  · have hp := pixelSize_pos it.ty
    rw [if_neg hc, byteSize_eq, Reader.readExact_of_gt hp (by omega)]
    dsimp only
    exact ⟨_, rfl, Nat.le_max_right _ _⟩

theorem asI64_lt {n : Nat} (h : n < 2 ^ 63) : asI64 n = n := by
  unfold asI64
  rw [if_pos h]

theorem i64op_fits {p : Profile} {x : Int} (h : -(2 ^ 63) ≤ x ∧ x < 2 ^ 63) : i64op p x = .ok x := by
  unfold i64op
  rw [if_pos h]

theorem seek_pixel (h : Avail b data start n ps) {c i : Nat} (hc : c ≤ n) (hi : i < n) :
    ∃ off, (itAt b data start n c).readOffset p i = .ok off ∧
    (Reader.mk data (start + c * pixelSize b)).seekRelative off = (.ok (), ⟨data, start + i * pixelSize b⟩) := by
  have hf := h.fits
  have hp := pixelSize_pos b
  have h1 : n * 1 ≤ n * pixelSize b := Nat.mul_le_mul_left _ hp
  have h2 : i * pixelSize b ≤ n * pixelSize b := Nat.mul_le_mul_right _ (by omega)
  have h3 : c * pixelSize b ≤ n * pixelSize b := Nat.mul_le_mul_right _ hc
  have hoff : ((i : Int) - c) * pixelSize b = (i * pixelSize b : Nat) - (c * pixelSize b : Nat) := by
    rw [Int.sub_mul, Int.natCast_mul, Int.natCast_mul]
  refine ⟨((i : Int) - c) * pixelSize b, ?_, ?_⟩
  · unfold It.readOffset
    dsimp only [itAt]
    rw [byteSize_eq, asI64_lt (by omega), asI64_lt (by omega), i64op_fits ⟨by omega, by omega⟩]
    simp only [Res.bind_ok]
    exact i64op_fits ⟨by omega, by omega⟩
  have key : ((start + c * pixelSize b : Nat) : Int) + ((i : Int) - c) * pixelSize b = (start + i * pixelSize b : Nat) := by
    rw [Int.sub_mul, Int.natCast_add, Int.natCast_add, Int.natCast_mul, Int.natCast_mul]
    omega
  unfold Reader.seekRelative
  dsimp only
  rw [key, if_pos ⟨by omega, by rw [show (two64 : Int) = 2 ^ 64 from rfl]; omega⟩]
  rw [Int.toNat_natCast]

theorem read_avail (h : Avail b data start n ps) {c i : Nat} (hc : c ≤ n) (hi : i < ps.length) :
    (itAt b data start n c).readValue p i = (.ok ps[i], itAt b data start n (i + 1)) := by
  have hn := h.le
  have e := next_avail h hi
  unfold It.readValue
  rw [if_neg (show ¬ i ≥ (itAt b data start n c).numItems from by show ¬ i ≥ n; omega)]
  obtain ⟨off, h1, h2⟩ := seek_pixel (p := p) h hc (show i < n by omega)
  rw [h1]
  dsimp only
  unfold It.readAt
  dsimp only [itAt]
  rw [h2]
  dsimp only
  unfold itAt at e
  rw [e]

theorem read_out (h : n ≤ i) :
    ∃ e, (itAt b data start n c).readValue p i = (.err e, itAt b data start n c) := by
  unfold It.readValue
  rw [if_pos (by exact h)]
  exact ⟨_, rfl⟩

theorem read_missing (h : Avail b data start n ps) {c i : Nat} (hc : c ≤ n) (hi : ps.length ≤ i) (hn : i < n) :
    ∃ e it, (itAt b data start n c).readValue p i = (.err e, it) ∧ it.rd.data.length ≤ it.rd.pos := by
  obtain ⟨it, e, -, k2, k3⟩ := next_missing h hi hn
  unfold It.readValue
  rw [if_neg (show ¬ i ≥ (itAt b data start n c).numItems from by show ¬ i ≥ n; omega)]
  obtain ⟨off, h1, h2⟩ := seek_pixel (p := p) h hc (show i < n by omega)
  rw [h1]
  dsimp only
  unfold It.readAt
  dsimp only [itAt]
  rw [h2]
  dsimp only
  unfold itAt at e
  rw [e]
  exact ⟨_, _, rfl, by rw [k2]; exact k3⟩

end

end Fitsrs

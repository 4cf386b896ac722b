import Verif.Lemmas.Tile
import Verif.Lemmas.Rice
import Verif.Props.C40_C42
/-
The integers read in the bytes of a tile.
-/

namespace Fitsrs
open Spec TileIt

theorem flatMap4_length {α : Type} {f : α → List UInt8} (hf : ∀ a, (f a).length = 4) (l : List α) :
    (l.flatMap f).length = 4 * l.length := by
  induction l with
  | nil => rfl
  | cons a l ih => rw [List.flatMap_cons, List.length_append, hf, ih, List.length_cons]; omega

theorem flatMap4_get {α : Type} {f : α → List UInt8} (hf : ∀ a, (f a).length = 4) {l : List α} {i : Nat} {a : α}
    (h : l[i]? = some a) {j : Nat} (hj : j < 4) : (l.flatMap f)[4 * i + j]? = (f a)[j]? := by
  induction l generalizing i with
  | nil => cases h
  | cons b l ih =>
    rw [List.flatMap_cons]
    cases i with
    | zero =>
      cases h
      rw [List.getElem?_append_left (by rw [hf]; omega)]
      simp
    | succ i =>
      rw [List.getElem?_append_right (by rw [hf]; omega), hf, show 4 * (i + 1) + j - 4 = 4 * i + j by omega]
      exact ih h

theorem byteAt_some {buf : List UInt8} {i : Nat} {b : UInt8} (h : buf[i]? = some b) : byteAt buf i = .ok b := by
  unfold byteAt; rw [h]

theorem ofNat_mod (n : Nat) : (UInt8.ofNat n).toNat = n % 256 := by simp

/-- The three readings of four bytes, most significant first at `i0`. -/
theorem raw4 {ty : Bitpix} {v : Int} (h : InType ty v) {b0 b1 b2 b3 : UInt8}
    (hb : 16777216 * b0.toNat + 65536 * b1.toNat + 256 * b2.toNat + b3.toNat = (v % 2 ^ 32).toNat) :
    ofNat ty (match ty with
      | .u8 => b3.toNat
      | .i16 => 256 * b2.toNat + b3.toNat
      | _ => 256 * (256 * (256 * b0.toNat + b1.toNat) + b2.toNat) + b3.toNat) = v := by
  have y0 : b0.toNat < 256 := b0.toNat_lt
  have y1 : b1.toNat < 256 := b1.toNat_lt
  have y2 : b2.toNat < 256 := b2.toNat_lt
  have y3 : b3.toNat < 256 := b3.toNat_lt
  have h32 : InI32 v → toSigned 32 (256 * (256 * (256 * b0.toNat + b1.toNat) + b2.toNat) + b3.toNat) = v := by
    intro hv
    rw [show 256 * (256 * (256 * b0.toNat + b1.toNat) + b2.toNat) + b3.toNat = (v % 2 ^ 32).toNat by omega]
    exact toSigned_mod hv
  cases ty with
  | u8 =>
    have h : 0 ≤ v ∧ v < 2 ^ 8 := h
    show ((b3.toNat : Nat) : Int) = v
    omega
  | i16 =>
    have h : -(2 ^ 15) ≤ v ∧ v < 2 ^ 15 := h
    show toSigned 16 (256 * b2.toNat + b3.toNat) = v
    unfold toSigned
    split <;> omega
  | i32 => exact h32 h
  | i64 => exact h32 h
  | f32 => exact h32 h
  | f64 => exact h32 h

/-- The four bytes of a pixel. -/
def fourBytes (v : Int) : List UInt8 := bigEndian 4 (v % 2 ^ 32).toNat

theorem plainBytes_eq (px : List Int) : plainBytes px = px.flatMap fourBytes := rfl

theorem fourBytes_length (v : Int) : (fourBytes v).length = 4 := rfl

theorem plainBytes_length (px : List Int) : (plainBytes px).length = 4 * px.length :=
  flatMap4_length fourBytes_length px

/-- Bytes written plainly. -/
theorem rawValue_plain {ty : Bitpix} {px : List Int} {i : Nat} {v : Int} (hi : px[i]? = some v) (h : InType ty v) :
    rawValue ty .gzip1 (plainBytes px) i = .ok v := by
  have hg : ∀ j, j < 4 → (plainBytes px)[4 * i + j]? = (bigEndian 4 (v % 2 ^ 32).toNat)[j]? :=
    fun j hj => by
      rw [plainBytes_eq]
      exact flatMap4_get fourBytes_length hi hj
  generalize plainBytes px = buf at hg ⊢
  have hlt : (v % 2 ^ 32).toNat < 2 ^ 32 := by omega
  generalize hn : (v % 2 ^ 32).toNat = n at hg hlt
  have g0 : buf[4 * i]? = some (UInt8.ofNat (n / 256 / 256 / 256 % 256)) := hg 0 (by decide)
  have g1 : buf[4 * i + 1]? = some (UInt8.ofNat (n / 256 / 256 % 256)) := hg 1 (by decide)
  have g2 : buf[4 * i + 2]? = some (UInt8.ofNat (n / 256 % 256)) := hg 2 (by decide)
  have g3 : buf[4 * i + 3]? = some (UInt8.ofNat (n % 256)) := hg 3 (by decide)
  have key := raw4 (v := v) h (b0 := UInt8.ofNat (n / 256 / 256 / 256 % 256)) (b1 := UInt8.ofNat (n / 256 / 256 % 256))
    (b2 := UInt8.ofNat (n / 256 % 256)) (b3 := UInt8.ofNat (n % 256)) (by rw [hn]; simp only [ofNat_mod]; omega)
  unfold rawValue
  dsimp only
  cases ty <;> dsimp only [indices] <;> simp only [bytesNat, byteAt_some g0, byteAt_some g1, byteAt_some g2, byteAt_some g3,
    Res.bind_ok, Res.map_ok, Nat.mul_zero, Nat.zero_add] <;> exact congrArg Res.ok key

theorem rawValue_shuffled {ty : Bitpix} (ht : ty ≠ .u8) {px : List Int} {i : Nat} {v : Int} (hi : px[i]? = some v)
    (h : InType ty v) : rawValue ty .gzip2 (shuffle (plainBytes px)) i = .ok v := by
  rw [rawValue_shuffle ht (plainBytes_length px), rawValue_plain hi h]

/-- Bytes given by the RICE decoder. -/
theorem rawValue_rice {ty : Bitpix} {nblock : Nat} {px : List Int} {i : Nat} {v : Int} (hi : px[i]? = some v)
    (h : InType ty v) : rawValue ty (.rice nblock) (px.flatMap littleEndian) i = .ok v := by
  have hg : ∀ j, j < 4 → (px.flatMap littleEndian)[4 * i + j]? = (littleEndian v)[j]? :=
    fun j hj => flatMap4_get (f := littleEndian) (fun _ => rfl) hi hj
  generalize px.flatMap littleEndian = buf at hg ⊢
  have hlt : (v % 2 ^ 32).toNat < 2 ^ 32 := by omega
  have g0 : buf[4 * i]? = some (UInt8.ofNat (v % 2 ^ 32).toNat) := hg 0 (by decide)
  have g1 : buf[4 * i + 1]? = some (UInt8.ofNat ((v % 2 ^ 32).toNat / 256)) := hg 1 (by decide)
  have g2 : buf[4 * i + 2]? = some (UInt8.ofNat ((v % 2 ^ 32).toNat / 65536)) := hg 2 (by decide)
  have g3 : buf[4 * i + 3]? = some (UInt8.ofNat ((v % 2 ^ 32).toNat / 16777216)) := hg 3 (by decide)
  generalize hn : (v % 2 ^ 32).toNat = n at hlt g0 g1 g2 g3
  have key := raw4 (v := v) h (b0 := UInt8.ofNat (n / 16777216)) (b1 := UInt8.ofNat (n / 65536))
    (b2 := UInt8.ofNat (n / 256)) (b3 := UInt8.ofNat n) (by rw [hn]; simp only [ofNat_mod]; omega)
  unfold rawValue
  dsimp only
  cases ty <;> dsimp only [indices] <;> simp only [bytesNat, byteAt_some g0, byteAt_some g1, byteAt_some g2, byteAt_some g3,
    Res.bind_ok, Res.map_ok, Nat.mul_zero, Nat.zero_add] <;> exact congrArg Res.ok key

/-- A tile that holds some pixels, followed by anything. -/
theorem decompress_holds {p : Profile} {gz : Gunzip} {fuel : Nat} {cmp : ZCmpType} {px : List Int}
    {bytes rest : List UInt8} {ty : Bitpix} (hg : ∀ a b, gz a <+: gz (a ++ b)) (h : Holds gz cmp px bytes)
    (hty : ∀ v ∈ px, InType ty v) (h8 : ty = .u8 → cmp ≠ .gzip2)
    (hr : ∀ nblock, cmp = .rice nblock →
      (p = .wrapping ∨ Smooth px) ∧ px.length + nblock ≤ 2 ^ 31 ∧ 2 * px.length + 1 ≤ fuel) :
    ∃ buf, decompress p gz fuel cmp px.length (4 * px.length) (bytes ++ rest) = some (.ok buf) ∧
      buf.length = 4 * px.length ∧ ∀ (i : Nat) (v : Int), px[i]? = some v → rawValue ty cmp buf i = .ok v := by
  have hin : ∀ v ∈ px, InI32 v := by
    intro v hv
    have := hty v hv
    unfold InI32
    cases ty <;> unfold InType at this <;> first | omega | exact this
  have take_prefix : ∀ {a b c : List UInt8}, a <+: b → b <+: c → a.length = 4 * px.length →
      4 * px.length ≤ c.length ∧ c.take (4 * px.length) = a := by
    intro a b c h1 h2 h3
    have h := h1.trans h2
    have := h.length_le
    refine ⟨by omega, ?_⟩
    rw [← h3]
    exact (List.prefix_iff_eq_take.1 h).symm
  have hlen := plainBytes_length px
  cases cmp with
  | gzip1 =>
    obtain ⟨h1, h2⟩ := take_prefix h (hg bytes rest) hlen
    refine ⟨plainBytes px, ?_, hlen, fun i v hi => rawValue_plain hi (hty v (List.mem_of_getElem? hi))⟩
    unfold decompress
    dsimp only
    rw [if_pos h1, h2]
  | gzip2 =>
    have hs := shuffle_length hlen
    obtain ⟨h1, h2⟩ := take_prefix h (hg bytes rest) hs
    refine ⟨shuffle (plainBytes px), ?_, hs, fun i v hi =>
      rawValue_shuffled (fun h => h8 h rfl) hi (hty v (List.mem_of_getElem? hi))⟩
    unfold decompress
    dsimp only
    rw [if_pos h1, h2]
  | rice nblock =>
    obtain ⟨r1, r2, r3⟩ := hr nblock rfl
    have h' : IsRice nblock px (bytes ++ rest) := by
      obtain ⟨first, bits, pad, h1, h2, h3⟩ := (show IsRice nblock px bytes from h)
      refine ⟨first, bits, pad ++ byteBits rest, h1, h2, ?_⟩
      unfold byteBits at h3 ⊢
      rw [List.flatMap_append, h3]
      simp only [List.append_assoc]
    refine ⟨px.flatMap littleEndian, ?_, flatMap4_length (fun _ => rfl) px, fun i v hi =>
      rawValue_rice hi (hty v (List.mem_of_getElem? hi))⟩
    unfold decompress
    dsimp only
    rw [tile_ok hin r2 r1 h' r3]
    rfl
  | plio1 => exact False.elim h
  | hcompress1 => exact False.elim h

/-- Any buffer has integers. -/
theorem rawValue_some {ty : Bitpix} {cmp : ZCmpType} {buf : List UInt8} {n i : Nat} (h : buf.length = 4 * n) (hi : i < n)
    (hc : cmp ≠ .plio1 ∧ cmp ≠ .hcompress1) : ∃ v, rawValue ty cmp buf i = .ok v := by
  have key : ∀ is : List Nat, (∀ j ∈ is, j < buf.length) → ∀ acc, ∃ m, bytesNat buf is acc = .ok m := by
    intro is
    induction is with
    | nil => intro _ acc; exact ⟨acc, rfl⟩
    | cons j is ih =>
      intro hj acc
      rw [bytesNat, byteAt_some (List.getElem?_eq_getElem (hj j (List.mem_cons_self ..))), Res.bind_ok]
      exact ih (fun k hk => hj k (List.mem_cons_of_mem _ hk)) _
  have hin : ∀ j ∈ indices ty cmp buf.length i, j < buf.length := by
    have e : buf.length / 4 = n := by omega
    intro j hj
    unfold indices at hj
    rw [e] at hj
    split at hj <;> simp only [List.mem_cons, List.not_mem_nil, or_false] at hj <;> omega
  obtain ⟨m, hm⟩ := key _ hin 0
  unfold rawValue
  split
  · exact absurd rfl hc.1
  · exact absurd rfl hc.2
  · rw [hm]; exact ⟨_, rfl⟩

end Fitsrs

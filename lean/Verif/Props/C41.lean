import Verif.Lemmas.RiceChecked
import Verif.Props.C40_C42
/-
C40 and C41 in checked builds, exactly: which streams make the RICE decoder panic.
-/

namespace Fitsrs
open Spec Rice

theorem four_lt (b0 b1 b2 b3 : UInt8) : beNat [b0, b1, b2, b3] < 2 ^ 32 := by
  have y0 : b0.toNat < 256 := b0.toNat_lt
  have y1 : b1.toNat < 256 := b1.toNat_lt
  have y2 : b2.toNat < 256 := b2.toNat_lt
  have y3 : b3.toNat < 256 := b3.toNat_lt
  have e : beNat [b0, b1, b2, b3] = 256 * (256 * (256 * (256 * 0 + b0.toNat) + b1.toNat) + b2.toNat) + b3.toNat := rfl
  omega

/-- **C41** in checked builds, exactly, for streams of less than 256 MiB: decoding ends; where the release build reports an
error, the checked build reports it or panics; where the release build gives pixels, the checked build gives the same
pixels if each differs from the one before (the first one, from the number in the first four bytes) by a 32-bit integer,
and panics otherwise. -/
theorem C41_exact (nblock n : Nat) (bytes : List UInt8) (fuel : Nat) (hnb : 0 < nblock) (hn : n + nblock ≤ 2 ^ 31)
    (hf : 2 * n + 1 ≤ fuel) (hb : bytes.length < 2 ^ 28) :
    (tile .wrapping fuel nblock n bytes = some (.err (.io .unexpectedEof)) ∧
      (tile .checked fuel nblock n bytes = some (.err (.io .unexpectedEof)) ∨
        tile .checked fuel nblock n bytes = some .panic)) ∨
    ∃ out, tile .wrapping fuel nblock n bytes = some (.ok out) ∧
      (StepsFit (toSigned 32 (beNat (bytes.take 4))) out → tile .checked fuel nblock n bytes = some (.ok out)) ∧
      (¬ StepsFit (toSigned 32 (beNat (bytes.take 4))) out → tile .checked fuel nblock n bytes = some .panic) := by
  obtain ⟨r, h1, h2, -⟩ := C41_release nblock n bytes fuel hnb hn hf
  have hle := tile_le fuel nblock n bytes
  rw [h1] at hle ⊢
  cases r with
  | panic => exact absurd rfl h2
  | err e =>
    left
    have he : e = .io .unexpectedEof := by
      unfold tile at h1
      by_cases h0 : n = 0
      · rw [if_pos h0] at h1; cases h1
      · rw [if_neg h0, toSigned_nat (by omega)] at h1
        obtain ⟨fuel, rfl⟩ : ∃ k, fuel = k + 1 := ⟨fuel - 1, by omega⟩
        match bytes with
        | b0 :: b1 :: b2 :: b3 :: b :: inp =>
          have hs : step .wrapping { nblock := nblock, nx := (n : Int) } n (.start (b0 :: b1 :: b2 :: b3 :: b :: inp)) =
              .ok ([], .fs { b := b.toNat, nbits := 8, inp } ((0 : Nat) : Int) (toSigned 32 (beNat [b0, b1, b2, b3])),
                false) := rfl
          rw [read_fs hs] at h1
          rcases read_any hnb (nx := (n : Int)) (by omega) n { b := b.toNat, nbits := 8, inp } 0 fuel
            (toSigned 32 (beNat [b0, b1, b2, b3]))
            ⟨(by decide : (0 : Int) ≤ 8), (by decide : (8 : Int) ≤ (8 : Nat)), b.toNat_lt⟩
            (toSigned_in _ (four_lt ..)) (by omega) (by omega) (by omega) with h | ⟨out, st, h, -⟩
          · rw [h] at h1; cases h1; rfl
          · rw [h] at h1; cases h1
        | [] | [_] | [_, _] | [_, _, _] | [_, _, _, _] =>
          rw [read_err (e := .io .unexpectedEof) rfl] at h1
          cases h1
          rfl
    subst he
    refine ⟨rfl, ?_⟩
    rcases hle with h | h
    · exact Or.inr h
    · exact Or.inl h
  | ok out =>
    right
    refine ⟨out, rfl, ?_⟩
    unfold tile at h1 ⊢
    by_cases h0 : n = 0
    · rw [if_pos h0] at h1 ⊢
      cases h1
      exact ⟨fun _ => rfl, fun h => absurd trivial h⟩
    · rw [if_neg h0, toSigned_nat (by omega)] at h1 ⊢
      obtain ⟨fuel, rfl⟩ : ∃ k, fuel = k + 1 := ⟨fuel - 1, by omega⟩
      match bytes, hb with
      | b0 :: b1 :: b2 :: b3 :: b :: inp, hb =>
        have hs : ∀ p, step p { nblock := nblock, nx := (n : Int) } n (.start (b0 :: b1 :: b2 :: b3 :: b :: inp)) =
            .ok ([], .fs { b := b.toNat, nbits := 8, inp } ((0 : Nat) : Int) (toSigned 32 (beNat [b0, b1, b2, b3])),
              false) := fun _ => rfl
        rw [read_fs (hs _)] at h1 ⊢
        obtain ⟨r, h3, h4⟩ := Option.map_eq_some_iff.1 h1
        obtain ⟨⟨o, st⟩, rfl, h4⟩ := Res.map_eq_ok.1 h4
        cases h4
        simp only [List.length_cons] at hb
        obtain ⟨c1, c2⟩ := read_checked hnb (nx := (n : Int)) (by omega) n { b := b.toNat, nbits := 8, inp } 0 fuel
          (toSigned 32 (beNat [b0, b1, b2, b3]))
          ⟨(by decide : (0 : Int) ≤ 8), (by decide : (8 : Int) ≤ (8 : Nat)), b.toNat_lt⟩
          (show 8 * inp.length + 32 < 2 ^ 31 by omega)
          (toSigned_in _ (four_lt ..)) (by omega) (by omega) (by omega) _ _ h3
        exact ⟨fun h => by rw [c1 h]; rfl, fun h => by rw [c2 h]; rfl⟩
      | [], _ | [_], _ | [_, _], _ | [_, _, _], _ | [_, _, _, _], _ =>
        rw [read_err (e := .io .unexpectedEof) rfl] at h1
        cases h1

/-- The first four bytes are the first pixel. -/
theorem first_of {nblock : Nat} {v : Int} {vs : List Int} {bytes : List UInt8} (hv : InI32 v)
    (h : IsRice nblock (v :: vs) bytes) : toSigned 32 (beNat (bytes.take 4)) = v := by
  obtain ⟨first, bits, pad, h1, h2, h3⟩ := h
  cases h1
  have hl := congrArg List.length h3
  rw [List.append_assoc, List.length_append, bitsOf_length, byteBits_length] at hl
  have hlt : (v % 2 ^ 32).toNat < 2 ^ 32 := by omega
  match bytes, h3, hl with
  | b0 :: b1 :: b2 :: b3 :: inp, h3, _ =>
    have e : beNat [b0, b1, b2, b3] = 256 * (256 * (256 * (256 * 0 + b0.toNat) + b1.toNat) + b2.toNat) + b3.toNat := rfl
    have h' : bitsOf 0 0 ++ byteBits (b0 :: b1 :: b2 :: b3 :: inp) = bitsOf 32 (v % 2 ^ 32).toNat ++ (bits ++ pad) := by
      rw [List.append_assoc] at h3
      exact h3
    rw [bitsOf_byte, bitsOf_byte, bitsOf_byte, bitsOf_byte, ← e] at h'
    obtain ⟨h4, -⟩ := bitsOf_append_inj (four_lt ..) hlt h'
    show toSigned 32 (beNat [b0, b1, b2, b3]) = v
    rw [h4, toSigned_mod hv]
  | [], _, hl | [_], _, hl | [_, _], _, hl | [_, _, _], _, hl =>
    simp only [List.length_cons, List.length_nil] at hl
    omega

/-- **C40** in checked builds, exactly, for streams of less than 256 MiB: the pixels are given if each of them differs
from the one before by a 32-bit integer; otherwise the decoder panics. -/
theorem C40_exact (nblock : Nat) (v : Int) (vs : List Int) (bytes : List UInt8) (fuel : Nat)
    (hi : ∀ w ∈ v :: vs, InI32 w) (hn : (v :: vs).length + nblock ≤ 2 ^ 31) (h : IsRice nblock (v :: vs) bytes)
    (hf : 2 * (v :: vs).length + 1 ≤ fuel) (hb : bytes.length < 2 ^ 28) :
    (StepsFit v vs → tile .checked fuel nblock (v :: vs).length bytes = some (.ok (v :: vs))) ∧
    (¬ StepsFit v vs → tile .checked fuel nblock (v :: vs).length bytes = some .panic) := by
  have hv := hi v (List.mem_cons_self ..)
  have hnb : 0 < nblock := by
    obtain ⟨_, _, _, -, h2, -⟩ := h
    exact blocks_pos h2 (by simp)
  have h1 := C40_release nblock (v :: vs) bytes fuel hi hn h hf
  have key : StepsFit v (v :: vs) ↔ StepsFit v vs :=
    ⟨fun h => h.2, fun h => ⟨by rw [Int.sub_self]; unfold InI32; decide, h⟩⟩
  rcases C41_exact nblock (v :: vs).length bytes fuel hnb hn hf hb with ⟨h2, -⟩ | ⟨out, h2, h3, h4⟩
  · rw [h1] at h2; cases h2
  · rw [h1] at h2
    cases h2
    rw [first_of hv h, key] at h3 h4
    exact ⟨h3, h4⟩

/-- The greatest and the least pixel. -/
example : tile .checked 5 2 2 [127, 255, 255, 255, 12, 128] = some .panic :=
  (C40_exact 2 2147483647 [-2147483648] _ 5 (by unfold InI32; decide) (by decide) extreme_code (by decide)
    (by decide)).2 (by simp [StepsFit, InI32])

example (fuel : Nat) (h : 13 ≤ fuel) : tile .checked fuel 2 6 riceBytes = some (.ok ricePixels) :=
  (C40_exact 2 7 [7, 8, 3, -500000000, -499999999] riceBytes fuel (by unfold InI32; decide) (by decide) riceBytes_code h
    (by decide)).1 (by simp [StepsFit, InI32])

end Fitsrs

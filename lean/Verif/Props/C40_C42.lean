import Verif.Lemmas.Rice
/-
C40 RICE decoding inverts RICE encoding, C41 RICE decoding of arbitrary bytes, C42 the sizes of the reads.
-/

namespace Fitsrs
open Spec Rice

/-! ## C40 -/

/-- **C40**, the full statement: the bytes that code a list of 32-bit pixels, with any block size and any coding of the
blocks that the format permits, are decoded to these pixels.  The sizes are those for which the index of a pixel is an
`i32`. -/
def C40_statement (p : Profile) : Prop :=
  ∀ (nblock : Nat) (pixels : List Int) (bytes : List UInt8) (fuel : Nat),
    (∀ v ∈ pixels, InI32 v) → pixels.length + nblock ≤ 2 ^ 31 → IsRice nblock pixels bytes →
    2 * pixels.length + 1 ≤ fuel → tile p fuel nblock pixels.length bytes = some (.ok pixels)

theorem chain_of {p : Profile} {last : Int} {vs : List Int} (h : ∀ v ∈ vs, InI32 v)
    (hs : p = .wrapping ∨ Smooth (last :: vs)) : Chain p last vs := by
  induction vs generalizing last with
  | nil => trivial
  | cons v vs ih =>
    refine ⟨h v (List.mem_cons_self ..), hs.imp id fun hs => hs.1, ?_⟩
    exact ih (fun w hw => h w (List.mem_cons_of_mem _ hw)) (hs.imp id fun hs => hs.2)

theorem toSigned_mod {v : Int} (h : InI32 v) : toSigned 32 (v % 2 ^ 32).toNat = v := by
  rw [toSigned_wrap, wrap32_of h]

/-- The first turn of the loop. -/
theorem step_start {p : Profile} {q : Params} {room : Nat} {bytes : List UInt8} {v : Nat} {rest : List Bool}
    (hv : v < 2 ^ 32) (hr : rest ≠ []) (h : byteBits bytes = bitsOf 32 v ++ rest) :
    ∃ s, step p q room (.start bytes) = .ok ([], .fs s 0 (toSigned 32 v), false) ∧ s.Ok 8 ∧ s.stream = rest := by
  have hl := congrArg List.length h
  have hrl : 0 < rest.length := List.length_pos_iff.2 hr
  rw [List.length_append, bitsOf_length, byteBits_length] at hl
  match bytes, h, hl with
  | b0 :: b1 :: b2 :: b3 :: b :: inp, h, hl =>
    have y0 : b0.toNat < 256 := b0.toNat_lt
    have y1 : b1.toNat < 256 := b1.toNat_lt
    have y2 : b2.toNat < 256 := b2.toNat_lt
    have y3 : b3.toNat < 256 := b3.toNat_lt
    have e : beNat [b0, b1, b2, b3] = 256 * (256 * (256 * (256 * 0 + b0.toNat) + b1.toNat) + b2.toNat) + b3.toNat := rfl
    have h' : bitsOf 0 0 ++ byteBits (b0 :: b1 :: b2 :: b3 :: b :: inp) = bitsOf 32 v ++ rest := h
    rw [bitsOf_byte, bitsOf_byte, bitsOf_byte, bitsOf_byte, ← e] at h'
    obtain ⟨h1, h2⟩ := bitsOf_append_inj (by rw [e]; omega) hv h'
    refine ⟨{ b := b.toNat, nbits := 8, inp }, by rw [← h1]; rfl, ⟨(by decide : (0 : Int) ≤ 8), (by decide : (8 : Int) ≤ (8 : Nat)), b.toNat_lt⟩, ?_⟩
    rw [← h2]
    rfl
  | [], _, hl | [_], _, hl | [_, _], _, hl | [_, _, _], _, hl | [_, _, _, _], _, hl =>
    simp only [List.length_cons, List.length_nil] at hl
    omega

theorem blocks_ne {nblock : Nat} {last : Int} {vs : List Int} {bits : List Bool} (h : Blocks nblock last vs bits)
    (hv : vs ≠ []) : bits ≠ [] := by
  cases h with
  | nil => exact absurd rfl hv
  | block c h0 h1 h2 h3 =>
    cases c <;> simp [blockBits, bitsOf]

theorem blocks_pos {nblock : Nat} {last : Int} {vs : List Int} {bits : List Bool} (h : Blocks nblock last vs bits)
    (hv : vs ≠ []) : 0 < nblock := by
  cases h with
  | nil => exact absurd rfl hv
  | block c h0 h1 h2 h3 =>
    have := List.length_pos_iff.2 h0
    omega

theorem toSigned_nat {n : Nat} (h : n < 2 ^ 31) : toSigned 32 (n % 2 ^ 32) = n := by
  rw [Nat.mod_eq_of_lt (by omega)]
  unfold toSigned
  rw [if_pos (by omega)]

/-- Decoding, for both builds. -/
theorem tile_ok {p : Profile} {nblock : Nat} {vs : List Int} {bytes : List UInt8} {fuel : Nat} (hi : ∀ v ∈ vs, InI32 v)
    (hn : vs.length + nblock ≤ 2 ^ 31) (hs : p = .wrapping ∨ Smooth vs) (h : IsRice nblock vs bytes)
    (hf : 2 * vs.length + 1 ≤ fuel) : tile p fuel nblock vs.length bytes = some (.ok vs) := by
  obtain ⟨first, bits, pad, h1, h2, h3⟩ := h
  match vs, h1 with
  | v :: vs, h1 =>
    cases h1
    have hv : InI32 first := hi _ (List.mem_cons_self ..)
    have hb : bits ≠ [] := blocks_ne h2 (by simp)
    have hlt : (first % 2 ^ 32).toNat < 2 ^ 32 := by omega
    obtain ⟨fuel, rfl⟩ : ∃ k, fuel = k + 1 := ⟨fuel - 1, by omega⟩
    have hlen : (first :: vs).length < 2 ^ 31 := by
      have := blocks_pos h2 (by simp)
      omega
    rw [List.append_assoc] at h3
    obtain ⟨s, h4, h5, h6⟩ := step_start (p := p) (q := { nblock := nblock, nx := ((first :: vs).length : Int) })
      (room := (first :: vs).length) hlt (by simp [hb]) h3
    have hc : Chain p first (first :: vs) := by
      refine ⟨hv, Or.inr ?_, chain_of (fun w hw => hi w (List.mem_cons_of_mem _ hw)) hs⟩
      rw [Int.sub_self]
      decide
    rw [toSigned_mod hv] at h4
    obtain ⟨st, h7⟩ := read_blocks (p := p) (nx := ((first :: vs).length : Int)) h2 s 0 fuel (by simp) h5 hv hc h6
      (by omega) (by omega) (by omega)
    unfold tile
    rw [if_neg (by simp), toSigned_nat hlen, read_fs h4]
    have e : (0 : Int) = ((0 : Nat) : Int) := rfl
    rw [e, h7]
    rfl

/-- **C40** in release builds. -/
theorem C40_release : C40_statement .wrapping := by
  intro nblock pixels bytes fuel hi hn h hf
  exact tile_ok hi hn (Or.inl rfl) h hf

/-- **C40** in every build, for pixels that differ by less than `2^30 - 8` from the pixel before: otherwise the sum of a
pixel and a difference, or the count of a run of zeros, may overflow, which panics in checked builds. -/
theorem C40_partial (p : Profile) (nblock : Nat) (pixels : List Int) (bytes : List UInt8) (fuel : Nat)
    (hi : ∀ v ∈ pixels, InI32 v) (hs : Smooth pixels) (hn : pixels.length + nblock ≤ 2 ^ 31)
    (h : IsRice nblock pixels bytes) (hf : 2 * pixels.length + 1 ≤ fuel) :
    tile p fuel nblock pixels.length bytes = some (.ok pixels) :=
  tile_ok hi hn (Or.inr hs) h hf

/-- Six pixels by blocks of two: no difference, split differences, differences as they are. -/
def ricePixels : List Int := [7, 7, 8, 3, -500000000, -499999999]

/-- The bytes that code them. -/
def riceBytes : List UInt8 :=
  [0, 0, 0, 7, 0, 144, 122, 59, 154, 202, 5, 0, 0, 0, 2]

/-- The bits of the blocks of `ricePixels`. -/
def riceBits : List Bool :=
  blockBits .low [0, 0] ++ (blockBits (.split 1) [2, 9] ++ (blockBits .high [1000000005, 2] ++ []))

theorem riceBytes_bits : byteBits riceBytes = bitsOf 32 7 ++ riceBits ++ [] := by
  decide +kernel

theorem ricePixels_blocks : Blocks 2 7 ricePixels riceBits := by
  refine Blocks.block (block := [7, 7]) (rest := [8, 3, -500000000, -499999999]) .low (by simp) (Or.inl rfl) ?_ ?_
  · show ∀ d ∈ diffs 7 [7, 7], d = 0
    decide
  · refine Blocks.block (block := [8, 3]) (rest := [-500000000, -499999999]) (.split 1) (by simp) (Or.inl rfl) ?_ ?_
    · exact (by decide : 1 ≤ 24)
    · exact Blocks.block (block := [-500000000, -499999999]) (rest := []) .high (by simp) (Or.inl rfl) trivial .nil

theorem riceBytes_code : IsRice 2 ricePixels riceBytes :=
  ⟨7, riceBits, [], rfl, ricePixels_blocks, riceBytes_bits⟩

example (p : Profile) (fuel : Nat) (h : 13 ≤ fuel) : tile p fuel 2 6 riceBytes = some (.ok ricePixels) :=
  C40_partial p 2 ricePixels riceBytes fuel (by unfold InI32; decide) (by unfold ricePixels; simp [Smooth]) (by decide) riceBytes_code h

/-- The witness against **C40** in checked builds: the greatest and the least pixel. -/
theorem extreme_code : IsRice 2 [2147483647, -2147483648] [127, 255, 255, 255, 12, 128] := by
  refine ⟨2147483647, blockBits (.split 0) [0, 2] ++ [], List.replicate 7 false, rfl, ?_, by decide +kernel⟩
  exact Blocks.block (block := [2147483647, -2147483648]) (rest := []) (.split 0) (by simp) (Or.inl rfl)
    (by decide : 0 ≤ 24) .nil

/-- **C40** fails in checked builds: the sum of the pixel before and the difference overflows. -/
theorem C40_fails : ¬ C40_statement .checked := by
  intro h
  have h1 := h 2 [2147483647, -2147483648] [127, 255, 255, 255, 12, 128] 5 (by unfold InI32; decide) (by decide)
    extreme_code (by decide)
  have h2 : tile .checked 5 2 2 [127, 255, 255, 255, 12, 128] = some .panic := by decide +kernel
  rw [show [(2147483647 : Int), -2147483648].length = 2 from rfl, h2] at h1
  exact absurd h1 (by simp)

/-- The format is never empty: any pixels can be coded, with any block size and any split. -/
theorem C40_encodable (nblock fs : Nat) (pixels : List Int) (hn : 0 < nblock) (hfs : fs ≤ 24) (hp : pixels ≠ []) :
    ∃ bytes, IsRice nblock pixels bytes := by
  have hb : ∀ (n : Nat) (last : Int) (vs : List Int), vs.length ≤ n → ∃ bits, Blocks nblock last vs bits := by
    intro n
    induction n with
    | zero =>
      intro last vs h
      have : vs = [] := List.length_eq_zero_iff.1 (by omega)
      subst this
      exact ⟨[], .nil⟩
    | succ n ih =>
      intro last vs h
      by_cases h0 : vs = []
      · subst h0; exact ⟨[], .nil⟩
      · have hpos : 0 < vs.length := List.length_pos_iff.2 h0
        have ht : vs.take nblock ≠ [] := by
          intro h; rw [List.take_eq_nil_iff] at h
          rcases h with h | h
          · omega
          · exact h0 h
        obtain ⟨bits, hb⟩ := ih ((vs.take nblock).getLast ht) (vs.drop nblock) (by rw [List.length_drop]; omega)
        have := Blocks.block (last := last) (nblock := nblock) (.split fs) ht (by
          rw [List.length_take]
          by_cases hl : nblock ≤ vs.length
          · exact Or.inl (by omega)
          · exact Or.inr ⟨by omega, List.drop_eq_nil_iff.2 (by omega)⟩) hfs hb
        rw [List.take_append_drop] at this
        exact ⟨_, this⟩
  match pixels, hp with
  | v :: vs, _ =>
    obtain ⟨bits, h⟩ := hb _ v (v :: vs) (Nat.le_refl _)
    obtain ⟨bytes, pad, h1⟩ := exists_bytes (bitsOf 32 (v % 2 ^ 32).toNat ++ bits).length
      (bitsOf 32 (v % 2 ^ 32).toNat ++ bits) (by omega)
    exact ⟨bytes, v, bits, pad, rfl, h, h1⟩

/-! ## C41 -/

/-- **C41**, the full statement: whatever the bytes, decoding ends, does not panic, and fills the output with 32-bit
integers if it does not report an error. -/
def C41_statement (p : Profile) : Prop :=
  ∀ (nblock n : Nat) (bytes : List UInt8) (fuel : Nat), 0 < nblock → n + nblock ≤ 2 ^ 31 → 2 * n + 1 ≤ fuel →
    ∃ r, tile p fuel nblock n bytes = some r ∧ r ≠ .panic ∧
      ∀ out, r = .ok out → out.length = n ∧ ∀ v ∈ out, InI32 v

/-- **C41** in release builds. -/
theorem C41_release : C41_statement .wrapping := by
  intro nblock n bytes fuel hnb hn hf
  unfold tile
  by_cases h0 : n = 0
  · subst h0
    rw [if_pos rfl]
    refine ⟨_, rfl, by simp, ?_⟩
    intro out h
    cases h
    exact ⟨rfl, by simp⟩
  · rw [if_neg h0, toSigned_nat (by omega)]
    obtain ⟨fuel, rfl⟩ : ∃ k, fuel = k + 1 := ⟨fuel - 1, by omega⟩
    match bytes with
    | b0 :: b1 :: b2 :: b3 :: b :: inp =>
      have hs : step .wrapping { nblock := nblock, nx := (n : Int) } n (.start (b0 :: b1 :: b2 :: b3 :: b :: inp)) =
          .ok ([], .fs { b := b.toNat, nbits := 8, inp } ((0 : Nat) : Int) (toSigned 32 (beNat [b0, b1, b2, b3])),
            false) := rfl
      have y0 : b0.toNat < 256 := b0.toNat_lt
      have y1 : b1.toNat < 256 := b1.toNat_lt
      have y2 : b2.toNat < 256 := b2.toNat_lt
      have y3 : b3.toNat < 256 := b3.toNat_lt
      have e : beNat [b0, b1, b2, b3] = 256 * (256 * (256 * (256 * 0 + b0.toNat) + b1.toNat) + b2.toNat) + b3.toNat :=
        rfl
      rw [read_fs hs]
      rcases read_any hnb (nx := (n : Int)) (by omega) n { b := b.toNat, nbits := 8, inp } 0 fuel
        (toSigned 32 (beNat [b0, b1, b2, b3]))
        ⟨(by decide : (0 : Int) ≤ 8), (by decide : (8 : Int) ≤ (8 : Nat)), b.toNat_lt⟩
        (toSigned_in _ (by rw [e]; omega)) (by omega) (by omega) (by omega) with h | ⟨out, st, h, h1, h2⟩
      · rw [h]
        exact ⟨_, rfl, by simp, by simp⟩
      · rw [h]
        refine ⟨_, rfl, by simp, ?_⟩
        intro out' h'
        cases h'
        exact ⟨h1, h2⟩
    | [] | [_] | [_, _] | [_, _, _] | [_, _, _, _] =>
      rw [read_err (e := .io .unexpectedEof) rfl]
      exact ⟨_, rfl, by simp, by simp⟩

example : tile .wrapping 9 3 4 [1, 2, 3, 4, 55, 254, 77, 19, 88, 1, 2, 3, 4, 200] =
    some (.ok [16909044, 16909058, 16909061, 16996613]) := by decide +kernel

example : tile .wrapping 9 3 4 [1, 2, 3, 4, 255, 254, 77, 19, 88, 1, 2, 3, 4, 200] =
    some (.err (.io .unexpectedEof)) := by decide +kernel

/-- **C41** fails in checked builds: the sum of a pixel and a difference overflows. -/
theorem C41_fails : ¬ C41_statement .checked := by
  intro h
  obtain ⟨r, h1, h2, -⟩ := h 2 2 [127, 255, 255, 255, 12, 128] 5 (by decide) (by decide) (by decide)
  have h3 : tile .checked 5 2 2 [127, 255, 255, 255, 12, 128] = some .panic := by decide +kernel
  rw [h3] at h1
  cases h1
  exact h2 rfl

/-! ## C42 -/

/-- **C42**, the full statement, which the code does not meet: reading the pixels of a tile by any sequence of reads
gives the pixels that a single read gives. -/
def C42_statement : Prop :=
  ∀ (p : Profile) (nblock n : Nat) (bytes : List UInt8) (fuel : Nat) (out : List Int) (rooms : List Nat), 0 < nblock →
    n + nblock ≤ 2 ^ 31 → tile p fuel nblock n bytes = some (.ok out) → rooms.sum = n → (∀ k ∈ rooms, 0 < k) →
    reads p { nblock := nblock, nx := n } fuel rooms (.start bytes) = some (.ok out)

/-- Several reads from a block boundary. -/
theorem reads_blocks {p : Profile} {nblock : Nat} {nx : Int} (hnb : 0 < nblock) (hx : nx + nblock ≤ 2 ^ 31) {fuel : Nat}
    (rooms : List Nat) :
    ∀ (last : Int) (s : Bits) (i : Nat) (out : List Int) (st : State), rooms ≠ [] → (∀ k ∈ rooms, 0 < k) →
    (∀ k ∈ rooms.dropLast, k % nblock = 0) → (i : Int) + rooms.sum ≤ nx →
    read p { nblock := nblock, nx } fuel rooms.sum (.fs s i last) = some (.ok (out, st)) →
    reads p { nblock := nblock, nx } fuel rooms (.fs s i last) = some (.ok out) := by
  induction rooms with
  | nil => intro last s i out st h; exact absurd rfl h
  | cons k ks ih =>
    intro last s i out st _ hpos hmul hi h
    by_cases h0 : ks = []
    · subst h0
      rw [show [k].sum = k by simp] at h
      rw [reads, h]
      simp [reads]
    · have hsum : 0 < ks.sum := by
        match ks, h0 with
        | k' :: ks', _ =>
          have := hpos k' (by simp)
          rw [List.sum_cons]
          omega
      rw [List.sum_cons] at h hi
      have hdl : (k :: ks).dropLast = k :: ks.dropLast := by
        cases ks with
        | nil => exact absurd rfl h0
        | cons => rfl
      rw [hdl] at hmul
      obtain ⟨o1, s1, l1, o2, h1, h2, h3⟩ := read_split hnb hx fuel k ks.sum i s last out st (hpos k (by simp))
        (hmul k (by simp)) hsum (by omega) h
      have h4 := ih l1 s1 (i + k) o2 st h0 (fun x hx => hpos x (List.mem_cons_of_mem _ hx))
        (fun x hx => hmul x (List.mem_cons_of_mem _ hx)) (by omega) h2
      rw [reads, h1]
      dsimp only
      rw [h4, h3]
      rfl

/-- **C42**, where the code meets it: when all reads but the last one are of whole blocks. -/
theorem C42_partial (p : Profile) (nblock n : Nat) (bytes : List UInt8) (fuel : Nat) (out : List Int) (rooms : List Nat)
    (hnb : 0 < nblock) (hn : n + nblock ≤ 2 ^ 31) (h : tile p fuel nblock n bytes = some (.ok out))
    (hsum : rooms.sum = n) (hpos : ∀ k ∈ rooms, 0 < k) (hmul : ∀ k ∈ rooms.dropLast, k % nblock = 0) :
    reads p { nblock := nblock, nx := n } fuel rooms (.start bytes) = some (.ok out) := by
  unfold tile at h
  match rooms, hsum with
  | [], hsum =>
    rw [List.sum_nil] at hsum
    subst hsum
    rw [if_pos rfl] at h
    cases h
    rfl
  | k :: ks, hsum =>
    have hk := hpos k (by simp)
    have hn0 : n ≠ 0 := by rw [List.sum_cons] at hsum; omega
    rw [if_neg hn0, toSigned_nat (by omega)] at h
    obtain ⟨r, h1, h2⟩ := Option.map_eq_some_iff.1 h
    obtain ⟨⟨o, st⟩, rfl, h2⟩ := Res.map_eq_ok.1 h2
    cases h2
    match fuel, h1 with
    | fuel + 1, h1 =>
      match bytes, h1 with
      | b0 :: b1 :: b2 :: b3 :: b :: inp, h1 =>
        have hs : ∀ room, step p { nblock := nblock, nx := (n : Int) } room (.start (b0 :: b1 :: b2 :: b3 :: b :: inp)) =
            .ok ([], .fs { b := b.toNat, nbits := 8, inp } ((0 : Nat) : Int) (toSigned 32 (beNat [b0, b1, b2, b3])),
              false) := fun _ => rfl
        rw [read_fs (hs n), ← hsum] at h1
        have h3 := reads_blocks hnb (by rw [hsum]; omega) (k :: ks) _ _ 0 o st (by simp) hpos hmul
          (by omega) (read_mono _ h1)
        have h4 := reads_blocks hnb (by rw [hsum]; omega) (k :: ks) _ _ 0 o st (by simp) hpos hmul
          (by omega) h1
        rw [hsum] at h3 h4
        rw [reads] at h3 h4 ⊢
        rw [read_fs (hs k)]
        match h5 : read p { nblock := nblock, nx := (n : Int) } fuel k
          (.fs { b := b.toNat, nbits := 8, inp } ((0 : Nat) : Int) (toSigned 32 (beNat [b0, b1, b2, b3]))) with
        | some (.ok (o1, st1)) =>
          rw [read_mono _ h5] at h3
          exact h3
        | some (.err e) => rw [h5] at h4; cases h4
        | some .panic => rw [h5] at h4; cases h4
        | none => rw [h5] at h4; cases h4
      | [], h1 | [_], h1 | [_, _], h1 | [_, _, _], h1 | [_, _, _, _], h1 =>
        rw [read_err (e := .io .unexpectedEof) rfl] at h1
        cases h1

/-- **C42** fails: the state is not saved in the middle of a block. -/
theorem C42_fails : ¬ C42_statement := by
  intro h
  have h1 := h .wrapping 4 4 [0, 0, 0, 0, 12, 146, 255, 255] 9 [0, 1, 2, 3] [2, 2] (by decide) (by decide)
    (by decide +kernel) rfl (by decide)
  have h2 : reads .wrapping { nblock := 4, nx := 4 } 9 [2, 2] (.start [0, 0, 0, 0, 12, 146, 255, 255]) =
      some (.ok [0, 1, 0, 1]) := by decide +kernel
  exact absurd (h2.symm.trans h1) (by decide)

example : reads .checked { nblock := 2, nx := 6 } 13 [4, 2] (.start riceBytes) = some (.ok ricePixels) :=
  C42_partial .checked 2 6 riceBytes 13 ricePixels [4, 2] (by decide) (by decide)
    (C40_partial .checked 2 ricePixels riceBytes 13 (by unfold InI32; decide) (by unfold ricePixels; simp [Smooth])
      (by decide) riceBytes_code (by decide)) rfl (by decide) (by decide)

end Fitsrs

import Verif.Props.C40_C42
/-
C42: what the reads of a RICE-coded tile give when they do not cover the whole tile, and up to the first one that ends
inside a block.
-/

namespace Fitsrs
open Spec Rice

theorem pixels_take {p : Profile} {diff : Bits → Res (Nat × Bits)} (n : Nat) :
    ∀ {k : Nat} {last last' : Int} {s s' : Bits} {out : List Int}, k ≤ n → pixels p diff n last s = .ok (out, last', s') →
    ∃ l t, pixels p diff k last s = .ok (out.take k, l, t) := by
  induction n with
  | zero =>
    intro k last last' s s' out hk h
    obtain rfl : k = 0 := by omega
    exact ⟨_, _, by rw [pixels, List.take_zero]⟩
  | succ n ih =>
    intro k last last' s s' out hk h
    match k, hk with
    | 0, _ => exact ⟨_, _, by rw [pixels, List.take_zero]⟩
    | k + 1, hk =>
      rw [pixels] at h
      obtain ⟨⟨d, s1⟩, h1, h⟩ := Res.bind_eq_ok.1 h
      dsimp only at h
      obtain ⟨cur, h2, h⟩ := Res.bind_eq_ok.1 h
      obtain ⟨⟨out', l', s2⟩, h3, h⟩ := Res.bind_eq_ok.1 h
      dsimp only at h
      cases h
      obtain ⟨l, t, h4⟩ := ih (k := k) (by omega) h3
      refine ⟨l, t, ?_⟩
      rw [pixels, h1]
      simp only [Res.bind_ok, h2, h4, List.take_succ_cons]

/-- A turn of the loop with less room gives the first pixels, and does the same if there is room enough. -/
theorem step_take {p : Profile} {q : Params} {room k : Nat} {st st' : State} {out : List Int} {t : Bool} (hk : k ≤ room)
    (h : step p q room st = .ok (out, st', t)) :
    (t = false ∧ out = [] ∧ step p q k st = .ok ([], st', false)) ∨
    (t = true ∧ (out.length < k → step p q k st = .ok (out, st', true)) ∧
      (k ≤ out.length → ∃ st'', step p q k st = .ok (out.take k, st'', true))) := by
  cases st with
  | start inp =>
    left
    match inp, h with
    | b0 :: b1 :: b2 :: b3 :: b :: inp, h => cases h; exact ⟨rfl, rfl, rfl⟩
  | fs s i last =>
    left
    have h' := h
    unfold step at h
    dsimp only at h
    obtain ⟨⟨fs, s'⟩, h1, h⟩ := Res.bind_eq_ok.1 h
    dsimp only at h
    obtain ⟨im, h2, h⟩ := Res.bind_eq_ok.1 h
    cases h
    exact ⟨rfl, rfl, h'⟩
  | low s i imax last =>
    right
    unfold step at h ⊢
    dsimp only at h ⊢
    cases h
    refine ⟨rfl, fun hl => ?_, fun hl => ?_⟩
    · rw [List.length_replicate] at hl
      rw [show min k (imax - i).toNat = min room (imax - i).toNat by omega]
    · rw [List.length_replicate] at hl
      exact ⟨_, by rw [List.take_replicate, show min k (imax - i).toNat = min k (min room (imax - i).toNat) by omega]⟩
  | high s i imax last =>
    right
    unfold step at h ⊢
    dsimp only at h ⊢
    obtain ⟨⟨out', l', s2⟩, h2, h⟩ := Res.bind_eq_ok.1 h
    dsimp only at h
    cases h
    have hlen := pixels_length _ h2
    refine ⟨rfl, fun hl => ?_, fun hl => ?_⟩
    · rw [show min k (imax - i).toNat = min room (imax - i).toNat by omega, h2]
      rfl
    · obtain ⟨l, t, h3⟩ := pixels_take _ (k := k) (by omega) h2
      rw [show min k (imax - i).toNat = k by omega, h3]
      exact ⟨_, rfl⟩
  | rice s fs i imax last =>
    right
    unfold step at h ⊢
    dsimp only at h ⊢
    obtain ⟨⟨out', l', s2⟩, h2, h⟩ := Res.bind_eq_ok.1 h
    dsimp only at h
    cases h
    have hlen := pixels_length _ h2
    refine ⟨rfl, fun hl => ?_, fun hl => ?_⟩
    · rw [show min k (imax - i).toNat = min room (imax - i).toNat by omega, h2]
      rfl
    · obtain ⟨l, t, h3⟩ := pixels_take _ (k := k) (by omega) h2
      rw [show min k (imax - i).toNat = k by omega, h3]
      exact ⟨_, rfl⟩

/-- A read on a smaller buffer gives the first pixels. -/
theorem read_take {p : Profile} {q : Params} (fuel : Nat) : ∀ {room k : Nat} {st st' : State} {out : List Int},
    k ≤ room → read p q fuel room st = some (.ok (out, st')) →
    ∃ st'', read p q fuel k st = some (.ok (out.take k, st'')) := by
  induction fuel with
  | zero => intro room k st st' out _ h; cases h
  | succ fuel ih =>
    intro room k st st' out hk h
    rw [Rice.read] at h
    cases hs : step p q room st with
    | err e => rw [hs] at h; cases h
    | panic => rw [hs] at h; cases h
    | ok x =>
      obtain ⟨o, st1, t⟩ := x
      simp only [hs] at h
      rcases step_take hk hs with ⟨rfl, rfl, h1⟩ | ⟨rfl, h1, h2⟩
      · rw [if_neg (by simp)] at h
        obtain ⟨r1, h3, h4⟩ := Option.map_eq_some_iff.1 h
        obtain ⟨⟨rest, st2⟩, rfl, h4⟩ := Res.map_eq_ok.1 h4
        cases h4
        obtain ⟨st3, h5⟩ := ih (k := k) (by simpa using hk) h3
        exact ⟨st3, by rw [read_fs h1, h5]; rfl⟩
      · by_cases hl : o.length < k
        · rw [if_neg (by omega)] at h
          obtain ⟨r1, h3, h4⟩ := Option.map_eq_some_iff.1 h
          obtain ⟨⟨rest, st2⟩, rfl, h4⟩ := Res.map_eq_ok.1 h4
          cases h4
          obtain ⟨st3, h5⟩ := ih (k := k - o.length) (by omega) h3
          refine ⟨st3, ?_⟩
          rw [read_more (h1 hl) (Or.inr (by omega)), h5]
          show some (Res.ok (o ++ rest.take (k - o.length), st3)) = _
          rw [List.take_append, List.take_of_length_le (by omega : o.length ≤ k)]
        · obtain ⟨st3, h3⟩ := h2 (by omega)
          refine ⟨st3, ?_⟩
          rw [read_end h3 (by rw [List.length_take]; omega)]
          have : out.take k = o.take k := by
            by_cases hc : o.length = room
            · rw [if_pos ⟨rfl, hc⟩] at h
              cases h
              rfl
            · rw [if_neg (fun h => hc h.2)] at h
              obtain ⟨r1, h3, h4⟩ := Option.map_eq_some_iff.1 h
              obtain ⟨⟨rest, st2⟩, rfl, h4⟩ := Res.map_eq_ok.1 h4
              cases h4
              rw [List.take_append_of_le_length (by omega)]
          rw [this]

/-- **C42**, without having to read the whole tile: reads of whole blocks, followed by one read of any size, give the
first pixels of the tile.  The pixels given are hence right up to and including those of the first read that ends inside
a block; by `C42_fails` those of the next read are not. -/
theorem C42_prefix_partial (p : Profile) (nblock n : Nat) (bytes : List UInt8) (fuel : Nat) (out : List Int)
    (rooms : List Nat) (hnb : 0 < nblock) (hn : n + nblock ≤ 2 ^ 31) (h : tile p fuel nblock n bytes = some (.ok out))
    (hsum : rooms.sum ≤ n) (hpos : ∀ k ∈ rooms, 0 < k) (hmul : ∀ k ∈ rooms.dropLast, k % nblock = 0) :
    reads p { nblock := nblock, nx := n } fuel rooms (.start bytes) = some (.ok (out.take rooms.sum)) := by
  unfold tile at h
  match rooms with
  | [] => rw [List.sum_nil, List.take_zero]; rfl
  | k :: ks =>
    have hk := hpos k (by simp)
    have hn0 : n ≠ 0 := by rw [List.sum_cons] at hsum; omega
    rw [if_neg hn0, toSigned_nat (by omega)] at h
    obtain ⟨r, h1, h2⟩ := Option.map_eq_some_iff.1 h
    obtain ⟨⟨o, st⟩, rfl, h2⟩ := Res.map_eq_ok.1 h2
    cases h2
    match fuel, h1 with
    | fuel + 1, h1 =>
      match bytes, h1 with
      | b0 :: b1 :: b2 :: b3 :: b :: inp, h1 =>
        have hs : ∀ room, step p { nblock := nblock, nx := (n : Int) } room (.start (b0 :: b1 :: b2 :: b3 :: b :: inp)) =
            .ok ([], .fs { b := b.toNat, nbits := 8, inp } ((0 : Nat) : Int) (toSigned 32 (beNat [b0, b1, b2, b3])),
              false) := fun _ => rfl
        rw [read_fs (hs n)] at h1
        obtain ⟨st', h1⟩ := read_take _ hsum h1
        have h3 := reads_blocks hnb (by omega) (k :: ks) _ _ 0 _ st' (by simp) hpos hmul (by omega) (read_mono _ h1)
        have h4 := reads_blocks hnb (by omega) (k :: ks) _ _ 0 _ st' (by simp) hpos hmul (by omega) h1
        rw [reads] at h3 h4 ⊢
        rw [read_fs (hs k)]
        match h5 : Rice.read p { nblock := nblock, nx := (n : Int) } fuel k
          (.fs { b := b.toNat, nbits := 8, inp } ((0 : Nat) : Int) (toSigned 32 (beNat [b0, b1, b2, b3]))) with
        | some (.ok (o1, st1)) =>
          rw [read_mono _ h5] at h3
          exact h3
        | some (.err e) => rw [h5] at h4; cases h4
        | some .panic => rw [h5] at h4; cases h4
        | none => rw [h5] at h4; cases h4
      | [], h1 | [_], h1 | [_, _], h1 | [_, _, _], h1 | [_, _, _, _], h1 =>
        rw [read_err (e := .io .unexpectedEof) rfl] at h1
        cases h1

/-- A read of one block, then one that ends inside the third. -/
example : reads .checked { nblock := 2, nx := 6 } 13 [2, 3] (.start riceBytes) = some (.ok (ricePixels.take 5)) :=
  C42_prefix_partial .checked 2 6 riceBytes 13 ricePixels [2, 3] (by decide) (by decide)
    (C40_partial .checked 2 ricePixels riceBytes 13 (by unfold InI32; decide) (by unfold ricePixels; simp [Smooth])
      (by decide) riceBytes_code (by decide)) (by decide) (by decide) (by decide)

end Fitsrs

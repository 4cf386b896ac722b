import Verif.Lemmas.Rice
/-
RICE decoding comes to an end.
-/

namespace Fitsrs.Rice

/-- One turn in a block: pixels, as many as fit. -/
theorem step_inBlock {p : Profile} {q : Params} {room : Nat} {fs : Int} {s : Bits} {i imax last : Int} :
    (∃ e, step p q room (blockState fs s i imax last) = .err e) ∨ step p q room (blockState fs s i imax last) = .panic ∨
    ∃ out old s' last', step p q room (blockState fs s i imax last) =
        .ok (out, afterBlock old s' (i + (min room (imax - i).toNat : Nat)) imax last', true) ∧
      out.length = min room (imax - i).toNat ∧ (min room (imax - i).toNat = 0 → s' = s) := by
  have pix : ∀ (diff : Bits → Res (Nat × Bits)) (old : Bits → State) (x : Res (List Int × State × Bool)),
      x = (pixels p diff (min room (imax - i).toNat) last s >>= fun z =>
        .ok (z.1, afterBlock (old z.2.2) z.2.2 (i + (min room (imax - i).toNat : Nat)) imax z.2.1, true)) →
      (∃ e, x = .err e) ∨ x = .panic ∨
      ∃ out old' s' last', x = .ok (out, afterBlock old' s' (i + (min room (imax - i).toNat : Nat)) imax last', true) ∧
        out.length = min room (imax - i).toNat ∧ (min room (imax - i).toNat = 0 → s' = s) := by
    rintro diff old x rfl
    cases hp : pixels p diff (min room (imax - i).toNat) last s with
    | err e => exact .inl ⟨e, rfl⟩
    | panic => exact .inr (.inl rfl)
    | ok z =>
      obtain ⟨out, last', s'⟩ := z
      refine .inr (.inr ⟨out, old s', s', last', rfl, pixels_length _ hp, fun h0 => ?_⟩)
      rw [h0] at hp
      rw [pixels] at hp
      cases hp
      rfl
  unfold blockState
  split
  · exact .inr (.inr ⟨_, _, s, last, rfl, List.length_replicate, fun _ => rfl⟩)
  · split
    · exact pix (highDiff p) (fun s' => .high { s with inp := s'.inp } i imax last) _ rfl
    · exact pix (riceDiff p fs) (fun s' => .rice { s with inp := s'.inp } fs i imax last) _ rfl

theorem read_step {p : Profile} {q : Params} {fuel room : Nat} {st : State} {out : List Int} {st' : State} {tested : Bool}
    (h : step p q room st = .ok (out, st', tested)) (hr : ¬ (tested = true ∧ out.length = room))
    (hn : read p q fuel (room - out.length) st' ≠ none) : read p q (fuel + 1) room st ≠ none := by
  rw [read, h]
  dsimp only
  rw [if_neg hr]
  cases hx : read p q fuel (room - out.length) st' with
  | none => exact absurd hx hn
  | some y => intro e; cases e

theorem read_stop {p : Profile} {q : Params} {fuel room : Nat} {st : State}
    (h : (∃ e, step p q room st = .err e) ∨ step p q room st = .panic) : read p q (fuel + 1) room st ≠ none := by
  rw [read]
  rcases h with ⟨e, h⟩ | h <;> · rw [h]; intro e; cases e

/-- Blocks of one pixel or more. -/
theorem read_full {p : Profile} {q : Params} (h1 : 1 ≤ q.nblock) (h2 : q.nx + q.nblock ≤ 2 ^ 31) (room : Nat) :
    ∀ (fuel : Nat) (s : Bits) (i last : Int), 1 ≤ room → 0 ≤ i → i + room = q.nx → 2 * room ≤ fuel →
      read p q fuel room (.fs s i last) ≠ none := by
  induction room using Nat.strongRecOn with
  | _ room ih =>
  intro fuel s i last hr hi hx hf
  obtain ⟨fuel, rfl⟩ : ∃ m, fuel = m + 2 := ⟨fuel - 2, by omega⟩
  cases hv : fsValue p s with
  | err e => exact read_stop (.inl ⟨e, by show (fsValue p s >>= _) = _; rw [hv]; rfl⟩)
  | panic => exact read_stop (.inr (by show (fsValue p s >>= _) = _; rw [hv]; rfl))
  | ok z =>
    obtain ⟨fs, s1⟩ := z
    have hi32 : i32op p (i + q.nblock) = .ok (i + q.nblock) := by
      unfold i32op
      rw [if_pos (by omega)]
    have hst : step p q room (.fs s i last) = .ok ([], blockState fs s1 i (min (i + q.nblock) q.nx) last, false) := by
      show (fsValue p s >>= _) = _
      rw [hv]
      show (i32op p (i + q.nblock) >>= _) = _
      rw [hi32]
      rfl
    refine read_step hst (by intro h; cases h.1) ?_
    show read p q (fuel + 1) room _ ≠ none
    rcases step_inBlock (p := p) (q := q) (room := room) (fs := fs) (s := s1) (i := i) (imax := min (i + q.nblock) q.nx) (last := last)
      with ⟨e, h⟩ | h | ⟨out, old, s2, last2, h, hl, -⟩
    · rw [read, h]; intro e; cases e
    · rw [read, h]; intro e; cases e
    · by_cases hd : out.length = room
      · rw [read, h]
        dsimp only
        rw [if_pos ⟨rfl, hd⟩]
        intro e; cases e
      · refine read_step h (by intro h; exact hd h.2) ?_
        have e : i + (min room (min (i + q.nblock) q.nx - i).toNat : Nat) = min (i + q.nblock) q.nx := by omega
        unfold afterBlock
        rw [if_pos e]
        exact ih (room - out.length) (by omega) fuel s2 _ last2 (by omega) (by omega) (by omega) (by omega)

theorem refill_bits {inp : List UInt8} : ∀ {b : Nat} {n : Int} {s : Bits}, refill inp b n = .ok s →
    0 ≤ s.nbits ∧ 8 * (s.inp.length : Int) + s.nbits = 8 * inp.length + n := by
  induction inp with
  | nil =>
    intro b n s h
    rw [refill] at h
    split at h
    · cases h
    · cases h; exact ⟨by dsimp only; omega, rfl⟩
  | cons x inp ih =>
    intro b n s h
    rw [refill] at h
    split at h
    · obtain ⟨h1, h2⟩ := ih h
      refine ⟨h1, ?_⟩
      rw [List.length_cons]
      omega
    · cases h; exact ⟨by dsimp only; omega, rfl⟩

theorem fsValue_bits {p : Profile} {s s' : Bits} {fs : Int} (h : fsValue p s = .ok (fs, s')) :
    0 ≤ s'.nbits ∧ 8 * (s'.inp.length : Int) + s'.nbits = 8 * s.inp.length + s.nbits - 5 := by
  unfold fsValue at h
  cases hr : refill s.inp s.b (s.nbits - 5) with
  | err e => rw [hr] at h; cases h
  | panic => rw [hr] at h; cases h
  | ok s1 =>
    rw [hr] at h
    obtain ⟨h1, h2⟩ := refill_bits hr
    cases hs : shamt p 32 s1.nbits with
    | err e => rw [Res.bind_ok, hs] at h; cases h
    | panic => rw [Res.bind_ok, hs] at h; cases h
    | ok n =>
      rw [Res.bind_ok, hs, Res.bind_ok] at h
      cases hi : i32op p (toSigned 32 (s1.b >>> n) - 1) with
      | err e => rw [hi] at h; cases h
      | panic => rw [hi] at h; cases h
      | ok f =>
        rw [hi] at h
        cases h
        exact ⟨h1, by dsimp only; omega⟩

/-- Blocks of no pixel: only their parameters are read. -/
theorem read_empty {p : Profile} {q : Params} (h1 : q.nblock = 0) (h2 : 0 ≤ q.nx) {room : Nat} (hr : 1 ≤ room) (k : Nat) :
    ∀ (fuel : Nat) (s : Bits) (last : Int), 0 ≤ s.nbits → 8 * (s.inp.length : Int) + s.nbits ≤ k → 2 * k + 2 ≤ fuel →
      read p q fuel room (.fs s 0 last) ≠ none := by
  induction k using Nat.strongRecOn with
  | _ k ih =>
  intro fuel s last h0 hk hf
  obtain ⟨fuel, rfl⟩ : ∃ m, fuel = m + 2 := ⟨fuel - 2, by omega⟩
  cases hv : fsValue p s with
  | err e => exact read_stop (.inl ⟨e, by show (fsValue p s >>= _) = _; rw [hv]; rfl⟩)
  | panic => exact read_stop (.inr (by show (fsValue p s >>= _) = _; rw [hv]; rfl))
  | ok z =>
    obtain ⟨fs, s1⟩ := z
    obtain ⟨b1, b2⟩ := fsValue_bits hv
    have hst : step p q room (.fs s 0 last) = .ok ([], blockState fs s1 0 0 last, false) := by
      show (fsValue p s >>= _) = _
      rw [hv]
      have hi32 : i32op p (0 + 0) = .ok 0 := by cases p <;> rfl
      have hm : min 0 q.nx = 0 := by omega
      show (i32op p (0 + q.nblock) >>= _) = _
      rw [h1]
      rw [hi32, Res.bind_ok, hm]
    refine read_step hst (by intro h; cases h.1) ?_
    show read p q (fuel + 1) room _ ≠ none
    have hz : min room ((0 : Int) - 0).toNat = 0 := by omega
    rcases step_inBlock (p := p) (q := q) (room := room) (fs := fs) (s := s1) (i := 0) (imax := 0) (last := last)
      with ⟨e, h⟩ | h | ⟨out, old, s2, last2, h, hl, hs⟩
    · rw [read, h]; intro e; cases e
    · rw [read, h]; intro e; cases e
    · rw [hz] at hl h
      refine read_step h (by intro h; omega) ?_
      unfold afterBlock
      rw [if_pos (by rfl), hs hz, hl]
      exact ih (k - 5) (by omega) fuel s1 last2 b1 (by omega) (by omega)

/-- A tile is decoded, or an error returned, after so many turns. -/
def turns (n bytes : Nat) : Nat := 2 * n + 16 * bytes + 20

theorem tile_ends {p : Profile} {fuel nblock n : Nat} {bytes : List UInt8} (hn : n + nblock ≤ 2 ^ 31) (hb : nblock = 0 → n < 2 ^ 31)
    (hf : turns n bytes.length ≤ fuel) : tile p fuel nblock n bytes ≠ none := by
  unfold turns at hf
  unfold tile
  split
  · intro e; cases e
  · rename_i h0
    have hx : toSigned 32 (n % 2 ^ 32) = n := by
      unfold toSigned
      rw [Nat.mod_eq_of_lt (by omega), if_pos (by omega)]
    rw [hx]
    suffices h : read p { nblock := nblock, nx := n } fuel n (.start bytes) ≠ none by
      intro e
      cases hr : read p { nblock := nblock, nx := n } fuel n (.start bytes) with
      | none => exact h hr
      | some x => rw [hr] at e; cases e
    obtain ⟨fuel, rfl⟩ : ∃ m, fuel = m + 1 := ⟨fuel - 1, by omega⟩
    match bytes, hf with
    | b0 :: b1 :: b2 :: b3 :: b :: inp, hf =>
      refine read_step (out := []) (tested := false) rfl (by intro h; cases h.1) ?_
      simp only [List.length_cons] at hf
      show read p _ fuel n _ ≠ none
      by_cases hz : nblock = 0
      · subst hz
        exact read_empty rfl (Int.natCast_nonneg n) (by omega) (8 * inp.length + 8) fuel _ _ (by show (0 : Int) ≤ 8; omega)
          (by show 8 * (inp.length : Int) + 8 ≤ _; omega) (by omega)
      · exact read_full (by show (1 : Int) ≤ nblock; omega) (by show (n : Int) + nblock ≤ _; omega) n fuel _ 0 _ (by omega) (by omega)
          (by show 0 + (n : Int) = n; omega) (by omega)
    | [], _ | [_], _ | [_, _], _ | [_, _, _], _ | [_, _, _, _], _ => rw [read]; intro e; cases e

end Fitsrs.Rice

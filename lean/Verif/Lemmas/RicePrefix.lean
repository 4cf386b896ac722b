import Verif.Props.C40_C42
import Verif.Lemmas.Agree
/-
Decoding more pixels with RICE than the bytes code: the first pixels are those coded.
-/

namespace Fitsrs.Rice
open Spec

/-- The first pixels of a block, given that each difference is read. -/
theorem pixels_prefix {p : Profile} {diff : Bits → Res (Nat × Bits)} {enc : Nat → List Bool}
    (hdiff : ∀ (s : Bits) (d : Nat) (rest : List Bool), s.Ok 7 → d < 2 ^ 32 → (p = .wrapping ∨ d + 8 < 2 ^ 31) →
      s.stream = enc d ++ rest → ∃ s', diff s = .ok (d, s') ∧ s'.Ok 7 ∧ s'.stream = rest)
    {rest : List Bool} (vs : List Int) :
    ∀ (last : Int) (s : Bits) (n : Nat) (out : List Int) (l : Int) (s' : Bits), s.Ok 7 → Chain p last vs →
      s.stream = (diffs last vs).flatMap enc ++ rest → vs.length ≤ n → pixels p diff n last s = .ok (out, l, s') →
      vs <+: out := by
  induction vs with
  | nil => intro last s n out l s' _ _ _ _ _; exact List.nil_prefix
  | cons v vs ih =>
    intro last s n out l s' hs hc h hn ho
    rw [diffs, List.flatMap_cons, List.append_assoc] at h
    obtain ⟨s1, h1, h2, h3⟩ := hdiff s _ _ hs (zigzag_lt (wrap32_in _)) hc.2.1.small h
    rw [List.length_cons] at hn
    obtain ⟨n, rfl⟩ : ∃ k, n = k + 1 := ⟨n - 1, by omega⟩
    rw [pixels, h1] at ho
    simp only [Res.bind_ok] at ho
    rw [curPix_ok hc.1 hc.2.1] at ho
    simp only [Res.bind_ok] at ho
    obtain ⟨⟨out', l', s2⟩, ho', ho2⟩ := Res.bind_eq_ok.1 ho
    dsimp only at ho2
    have := ih v s1 n out' l' s2 h2 hc.2.2 h3 (by omega) ho'
    cases ho2
    exact List.cons_prefix_cons.2 ⟨rfl, this⟩

/-- A block that is followed by other bits, when more pixels are asked for. -/
theorem block_prefix {p : Profile} {q : Params} {room : Nat} {s : Bits} {i last im : Int} {c : Coding} {block : List Int}
    {rest : List Bool} (hs : s.Ok 8) (hl : InI32 last) (hc : Chain p last block) (hp : c.Permits (diffs last block))
    (h : s.stream = blockBits c (diffs last block) ++ rest) (hi : i32op p (i + q.nblock) = .ok im)
    (hm : i + block.length ≤ min im q.nx) (hroom : block.length ≤ room) :
    ∃ st, step p q room (.fs s i last) = .ok ([], st, false) ∧
      ∀ out st' t, step p q room st = .ok (out, st', t) → block <+: out := by
  have hn : block.length ≤ min room (min im q.nx - i).toNat := by omega
  cases c with
  | low =>
    obtain ⟨s1, h1, h2, h3⟩ := fsValue_ok (p := p) (v := 0) hs (by decide) h
    refine ⟨.low s1 i (min im q.nx) last, ?_, fun out st' t ho => ?_⟩
    · unfold step
      dsimp only
      rw [h1]
      simp only [Res.bind_ok]
      rw [hi]
      simp only [Res.bind_ok]
      rw [blockState_low]
    · have e := diffs_zero hl hc hp
      unfold step at ho
      dsimp only at ho
      cases ho
      rw [e]
      exact ⟨List.replicate (min room (min im q.nx - i).toNat - block.length) last, by
        rw [List.replicate_append_replicate]; congr 1; omega⟩
  | split fs =>
    have hp : fs ≤ 24 := hp
    unfold blockBits at h
    rw [List.append_assoc] at h
    obtain ⟨s1, h1, h2, h3⟩ := fsValue_ok (p := p) (v := fs + 1) hs (by omega) h
    refine ⟨.rice s1 fs i (min im q.nx) last, ?_, fun out st' t ho => ?_⟩
    · unfold step
      dsimp only
      rw [h1]
      simp only [Res.bind_ok]
      rw [hi]
      simp only [Res.bind_ok]
      rw [blockState_rice hp]
    · unfold step at ho
      dsimp only at ho
      obtain ⟨⟨out', l', s2⟩, ho', ho2⟩ := Res.bind_eq_ok.1 ho
      dsimp only at ho2
      have := pixels_prefix (p := p) (diff := riceDiff p fs) (enc := splitBits fs)
        (fun s d rest hs hd hp' h => riceDiff_ok hs hp hd hp' h) block last s1 _ _ _ _ h2 hc h3 hn ho'
      cases ho2
      exact this
  | high =>
    unfold blockBits at h
    rw [List.append_assoc] at h
    obtain ⟨s1, h1, h2, h3⟩ := fsValue_ok (p := p) (v := 26) hs (by omega) h
    refine ⟨.high s1 i (min im q.nx) last, ?_, fun out st' t ho => ?_⟩
    · unfold step
      dsimp only
      rw [h1]
      simp only [Res.bind_ok]
      rw [hi]
      simp only [Res.bind_ok]
      rw [blockState_high]
    · unfold step at ho
      dsimp only at ho
      obtain ⟨⟨out', l', s2⟩, ho', ho2⟩ := Res.bind_eq_ok.1 ho
      dsimp only at ho2
      have := pixels_prefix (p := p) (diff := highDiff p) (enc := bitsOf 32)
        (fun s d rest hs hd _ h => highDiff_ok hs hd h) block last s1 _ _ _ _ h2 hc h3 hn ho'
      cases ho2
      exact this

/-- What a turn of the loop writes comes first. -/
theorem read_first {p : Profile} {q : Params} {fuel room : Nat} {st st1 : State} {out1 : List Int} {t : Bool}
    {out : List Int} {st' : State} (h : step p q room st = .ok (out1, st1, t))
    (hr : read p q (fuel + 1) room st = some (.ok (out, st'))) :
    out1 <+: out := by
  rw [read, h] at hr
  dsimp only at hr
  split at hr
  · cases hr
    exact List.prefix_refl _
  · cases hq : read p q fuel (room - out1.length) st1 with
    | none => rw [hq] at hr; cases hr
    | some r =>
      rw [hq] at hr
      cases r with
      | ok a =>
        cases hr
        exact List.prefix_append _ _
      | err e => cases hr
      | panic => cases hr

/-- Reading at least the pixels that the bits code. -/
theorem read_prefix {p : Profile} {nblock : Nat} {nx : Int} {pad : List Bool} {last : Int} {vs : List Int}
    {bits : List Bool} (hb : Blocks nblock last vs bits) :
    ∀ (s : Bits) (i fuel room : Nat) (out : List Int) (st : State), s.Ok 8 → InI32 last → Chain p last vs →
    s.stream = bits ++ pad → vs.length ≤ room → (i : Int) + room = nx → nx + nblock ≤ 2 ^ 31 →
    read p { nblock := nblock, nx } fuel room (.fs s i last) = some (.ok (out, st)) → vs <+: out := by
  induction hb with
  | nil => intro s i fuel room out st _ _ _ _ _ _ _ _; exact List.nil_prefix
  | @block last block rest bits c h0 h1 h2 h3 ih =>
    intro s i fuel room out st hs hl hc h hroom hi hx ho
    obtain ⟨hc1, hc2⟩ := chain_append hc
    rw [List.append_assoc] at h
    rw [List.length_append] at hroom
    have hpos : 0 < block.length := List.length_pos_iff.2 h0
    have hin : InI32 ((i : Int) + (nblock : Int)) := by
      refine ⟨by omega, ?_⟩
      omega
    have him : i32op p ((i : Int) + (nblock : Int)) = .ok ((i : Int) + nblock) := by
      rw [i32op_ok (Or.inr hin), wrap32_of hin]
    match fuel, ho with
    | 0, ho => cases ho
    | 1, ho =>
      exfalso
      cases hst : step p { nblock := nblock, nx } room (.fs s i last) with
      | ok a =>
        obtain ⟨o1, s1, t⟩ := a
        rw [read, hst] at ho
        dsimp only at ho
        split at ho
        · rename_i hh
          have : t = false := by
            unfold step at hst
            dsimp only at hst
            obtain ⟨⟨a, b⟩, -, hst2⟩ := Res.bind_eq_ok.1 hst
            dsimp only at hst2
            obtain ⟨d, -, hst3⟩ := Res.bind_eq_ok.1 hst2
            cases hst3
            rfl
          rw [this] at hh
          exact absurd hh.1 (by decide)
        · cases ho
      | err e => rw [read, hst] at ho; cases ho
      | panic => rw [read, hst] at ho; cases ho
    | fuel + 2, ho =>
      by_cases hfull : block.length = nblock
      · have hm : min ((i : Int) + (nblock : Int)) nx = (i : Int) + block.length := by omega
        obtain ⟨st1, s', e1, e2, e3, e4⟩ := block_ok (p := p) (q := { nblock := nblock, nx })
          (room := room) hs hl hc1 h2 h him hm (by omega)
        rw [read_fs e1] at ho
        by_cases hr : block.length = room
        · have hrest : rest = [] := List.length_eq_zero_iff.1 (by omega)
          rw [read_end e2 hr] at ho
          cases ho
          rw [hrest, List.append_nil]
          exact List.prefix_refl _
        · have hlast : block.getLastD last = block.getLast h0 := by
            rw [List.getLastD_eq_getLast?, List.getLast?_eq_some_getLast h0]; rfl
          rw [hlast] at e2 hc2
          rw [read_more e2 (Or.inr hr), show ((i : Int) + (block.length : Int)) = ((i + block.length : Nat) : Int) by omega] at ho
          cases hq : read p { nblock := nblock, nx } fuel (room - block.length) (.fs s' ((i + block.length : Nat) : Int) (block.getLast h0)) with
          | none => rw [hq] at ho; cases ho
          | some r =>
            rw [hq] at ho
            cases r with
            | ok a =>
              obtain ⟨o1, st2⟩ := a
              have := ih s' (i + block.length) fuel (room - block.length) o1 st2
                ⟨e3.1, by have := e3.2.1; omega, e3.2.2⟩ (hlast ▸ chain_last hl hc1) hc2 e4 (by omega) (by omega) hx hq
              cases ho
              exact (List.prefix_append_right_inj _).2 this
            | err e => cases ho
            | panic => cases ho
      · have hsh : block.length ≤ nblock ∧ rest = [] := by
          rcases h1 with h1 | h1
          · exact absurd h1 hfull
          · exact h1
        obtain ⟨hle, rfl⟩ := hsh
        obtain ⟨st1, e1, e2⟩ := block_prefix (p := p) (q := { nblock := nblock, nx }) (room := room) hs hl hc1 h2 h him
          (by dsimp only; omega) (by omega)
        rw [read_fs e1] at ho
        rw [List.append_nil]
        cases hst : step p { nblock := nblock, nx } room st1 with
        | ok a =>
          obtain ⟨o1, s1, t⟩ := a
          exact (e2 o1 s1 t hst).trans (read_first hst ho)
        | err e => rw [read, hst] at ho; cases ho
        | panic => rw [read, hst] at ho; cases ho

/-- Decoding at least the pixels that the bytes code, in builds without overflow checks. -/
theorem tile_prefix_wrapping {nblock n : Nat} {vs out : List Int} {bytes : List UInt8} {fuel : Nat} (hi : ∀ v ∈ vs, InI32 v)
    (hn : n + nblock ≤ 2 ^ 31) (hvn : vs.length ≤ n) (h : IsRice nblock vs bytes)
    (ho : tile .wrapping fuel nblock n bytes = some (.ok out)) : vs <+: out := by
  obtain ⟨first, bits, pad, h1, h2, h3⟩ := h
  match vs, h1 with
  | v :: vs, h1 =>
    cases h1
    have hv : InI32 first := hi _ (List.mem_cons_self ..)
    have hb : bits ≠ [] := blocks_ne h2 (by simp)
    have hlt : (first % 2 ^ 32).toNat < 2 ^ 32 := by omega
    rw [List.length_cons] at hvn
    have hlen : n < 2 ^ 31 := by
      have := blocks_pos h2 (by simp)
      omega
    rw [List.append_assoc] at h3
    obtain ⟨s, h4, h5, h6⟩ := step_start (p := .wrapping) (q := { nblock := nblock, nx := (n : Int) })
      (room := n) hlt (by simp [hb]) h3
    have hc : Chain .wrapping first (first :: vs) := by
      refine ⟨hv, Or.inl rfl, chain_of (fun w hw => hi w (List.mem_cons_of_mem _ hw)) (Or.inl rfl)⟩
    rw [toSigned_mod hv] at h4
    unfold tile at ho
    rw [if_neg (by omega), toSigned_nat hlen] at ho
    cases fuel with
    | zero => cases ho
    | succ fuel =>
      rw [read_fs h4, show (0 : Int) = ((0 : Nat) : Int) from rfl] at ho
      cases hq : read .wrapping { nblock := nblock, nx := (n : Int) } fuel n (.fs s ((0 : Nat) : Int) first) with
      | none => rw [hq] at ho; cases ho
      | some r =>
        rw [hq] at ho
        cases r with
        | ok a =>
          obtain ⟨o1, st⟩ := a
          cases ho
          exact read_prefix h2 s 0 fuel n o1 st h5 hv hc h6 (by rw [List.length_cons]; omega) (by omega) (by omega) hq
        | err e => cases ho
        | panic => cases ho

/-- Decoding at least the pixels that the bytes code, when it succeeds: they come first. -/
theorem tile_prefix {p : Profile} {nblock n : Nat} {vs out : List Int} {bytes : List UInt8} {fuel : Nat} (hi : ∀ v ∈ vs, InI32 v)
    (hn : n + nblock ≤ 2 ^ 31) (hvn : vs.length ≤ n) (h : IsRice nblock vs bytes)
    (ho : tile p fuel nblock n bytes = some (.ok out)) : vs <+: out := by
  cases p with
  | wrapping => exact tile_prefix_wrapping hi hn hvn h ho
  | checked =>
    rcases tile_le fuel nblock n bytes with e | e
    · rw [e] at ho; cases ho
    · rw [e] at ho; exact tile_prefix_wrapping hi hn hvn h ho

end Fitsrs.Rice

import Verif.Lemmas.Agree
import Verif.Lemmas.Rice
/-
The RICE decoder in checked builds, on arbitrary bytes: it does what it does in release builds up to the first pixel that
differs from the one before by more than a 32-bit integer can hold.
-/

namespace Fitsrs.Spec

/-- Each pixel differs from the one before, `last` for the first one, by a 32-bit integer. -/
def StepsFit : Int → List Int → Prop
  | _, [] => True
  | last, v :: vs => InI32 (v - last) ∧ StepsFit v vs

end Fitsrs.Spec

namespace Fitsrs.Rice
open Spec

/-- The bits that are left can be counted with an `i32`. -/
def Bits.Short (s : Bits) : Prop := 8 * s.inp.length + 32 < 2 ^ 31

theorem refill_inp (inp : List UInt8) : ∀ {b : Nat} {nbits : Int} {s : Bits}, refill inp b nbits = .ok s →
    s.inp.length ≤ inp.length := by
  induction inp with
  | nil =>
    intro b nbits s h
    by_cases hn : nbits < 0
    · rw [refill_nil hn] at h; cases h
    · rw [refill_done hn] at h; cases h; exact Nat.le_refl _
  | cons x inp ih =>
    intro b nbits s h
    by_cases hn : nbits < 0
    · rw [refill_cons hn] at h
      have := ih h
      rw [List.length_cons]; omega
    · rw [refill_done hn] at h; cases h; exact Nat.le_refl _

theorem skipZeros_inp {p : Profile} (inp : List UInt8) : ∀ {b : Nat} {nbits : Int} {s : Bits},
    skipZeros p inp b nbits = .ok s → s.inp.length ≤ inp.length := by
  induction inp with
  | nil =>
    intro b nbits s h
    by_cases hb : b = 0
    · subst hb
      unfold skipZeros at h
      rw [if_pos rfl] at h
      cases hi : i32op p (nbits + 8) <;> rw [hi] at h <;> cases h
    · rw [skipZeros_done hb] at h; cases h; exact Nat.le_refl _
  | cons x inp ih =>
    intro b nbits s h
    by_cases hb : b = 0
    · subst hb
      cases hi : i32op p (nbits + 8) with
      | ok n =>
        rw [skipZeros_cons hi] at h
        have := ih h
        rw [List.length_cons]; omega
      | err e => unfold skipZeros at h; rw [if_pos rfl, hi] at h; cases h
      | panic => unfold skipZeros at h; rw [if_pos rfl, hi] at h; cases h
    · rw [skipZeros_done hb] at h; cases h; exact Nat.le_refl _

theorem riceDiff_inp {p : Profile} {fs : Int} {s s' : Bits} {d : Nat} (h : riceDiff p fs s = .ok (d, s')) :
    s'.inp.length ≤ s.inp.length := by
  unfold riceDiff at h
  obtain ⟨s1, h1, h2⟩ := Res.bind_eq_ok.1 h
  have k1 := skipZeros_inp _ h1
  unfold riceEnd at h2
  cases hc : nonzeroCount[s1.b]? with
  | none => rw [hc] at h2; cases h2
  | some c =>
    rw [hc] at h2
    dsimp only at h2
    obtain ⟨_, -, h3⟩ := Res.bind_eq_ok.1 h2
    obtain ⟨_, -, h4⟩ := Res.bind_eq_ok.1 h3
    obtain ⟨_, -, h5⟩ := Res.bind_eq_ok.1 h4
    obtain ⟨_, -, h6⟩ := Res.bind_eq_ok.1 h5
    obtain ⟨s2, h7, h8⟩ := Res.bind_eq_ok.1 h6
    have k2 := refill_inp _ h7
    obtain ⟨_, -, h9⟩ := Res.bind_eq_ok.1 h8
    obtain ⟨_, -, h10⟩ := Res.bind_eq_ok.1 h9
    cases h10
    exact Nat.le_trans k2 k1

theorem fsValue_inp {p : Profile} {s s' : Bits} {v : Int} (h : fsValue p s = .ok (v, s')) :
    s'.inp.length ≤ s.inp.length := by
  unfold fsValue at h
  obtain ⟨s1, h1, h2⟩ := Res.bind_eq_ok.1 h
  have k1 := refill_inp _ h1
  obtain ⟨_, -, h3⟩ := Res.bind_eq_ok.1 h2
  obtain ⟨_, -, h4⟩ := Res.bind_eq_ok.1 h3
  cases h4
  exact k1

theorem highFill_inp {p : Profile} (inp : List UInt8) : ∀ {b diff : Nat} {k : Int} {r : Nat × Nat × Int × List UInt8},
    highFill p inp b diff k = .ok r → r.2.2.2.length ≤ inp.length := by
  induction inp with
  | nil =>
    intro b diff k r h
    unfold highFill at h
    by_cases hk : 0 ≤ k
    · rw [if_pos hk] at h; cases h
    · rw [if_neg hk] at h; cases h; exact Nat.le_refl _
  | cons x inp ih =>
    intro b diff k r h
    unfold highFill at h
    by_cases hk : 0 ≤ k
    · rw [if_pos hk] at h
      cases hs : shamt p 32 k with
      | ok n =>
        dsimp only at h
        rw [hs] at h
        have := ih h
        rw [List.length_cons]; omega
      | err e => dsimp only at h; rw [hs] at h; cases h
      | panic => dsimp only at h; rw [hs] at h; cases h
    · rw [if_neg hk] at h; cases h; exact Nat.le_refl _

theorem highDiff_inp {p : Profile} {s s' : Bits} {d : Nat} (h : highDiff p s = .ok (d, s')) :
    s'.inp.length ≤ s.inp.length := by
  unfold highDiff at h
  obtain ⟨_, -, h1⟩ := Res.bind_eq_ok.1 h
  obtain ⟨⟨d1, b1, k, inp⟩, h2, h3⟩ := Res.bind_eq_ok.1 h1
  have k1 := highFill_inp _ h2
  dsimp only at h3 k1
  unfold highEnd at h3
  by_cases hn : s.nbits > 0
  · rw [if_pos hn] at h3
    match inp, h3, k1 with
    | [], h3, k1 => cases h3
    | x :: inp, h3, k1 =>
      obtain ⟨_, -, h4⟩ := Res.bind_eq_ok.1 h3
      obtain ⟨_, -, h5⟩ := Res.bind_eq_ok.1 h4
      cases h5
      rw [List.length_cons] at k1
      dsimp only
      omega
  · rw [if_neg hn] at h3
    cases h3
    exact k1

/-- Zeros without a one, in checked builds. -/
theorem skipZeros_short' (inp : List UInt8) : ∀ (b nb : Nat) (nbits : Int), b < 2 ^ nb →
    0 ≤ nbits → nbits + 8 * inp.length + 8 < 2 ^ 31 →
    true ∉ bitsOf nb b ++ byteBits inp → skipZeros .checked inp b nbits = .err (.io .unexpectedEof) := by
  induction inp with
  | nil =>
    intro b nb nbits hb hn hs h
    by_cases h0 : b = 0
    · subst h0
      unfold skipZeros
      rw [List.length_nil] at hs
      rw [if_pos rfl, i32op_ok (Or.inr ⟨by omega, by omega⟩)]
    · obtain ⟨h1, h2⟩ := log2_spec h0
      have hc : b.log2 < nb := (Nat.pow_lt_pow_iff_right (by decide)).1 (Nat.lt_of_le_of_lt h1 hb)
      rw [bitsOf_lead hc h1 h2] at h
      simp at h
  | cons x inp ih =>
    intro b nb nbits hb hn hs h
    by_cases h0 : b = 0
    · subst h0
      rw [List.length_cons] at hs
      have hin : InI32 (nbits + 8) := ⟨by omega, by omega⟩
      rw [skipZeros_cons (i32op_ok (Or.inr hin)), wrap32_of hin]
      have hx : x.toNat < 2 ^ 8 := x.toNat_lt
      refine ih _ 8 _ hx (by omega) (by omega) fun hm => h ?_
      rw [byteBits_cons]
      exact List.mem_append_right _ hm
    · obtain ⟨h1, h2⟩ := log2_spec h0
      have hc : b.log2 < nb := (Nat.pow_lt_pow_iff_right (by decide)).1 (Nat.lt_of_le_of_lt h1 hb)
      rw [bitsOf_lead hc h1 h2] at h
      simp at h

/-- A split difference in checked builds does not panic if the bits can be counted. -/
theorem riceDiff_short {s : Bits} {fs : Nat} (hs : s.Ok 7) (hl : s.Short) (hfs : fs < 32) :
    riceDiff .checked fs s ≠ .panic := by
  obtain ⟨h0, h1, h2⟩ := hs
  unfold Bits.Short at hl
  unfold riceDiff
  by_cases ht : true ∈ s.stream
  · obtain ⟨z, R, h⟩ := exists_zeros _ ht
    have hz : z + 8 < 2 ^ 31 := by
      have := congrArg List.length h
      rw [Bits.stream_length, List.length_append, List.length_replicate, List.length_cons] at this
      omega
    obtain ⟨b', inp', h3, h4, h5, h6⟩ := skipZeros_ok (p := .checked) s.inp z s.b s.nbits.toNat 0 (by omega) h2
      (Or.inr (by omega)) h
    have e : wrap32 ((0 + s.nbits.toNat : Nat) : Int) = s.nbits := by
      rw [wrap32_of ⟨by omega, by omega⟩]; omega
    rw [e, Nat.zero_add] at h3
    rw [h3]
    simp only [Res.bind_ok]
    rw [riceEnd_eq h5 h4 (Or.inr hz) hfs]
    obtain ⟨-, -, hlog⟩ := nonzeroCount_spec b' h5 h4
    rcases refill_any inp' (b' % 2 ^ b'.log2) ((b'.log2 : Int) - fs) with h7 | ⟨b2, n, inp2, h7, h8, h9⟩
    · rw [h7]
      intro hh; cases hh
    · rw [h7]
      obtain ⟨m, rfl⟩ : ∃ m : Nat, n = m := ⟨n.toNat, by omega⟩
      show ((shamt .checked 32 (m : Int)).bind fun n => _) ≠ _
      rw [shamt_nat (by omega)]
      intro hh; cases hh
  · rw [skipZeros_short' s.inp s.b s.nbits.toNat _ h2 h0 (by omega) ht]
    intro hh; cases hh

theorem refill_lt (inp : List UInt8) : ∀ {b : Nat} {nbits : Int} {s : Bits}, b < 2 ^ 32 → refill inp b nbits = .ok s →
    s.b < 2 ^ 32 := by
  induction inp with
  | nil =>
    intro b nbits s hb h
    by_cases hn : nbits < 0
    · rw [refill_nil hn] at h; cases h
    · rw [refill_done hn] at h; cases h; exact hb
  | cons x inp ih =>
    intro b nbits s hb h
    by_cases hn : nbits < 0
    · rw [refill_cons hn] at h
      have hx : x.toNat < 256 := x.toNat_lt
      exact ih (Nat.or_lt_two_pow (Nat.mod_lt _ (by decide)) (by omega)) h
    · rw [refill_done hn] at h; cases h; exact hb

theorem shamt_lt {p : Profile} {w n : Nat} {k : Int} (hw : 0 < w) (h : shamt p w k = .ok n) : n < w := by
  unfold shamt at h
  by_cases hk : 0 ≤ k ∧ k < w
  · rw [if_pos hk] at h; cases h; omega
  · rw [if_neg hk] at h
    cases p with
    | checked => cases h
    | wrapping =>
      cases h
      have := Int.emod_lt_of_pos k (b := (w : Int)) (by omega)
      have := Int.emod_nonneg k (b := (w : Int)) (by omega)
      omega

theorem nonzeroCount_length : nonzeroCount.length = 256 := by decide +kernel

theorem riceDiff_lt {p : Profile} {fs : Int} {s s' : Bits} {d : Nat} (h : riceDiff p fs s = .ok (d, s')) :
    d < 2 ^ 32 := by
  unfold riceDiff at h
  obtain ⟨s1, h1, h2⟩ := Res.bind_eq_ok.1 h
  unfold riceEnd at h2
  cases hc : nonzeroCount[s1.b]? with
  | none => rw [hc] at h2; cases h2
  | some c =>
    have hb : s1.b < 256 := by
      obtain ⟨hb, -⟩ := List.getElem?_eq_some_iff.1 hc
      rw [nonzeroCount_length] at hb
      exact hb
    rw [hc] at h2
    dsimp only at h2
    obtain ⟨_, -, h3⟩ := Res.bind_eq_ok.1 h2
    obtain ⟨_, -, h4⟩ := Res.bind_eq_ok.1 h3
    obtain ⟨_, -, h5⟩ := Res.bind_eq_ok.1 h4
    obtain ⟨n, hn, h6⟩ := Res.bind_eq_ok.1 h5
    obtain ⟨s2, h7, h8⟩ := Res.bind_eq_ok.1 h6
    have hn := shamt_lt (by decide) hn
    have hs2 : s2.b < 2 ^ 32 := refill_lt _ (Nat.xor_lt_two_pow (by omega) (by
      rw [Nat.one_shiftLeft]; exact Nat.pow_lt_pow_right (by decide) hn)) h7
    obtain ⟨_, -, h9⟩ := Res.bind_eq_ok.1 h8
    obtain ⟨m, -, h10⟩ := Res.bind_eq_ok.1 h9
    cases h10
    refine Nat.or_lt_two_pow (Nat.mod_lt _ (by decide)) (Nat.lt_of_le_of_lt ?_ hs2)
    rw [Nat.shiftRight_eq_div_pow]
    exact Nat.div_le_self _ _

theorem highFill_lt {p : Profile} (inp : List UInt8) : ∀ {b diff : Nat} {k : Int} {r : Nat × Nat × Int × List UInt8},
    diff < 2 ^ 32 → highFill p inp b diff k = .ok r → r.1 < 2 ^ 32 := by
  induction inp with
  | nil =>
    intro b diff k r hd h
    unfold highFill at h
    by_cases hk : 0 ≤ k
    · rw [if_pos hk] at h; cases h
    · rw [if_neg hk] at h; cases h; exact hd
  | cons x inp ih =>
    intro b diff k r hd h
    unfold highFill at h
    by_cases hk : 0 ≤ k
    · rw [if_pos hk] at h
      cases hs : shamt p 32 k with
      | ok n =>
        dsimp only at h
        rw [hs] at h
        exact ih (Nat.or_lt_two_pow hd (Nat.mod_lt _ (by decide))) h
      | err e => dsimp only at h; rw [hs] at h; cases h
      | panic => dsimp only at h; rw [hs] at h; cases h
    · rw [if_neg hk] at h; cases h; exact hd

theorem highDiff_lt {p : Profile} {s s' : Bits} {d : Nat} (h : highDiff p s = .ok (d, s')) : d < 2 ^ 32 := by
  unfold highDiff at h
  obtain ⟨_, -, h1⟩ := Res.bind_eq_ok.1 h
  obtain ⟨⟨d1, b1, k, inp⟩, h2, h3⟩ := Res.bind_eq_ok.1 h1
  have k1 := highFill_lt _ (Nat.mod_lt _ (by decide)) h2
  dsimp only at h3 k1
  unfold highEnd at h3
  by_cases hn : s.nbits > 0
  · rw [if_pos hn] at h3
    match inp, h3 with
    | [], h3 => cases h3
    | x :: inp, h3 =>
      obtain ⟨_, -, h4⟩ := Res.bind_eq_ok.1 h3
      obtain ⟨_, -, h5⟩ := Res.bind_eq_ok.1 h4
      cases h5
      have hx : x.toNat < 256 := x.toNat_lt
      refine Nat.or_lt_two_pow k1 (Nat.lt_of_le_of_lt ?_ (show x.toNat < 2 ^ 32 by omega))
      rw [Nat.shiftRight_eq_div_pow]
      exact Nat.div_le_self _ _
  · rw [if_neg hn] at h3
    cases h3
    exact k1

theorem unmap_lt {d : Nat} (h : d < 2 ^ 32) : unmap d < 2 ^ 32 := by
  by_cases h2 : d % 2 = 0
  · rw [unmap_even h2]; omega
  · rw [unmap_odd h2]; omega

/-- Both builds read the same differences, when the bits can be counted. -/
structure SameDiff (f g : Bits → Res (Nat × Bits)) : Prop where
  eq : ∀ s, s.Ok 7 → s.Short → f s = g s
  total : ∀ s, s.Ok 7 → Total (g s)
  inp : ∀ {s d s'}, g s = .ok (d, s') → s'.inp.length ≤ s.inp.length
  lt : ∀ {s d s'}, g s = .ok (d, s') → d < 2 ^ 32

theorem rice_same {fs : Nat} (hfs : fs < 32) : SameDiff (riceDiff .checked fs) (riceDiff .wrapping fs) where
  eq s h1 h2 := (riceDiff_le fs s).resolve_left (riceDiff_short h1 h2 hfs)
  total _ h := riceDiff_any h hfs
  inp h := riceDiff_inp h
  lt h := riceDiff_lt h

theorem high_same : SameDiff (highDiff .checked) (highDiff .wrapping) where
  eq s h1 _ := (highDiff_le s).resolve_left (by
    intro h
    rcases highDiff_any (p := .checked) h1 with h2 | ⟨_, _, h2, -⟩ <;> rw [h] at h2 <;> cases h2)
  total _ h := highDiff_any h
  inp h := highDiff_inp h
  lt h := highDiff_lt h

theorem stepsFit_append {last : Int} {a b : List Int} :
    StepsFit last (a ++ b) ↔ StepsFit last a ∧ StepsFit (a.getLastD last) b := by
  induction a generalizing last with
  | nil => exact ⟨fun h => ⟨trivial, h⟩, fun h => h.2⟩
  | cons v a ih =>
    rw [List.getLastD_cons]
    show InI32 _ ∧ StepsFit v (a ++ b) ↔ (InI32 _ ∧ StepsFit v a) ∧ _
    rw [ih]
    exact and_assoc.symm

theorem stepsFit_replicate (n : Nat) (last : Int) : StepsFit last (List.replicate n last) := by
  induction n with
  | zero => trivial
  | succ n ih => exact ⟨by rw [Int.sub_self]; unfold InI32; decide, ih⟩

theorem getLastD_replicate' (n : Nat) (last : Int) : (List.replicate n last).getLastD last = last := by
  induction n with
  | zero => rfl
  | succ n ih => rw [List.replicate_succ, List.getLastD_cons]; exact ih

/-- A result in checked builds, given the result in release builds and the pixels it has. -/
def Checks {α : Type} (c w : α) (panic : α) (last : Int) (out : List Int) : Prop :=
  (StepsFit last out → c = w) ∧ (¬ StepsFit last out → c = panic)

/-- The pixels of a block in checked builds. -/
theorem pixels_checked {f g : Bits → Res (Nat × Bits)} (hd : SameDiff f g) (n : Nat) :
    ∀ (last : Int) (s : Bits), s.Ok 7 → s.Short → InI32 last → ∀ out l s', pixels .wrapping g n last s = .ok (out, l, s') →
      Checks (pixels .checked f n last s) (.ok (out, l, s')) .panic last out ∧ l = out.getLastD last ∧
        s'.inp.length ≤ s.inp.length := by
  induction n with
  | zero =>
    intro last s _ _ _ out l s' h
    cases h
    exact ⟨⟨fun _ => rfl, fun h => absurd trivial h⟩, rfl, Nat.le_refl _⟩
  | succ n ih =>
    intro last s hs hsh hl out l s' h
    rw [pixels] at h
    obtain ⟨⟨d, s1⟩, h1, h2⟩ := Res.bind_eq_ok.1 h
    dsimp only at h2
    have hi := hd.inp h1
    have hs1 : s1.Ok 7 := by
      rcases hd.total s hs with h3 | ⟨d', s2, h3, h4⟩
      · rw [h1] at h3; cases h3
      · rw [h1] at h3; cases h3; exact h4
    have hsh1 : s1.Short := by unfold Bits.Short at *; omega
    unfold curPix at h2
    have hdi := toSigned_in _ (unmap_lt (hd.lt h1))
    rw [i32op_ok (Or.inl rfl), Res.bind_ok] at h2
    obtain ⟨⟨out', l', s2⟩, h3, h4⟩ := Res.bind_eq_ok.1 h2
    dsimp only at h4
    cases h4
    obtain ⟨⟨c1, c2⟩, c3, c4⟩ := ih _ s1 hs1 hsh1 (wrap32_in _) _ _ _ h3
    refine ⟨?_, by rw [List.getLastD_cons]; exact c3, Nat.le_trans c4 hi⟩
    have e : pixels .checked f (n + 1) last s =
        ((curPix .checked d last).bind fun cur => (pixels .checked f n cur s1).bind fun r =>
          .ok (cur :: r.1, r.2.1, r.2.2)) := by
      rw [pixels, hd.eq s hs hsh, h1]
      rfl
    rw [e]
    unfold curPix
    generalize toSigned 32 (unmap d) = t at hdi c1 c2 ⊢
    by_cases ht : InI32 (t + last)
    · rw [i32op_ok (Or.inr ht)]
      have hw : wrap32 (t + last) = t + last := wrap32_of ht
      constructor
      · intro hf
        show (pixels .checked f n (wrap32 (t + last)) s1).bind _ = _
        rw [c1 hf.2]
        rfl
      · intro hf
        have : ¬ StepsFit (wrap32 (t + last)) out' := fun h => hf ⟨by
          rw [hw, show t + last - last = t by omega]; exact hdi, h⟩
        show (pixels .checked f n (wrap32 (t + last)) s1).bind _ = _
        rw [c2 this]
        rfl
    · have : i32op .checked (t + last) = .panic := by unfold i32op; exact if_neg ht
      rw [this]
      refine ⟨fun hf => ?_, fun _ => rfl⟩
      exfalso
      have := hf.1
      unfold InI32 at ht hdi this hl
      unfold wrap32 at this
      omega

/-- The turn of the loop for the parameter of a block, in checked builds. -/
theorem step_fs_checked {q : Params} {room : Nat} {s : Bits} {i last im : Int} (hs : s.Ok 8) (hsh : s.Short)
    (him : ∀ p, i32op p (i + q.nblock) = .ok im) :
    (step .wrapping q room (.fs s i last) = .err (.io .unexpectedEof) ∧
      step .checked q room (.fs s i last) = .err (.io .unexpectedEof)) ∨
    ∃ (v : Nat) (s' : Bits), (∀ p, step p q room (.fs s i last) =
      .ok ([], blockState ((v : Int) - 1) s' i (min im q.nx) last, false)) ∧ v < 32 ∧ s'.Ok 7 ∧ s'.Short := by
  have key : fsValue .checked s = fsValue .wrapping s := (fsValue_le s).resolve_left (by
    intro h
    rcases fsValue_any (p := .checked) hs with h2 | ⟨_, _, h2, -⟩ <;> rw [h] at h2 <;> cases h2)
  have hstep : ∀ p, step p q room (.fs s i last) = (fsValue p s).bind fun r =>
      (i32op p (i + q.nblock)).bind fun imax => .ok ([], blockState r.1 r.2 i (min imax q.nx) last, false) := fun _ => rfl
  rcases fsValue_any (p := .wrapping) hs with h | ⟨v, s', h, h1, h2⟩
  · left
    rw [hstep, hstep, key, h]
    exact ⟨rfl, rfl⟩
  · right
    refine ⟨v, s', fun p => ?_, h1, h2, ?_⟩
    · rw [hstep, him]
      cases p with
      | checked => rw [key, h]; rfl
      | wrapping => rw [h]; rfl
    · have := fsValue_inp h
      unfold Bits.Short at *
      omega

/-- The turn of the loop for the pixels of a block, in checked builds. -/
theorem step_block_checked {q : Params} {room v : Nat} {s : Bits} {i imax last : Int} (hs : s.Ok 7) (hsh : s.Short)
    (hv : v < 32) (hl : InI32 last) {out : List Int} {st : State} {t : Bool}
    (h : step .wrapping q room (blockState ((v : Int) - 1) s i imax last) = .ok (out, st, t)) :
    Checks (step .checked q room (blockState ((v : Int) - 1) s i imax last)) (.ok (out, st, t)) .panic last out ∧
      t = true ∧ out.length = min room (imax - i).toNat ∧ InI32 (out.getLastD last) ∧
      ∃ old s', st = afterBlock old s' (i + out.length) imax (out.getLastD last) ∧ s'.Ok 7 ∧ s'.Short := by
  unfold blockState fsMax at h ⊢
  by_cases h0 : (v : Int) - 1 < 0
  · rw [if_pos h0] at h ⊢
    cases h
    refine ⟨⟨fun _ => rfl, fun h => absurd (stepsFit_replicate _ _) h⟩, rfl, List.length_replicate, ?_, ?_⟩
    · rw [getLastD_replicate']; exact hl
    · rw [getLastD_replicate', List.length_replicate]
      exact ⟨_, s, rfl, hs, hsh⟩
  · rw [if_neg h0] at h ⊢
    have main : ∀ {f g : Bits → Res (Nat × Bits)}, SameDiff f g → ∀ {old : Bits → State},
        ((pixels .wrapping g (min room (imax - i).toNat) last s).bind fun r =>
          .ok (r.1, afterBlock (old r.2.2) r.2.2 (i + (min room (imax - i).toNat : Nat)) imax r.2.1, true)) =
            Res.ok (out, st, t) →
        Checks ((pixels .checked f (min room (imax - i).toNat) last s).bind fun r =>
          .ok (r.1, afterBlock (old r.2.2) r.2.2 (i + (min room (imax - i).toNat : Nat)) imax r.2.1, true))
            (.ok (out, st, t)) .panic last out ∧
          t = true ∧ out.length = min room (imax - i).toNat ∧ InI32 (out.getLastD last) ∧
          ∃ old s', st = afterBlock old s' (i + out.length) imax (out.getLastD last) ∧ s'.Ok 7 ∧ s'.Short := by
      intro f g hd old h
      rcases pixels_any hd.total (min room (imax - i).toNat) last s hs hl with h2 | ⟨o, l, s', h2, h3, h4, h5, h6⟩
      · rw [h2] at h; cases h
      · rw [h2] at h
        cases h
        obtain ⟨⟨c1, c2⟩, c3, c4⟩ := pixels_checked hd _ last s hs hsh hl _ _ _ h2
        refine ⟨⟨fun hf => ?_, fun hf => ?_⟩, rfl, h3, c3 ▸ h5, old s', s', ?_, h4, ?_⟩
        · rw [c1 hf]; rfl
        · rw [c2 hf]; rfl
        · dsimp only; rw [h3, ← c3]
        · unfold Bits.Short at *; omega
    by_cases h1 : (v : Int) - 1 = 25
    · rw [if_pos h1] at h ⊢
      exact main high_same (old := fun s' => .high { s with inp := s'.inp } i imax last) h
    · rw [if_neg h1] at h ⊢
      obtain ⟨fs, hfs⟩ : ∃ fs : Nat, (v : Int) - 1 = fs := ⟨v - 1, by omega⟩
      rw [hfs] at h ⊢
      exact main (rice_same (fs := fs) (by omega)) (old := fun s' => .rice { s with inp := s'.inp } fs i imax last) h

theorem read_panic {p : Profile} {q : Params} {fuel room : Nat} {st : State} (h : step p q room st = .panic) :
    read p q (fuel + 1) room st = some .panic := by
  rw [read, h]

/-- Reading in checked builds. -/
theorem read_checked {nblock : Nat} {nx : Int} (hnb : 0 < nblock) (hx : nx + nblock ≤ 2 ^ 31) (room : Nat) :
    ∀ (s : Bits) (i fuel : Nat) (last : Int), s.Ok 8 → s.Short → InI32 last → 0 < room → (i : Int) + room = nx →
    2 * room ≤ fuel → ∀ out st,
    read .wrapping { nblock := nblock, nx } fuel room (.fs s i last) = some (.ok (out, st)) →
    Checks (read .checked { nblock := nblock, nx } fuel room (.fs s i last)) (some (.ok (out, st))) (some .panic)
      last out := by
  induction room using Nat.strongRecOn with
  | ind room ih =>
    intro s i fuel last hs hsh hl hr hi hf out st h
    obtain ⟨fuel, rfl⟩ : ∃ k, fuel = k + 1 + 1 := ⟨fuel - 2, by omega⟩
    have hin : InI32 ((i : Int) + (nblock : Int)) := ⟨by omega, by omega⟩
    have him : ∀ p, i32op p ((i : Int) + (nblock : Int)) = .ok ((i : Int) + nblock) := by
      intro p
      rw [i32op_ok (Or.inr hin), wrap32_of hin]
    rcases step_fs_checked (q := { nblock := nblock, nx }) (room := room) (last := last) hs hsh him with
      ⟨h1, -⟩ | ⟨v, s1, h1, hv, h2, h3⟩
    · rw [read_err h1] at h; cases h
    · rw [read_fs (h1 _)] at h ⊢
      cases h4 : step .wrapping { nblock := nblock, nx } room
          (blockState ((v : Int) - 1) s1 i (min ((i : Int) + nblock) nx) last) with
      | err e => rw [read_err h4] at h; cases h
      | panic => rw [read_panic h4] at h; cases h
      | ok x =>
        obtain ⟨o, st1, t⟩ := x
        obtain ⟨⟨c1, c2⟩, rfl, hlen, hlast, old, s2, hst, h5, h6⟩ := step_block_checked h2 h3 hv hl h4
        by_cases hroom : o.length = room
        · rw [read_end h4 hroom] at h
          cases h
          exact ⟨fun hf => read_end (c1 hf) hroom, fun hf => read_panic (c2 hf)⟩
        · have e : (i : Int) + (o.length : Int) = min ((i : Int) + nblock) nx := by omega
          rw [afterBlock_end e] at hst
          subst hst
          rw [read_more h4 (Or.inr hroom)] at h
          obtain ⟨r, h7, h8⟩ := Option.map_eq_some_iff.1 h
          obtain ⟨⟨rest, st'⟩, rfl, h8⟩ := Res.map_eq_ok.1 h8
          cases h8
          have e2 : (i : Int) + (o.length : Int) = ((i + o.length : Nat) : Int) := by omega
          rw [e2] at h7
          obtain ⟨d1, d2⟩ := ih (room - o.length) (by omega) s2 (i + o.length) fuel _
            ⟨h5.1, by have := h5.2.1; omega, h5.2.2⟩ h6 hlast (by omega) (by omega) (by omega) _ _ h7
          constructor
          · intro hf
            obtain ⟨hf1, hf2⟩ := stepsFit_append.1 hf
            rw [read_more (c1 hf1) (Or.inr hroom), e2, d1 hf2]
            rfl
          · intro hf
            by_cases hf1 : StepsFit last o
            · rw [read_more (c1 hf1) (Or.inr hroom), e2, d2 fun hf2 => hf (stepsFit_append.2 ⟨hf1, hf2⟩)]
              rfl
            · exact read_panic (c2 hf1)

end Fitsrs.Rice

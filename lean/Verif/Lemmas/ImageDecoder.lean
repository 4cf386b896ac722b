import Verif.Spec.ImageDecoder
import Verif.Lemmas.Basic
/-
Lemmas on the loops that fill the buffer of an image decoder.
-/

namespace Fitsrs
open Spec

theorem sampleAt_zero (size : Nat) (buf : List UInt8) : sampleAt size buf 0 = buf.take size := by
  simp [sampleAt]

theorem sampleAt_append_succ {size : Nat} {a b : List UInt8} (h : a.length = size) (i : Nat) :
    sampleAt size (a ++ b) (i + 1) = sampleAt size b i := by
  unfold sampleAt
  rw [Nat.succ_mul, Nat.add_comm, List.drop_append, ← h]
  rw [List.drop_eq_nil_of_le (by omega), List.nil_append]
  congr 2
  omega

theorem sampleAt_drop (size : Nat) (buf : List UInt8) (i : Nat) :
    sampleAt size (buf.drop size) i = sampleAt size buf (i + 1) := by
  unfold sampleAt
  rw [List.drop_drop, Nat.succ_mul, Nat.add_comm size]

theorem sampleAt_length {size : Nat} {buf : List UInt8} {i : Nat} (h : (i + 1) * size ≤ buf.length) :
    (sampleAt size buf i).length = size := by
  unfold sampleAt
  rw [Nat.succ_mul] at h
  rw [List.length_take, List.length_drop]
  omega

/-- A loop over the chunks of a buffer. -/
theorem writeLoop_spec {σ : Type} {next : Source σ} {ended : σ → Prop} (hend : Exhausted next ended) (size : Nat)
    (set : List UInt8 → List UInt8 → List UInt8) (k : Nat) :
    ∀ (buf : List UInt8) (s : σ) (vs : List (List UInt8)), k * size ≤ buf.length →
      Yields next ended s vs → (∀ v ∈ vs, ∀ px : List UInt8, px.length = size → (set v px).length = size) →
      ∃ out s', writeLoop next size set k buf s = some (.ok out, s') ∧ Yields next ended s' (vs.drop k) ∧
        out.length = buf.length ∧ out.drop (k * size) = buf.drop (k * size) ∧
        ∀ i < k, sampleAt size out i =
          match vs[i]? with
          | some v => set v (sampleAt size buf i)
          | none => sampleAt size buf i := by
  induction k with
  | zero => intro buf s vs _ hy _; exact ⟨buf, s, rfl, hy, rfl, rfl, by omega⟩
  | succ k ih =>
    intro buf s vs hlen hy hset
    cases hy with
    | nil he =>
      obtain ⟨s', e, he'⟩ := hend s he
      refine ⟨buf, s', by rw [writeLoop, e], by simpa using Yields.nil he', rfl, rfl, ?_⟩
      intro i _; simp
    | @cons _ s' v vs e hy =>
      rw [Nat.succ_mul] at hlen
      have hl : (buf.take size).length = size := by rw [List.length_take]; omega
      obtain ⟨out, s'', e', hy', h1, h2, h3⟩ := ih (buf.drop size) s' vs (by rw [List.length_drop]; omega) hy
        fun v hv => hset v (List.mem_cons_of_mem _ hv)
      have hs : (set v (buf.take size)).length = size := hset v (List.mem_cons_self ..) _ hl
      refine ⟨set v (buf.take size) ++ out, s'', by rw [writeLoop, e]; dsimp only; rw [e']; rfl, hy', ?_, ?_, ?_⟩
      · rw [List.length_append, hs, h1, List.length_drop]; omega
      · rw [Nat.succ_mul, Nat.add_comm, ← List.drop_drop, ← List.drop_drop, ← h2, List.drop_append, hs, Nat.sub_self,
          List.drop_eq_nil_of_le (as := set v (buf.take size)) (by omega)]
        rfl
      · intro i hi
        cases i with
        | zero =>
          rw [sampleAt_zero, sampleAt_zero, List.take_append, hs, Nat.sub_self, List.take_of_length_le (by omega)]
          simp
        | succ i =>
          rw [sampleAt_append_succ hs, h3 i (by omega), List.getElem?_cons_succ, sampleAt_drop]

/-- A sample of a pixel of three samples. -/
theorem sampleAt_sub {P : Nat} (buf : List UInt8) (i c : Nat) (hc : c < 3) :
    sampleAt P (sampleAt (3 * P) buf i) c = sampleAt P buf (3 * i + c) := by
  have e : i * (3 * P) + c * P = (3 * i + c) * P := by
    rw [Nat.add_mul, Nat.mul_comm 3 i, Nat.mul_assoc]
  have h : (c + 1) * P ≤ 3 * P := Nat.mul_le_mul_right _ hc
  rw [Nat.succ_mul] at h
  unfold sampleAt
  rw [List.drop_take, List.take_take, List.drop_drop, e, Nat.min_eq_left (by omega)]

theorem setChannel_length {P c : Nat} (hc : c < 3) {v px : List UInt8} (hv : v.length = P)
    (hp : px.length = 3 * P) : (setChannel P c v px).length = 3 * P := by
  have h : (c + 1) * P ≤ 3 * P := Nat.mul_le_mul_right _ hc
  rw [Nat.succ_mul] at h
  unfold setChannel
  simp only [List.length_append, List.length_take, List.length_drop, Nat.succ_mul]
  omega

theorem setChannel_same {P c : Nat} (hc : c < 3) {v px : List UInt8} (hv : v.length = P)
    (hp : px.length = 3 * P) : sampleAt P (setChannel P c v px) c = v := by
  have h : (c + 1) * P ≤ 3 * P := Nat.mul_le_mul_right _ hc
  rw [Nat.succ_mul] at h
  have hl : (px.take (c * P)).length = c * P := by rw [List.length_take]; omega
  unfold sampleAt setChannel
  rw [List.append_assoc, List.drop_append, hl, Nat.sub_self, List.drop_eq_nil_of_le (by omega), List.nil_append,
    List.drop_zero, List.take_append, hv, Nat.sub_self, List.take_of_length_le (by omega), List.take_zero,
    List.append_nil]

theorem setChannel_other {P c c' : Nat} (hc : c < 3) (hc' : c' < 3) (hne : c' ≠ c) {v px : List UInt8}
    (hv : v.length = P) (hp : px.length = 3 * P) : sampleAt P (setChannel P c v px) c' = sampleAt P px c' := by
  have h : (c + 1) * P ≤ 3 * P := Nat.mul_le_mul_right _ hc
  have h' : (c' + 1) * P ≤ 3 * P := Nat.mul_le_mul_right _ hc'
  unfold sampleAt setChannel
  by_cases hlt : c' < c
  · have h1 : (c' + 1) * P ≤ c * P := Nat.mul_le_mul_right _ hlt
    rw [Nat.succ_mul] at h h' h1
    have hl : (px.take (c * P)).length = c * P := by rw [List.length_take]; omega
    rw [List.append_assoc, List.drop_append_of_le_length (by omega), List.take_append_of_le_length (by
      rw [List.length_drop]; omega), List.drop_take, List.take_take, Nat.min_eq_left (by omega)]
  · have h1 : (c + 1) * P ≤ c' * P := Nat.mul_le_mul_right _ (by omega)
    rw [Nat.succ_mul] at h h' h1
    have hl : (px.take (c * P) ++ v).length = (c + 1) * P := by
      rw [List.length_append, List.length_take, Nat.succ_mul]; omega
    rw [List.drop_append, hl, List.drop_eq_nil_of_le (by rw [hl, Nat.succ_mul]; omega), List.nil_append,
      List.drop_drop]
    congr 2
    rw [Nat.succ_mul]; omega

/-- The loop over one channel. -/
theorem writeChannel_spec {σ : Type} {next : Source σ} {ended : σ → Prop} (hend : Exhausted next ended) {P n c : Nat}
    (hc : c < 3) (buf : List UInt8) (s : σ) (vs : List (List UInt8)) (hlen : 3 * P * n ≤ buf.length)
    (hy : Yields next ended s vs) (hv : ∀ v ∈ vs, v.length = P) :
    ∃ out s', writeLoop next (3 * P) (setChannel P c) n buf s = some (.ok out, s') ∧
      Yields next ended s' (vs.drop n) ∧ out.length = buf.length ∧ out.drop (3 * P * n) = buf.drop (3 * P * n) ∧
      ∀ i < n, ∀ c' < 3, sampleAt P out (3 * i + c') =
        if c' = c then (vs[i]?).getD (sampleAt P buf (3 * i + c')) else sampleAt P buf (3 * i + c') := by
  rw [Nat.mul_comm] at hlen
  obtain ⟨out, s', h1, h2, h3, h4, h5⟩ := writeLoop_spec hend (3 * P) (setChannel P c) n buf s vs hlen hy
    fun v hv' px hp => setChannel_length hc (hv v hv') hp
  refine ⟨out, s', h1, h2, h3, by rw [Nat.mul_comm]; exact h4, fun i hi c' hc' => ?_⟩
  have hpx : (sampleAt (3 * P) buf i).length = 3 * P :=
    sampleAt_length (Nat.le_trans (Nat.mul_le_mul_right _ hi) hlen)
  rw [← sampleAt_sub out i c' hc', h5 i hi, ← sampleAt_sub buf i c' hc']
  cases hi' : vs[i]? with
  | none => simp
  | some v =>
    have hv' := hv v (List.mem_of_getElem? hi')
    dsimp only
    by_cases hcc : c' = c
    · subst hcc; rw [if_pos rfl, setChannel_same hc hv' hpx]; rfl
    · rw [if_neg hcc, setChannel_other hc hc' hcc hv' hpx]

end Fitsrs

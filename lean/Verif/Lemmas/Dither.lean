import Verif.Spec.Dither
import Verif.Model.Dither
/-
Lemmas about rounding and about the random numbers of dithering.
-/

namespace Fitsrs
namespace Dyadic

theorem log2_bounds {n : Nat} (h : n ≠ 0) : 2 ^ n.log2 ≤ n ∧ n < 2 ^ (n.log2 + 1) :=
  ⟨Nat.log2_self_le h, Nat.lt_log2_self⟩

theorem exponent_bounds {num den : Nat} (hn : num ≠ 0) (hd : den ≠ 0) :
    den * 2 ^ (exponent num den).toNat ≤ num * 2 ^ (-(exponent num den)).toNat ∧
    num * 2 ^ (-(exponent num den + 1)).toNat < den * 2 ^ (exponent num den + 1).toNat := by
  obtain ⟨a1, a2⟩ := log2_bounds hn
  obtain ⟨b1, b2⟩ := log2_bounds hd
  unfold exponent
  generalize num.log2 = a at *
  generalize den.log2 = b at *
  dsimp only
  have hp : ∀ n, 0 < 2 ^ n := fun n => Nat.two_pow_pos n
  by_cases h : den * 2 ^ ((a : Int) - b).toNat ≤ num * 2 ^ (-((a : Int) - b)).toNat
  · rw [if_pos h]
    refine ⟨h, ?_⟩
    by_cases hk : b ≤ a + 1
    · have e1 : (-((a : Int) - b + 1)).toNat = 0 := by omega
      have e2 : a + 1 = b + ((a : Int) - b + 1).toNat := by omega
      rw [e1, Nat.pow_zero, Nat.mul_one]
      calc num < 2 ^ (a + 1) := a2
        _ = 2 ^ b * 2 ^ ((a : Int) - b + 1).toNat := by rw [← Nat.pow_add, ← e2]
        _ ≤ _ := Nat.mul_le_mul_right _ b1
    · have e1 : ((a : Int) - b + 1).toNat = 0 := by omega
      have e2 : b = (a + 1) + (-((a : Int) - b + 1)).toNat := by omega
      rw [e1, Nat.pow_zero, Nat.mul_one]
      calc num * 2 ^ (-((a : Int) - b + 1)).toNat < 2 ^ (a + 1) * 2 ^ (-((a : Int) - b + 1)).toNat :=
            Nat.mul_lt_mul_of_pos_right a2 (hp _)
        _ = 2 ^ b := by rw [← Nat.pow_add, ← e2]
        _ ≤ _ := b1
  · rw [if_neg h]
    have e0 : (a : Int) - b - 1 + 1 = a - b := by omega
    rw [e0]
    refine ⟨?_, Nat.lt_of_not_le h⟩
    by_cases hk : b + 1 ≤ a
    · have e1 : (-((a : Int) - b - 1)).toNat = 0 := by omega
      have e2 : a = (b + 1) + ((a : Int) - b - 1).toNat := by omega
      rw [e1, Nat.pow_zero, Nat.mul_one]
      refine Nat.le_of_lt ?_
      calc den * 2 ^ ((a : Int) - b - 1).toNat < 2 ^ (b + 1) * 2 ^ ((a : Int) - b - 1).toNat :=
            Nat.mul_lt_mul_of_pos_right b2 (hp _)
        _ = 2 ^ a := by rw [← Nat.pow_add, ← e2]
        _ ≤ _ := a1
    · have e1 : ((a : Int) - b - 1).toNat = 0 := by omega
      have e2 : b + 1 = a + (-((a : Int) - b - 1)).toNat := by omega
      rw [e1, Nat.pow_zero, Nat.mul_one]
      refine Nat.le_of_lt ?_
      calc den < 2 ^ (b + 1) := b2
        _ = 2 ^ a * 2 ^ (-((a : Int) - b - 1)).toNat := by rw [← Nat.pow_add, ← e2]
        _ ≤ _ := Nat.mul_le_mul_right _ a1

theorem exponent_one {n : Nat} (h : n ≠ 0) : exponent n 1 = n.log2 := by
  unfold exponent
  have e : Nat.log2 1 = 0 := by decide
  dsimp only
  rw [e, if_pos]
  · omega
  · have := (log2_bounds h).1
    have e1 : ((n.log2 : Int) - ((0 : Nat) : Int)).toNat = n.log2 := by omega
    have e2 : (-((n.log2 : Int) - ((0 : Nat) : Int))).toNat = 0 := by omega
    rw [e1, e2]
    omega

/-- The exponent is small when the number is. -/
theorem exponent_le {num den c : Nat} (hn : num ≠ 0) (hd : den ≠ 0) (h : num < den * 2 ^ c) :
    exponent num den < c := by
  have h1 := (exponent_bounds hn hd).1
  by_cases hc : exponent num den < c
  · exact hc
  · have e1 : (-(exponent num den)).toNat = 0 := by omega
    have e2 : c ≤ (exponent num den).toNat := by omega
    rw [e1, Nat.pow_zero, Nat.mul_one] at h1
    have := Nat.mul_le_mul_left den (Nat.pow_le_pow_right (by decide : 0 < 2) e2)
    omega

theorem nearest_cases (n d : Nat) : nearest n d = n / d ∨ (nearest n d = n / d + 1 ∧ d ≤ 2 * (n % d)) := by
  unfold nearest
  split
  · right; refine ⟨rfl, by omega⟩
  · left; rfl

theorem nearest_le (n d : Nat) : n / d ≤ nearest n d ∧ nearest n d ≤ n / d + 1 := by
  rcases nearest_cases n d with h | ⟨h, -⟩ <;> omega

theorem nearest_le_of {n d b : Nat} (hd : 0 < d) (h : n < b * d) : nearest n d ≤ b := by
  have := (nearest_le n d).2
  have := (Nat.div_lt_iff_lt_mul hd).2 h
  omega

/-- The integer part of a rounded quotient is the quotient, if enough bits are kept. -/
theorem floor_nearest {n d s : Nat} (hd : 0 < d) (h : d < 2 ^ s) : nearest (n * 2 ^ s) d / 2 ^ s = n / d := by
  have hp : 0 < 2 ^ s := Nat.two_pow_pos s
  obtain ⟨h1, h2⟩ := nearest_le (n * 2 ^ s) d
  have e : n * 2 ^ s / d / 2 ^ s = n / d := by
    rw [Nat.div_div_eq_div_mul, Nat.mul_div_mul_right _ _ hp]
  have hlow : n / d ≤ nearest (n * 2 ^ s) d / 2 ^ s := by
    rw [← e]; exact Nat.div_le_div_right h1
  have hup : nearest (n * 2 ^ s) d / 2 ^ s < n / d + 1 := by
    rw [Nat.div_lt_iff_lt_mul hp]
    refine Nat.lt_of_le_of_lt h2 ?_
    have hq := Nat.div_mul_le_self (n * 2 ^ s) d
    have hn : n < (n / d + 1) * d := Nat.lt_mul_of_div_lt (Nat.lt_succ_self _) hd
    have hn' : (n + 1) * 2 ^ s ≤ (n / d + 1) * d * 2 ^ s := Nat.mul_le_mul_right _ hn
    rw [Nat.add_mul, Nat.one_mul] at hn'
    refine Nat.lt_of_mul_lt_mul_right (a := d) ?_
    have e1 : (n / d + 1) * 2 ^ s * d = (n / d + 1) * d * 2 ^ s := Nat.mul_right_comm _ _ _
    rw [e1, Nat.add_mul, Nat.one_mul]
    omega
  omega

end Dyadic

namespace Dither
open Dyadic

theorem quotient {temp : Nat} (h : temp < 2 ^ 46) : (Dyadic.round 53 temp modulus).floor = temp / modulus := by
  unfold Dyadic.round
  by_cases h0 : temp = 0
  · subst h0; decide
  · rw [if_neg h0]
    have hm : modulus ≠ 0 := by decide
    have hE := exponent_le (c := 16) h0 hm (by unfold modulus; omega)
    unfold Dyadic.floor
    dsimp only
    generalize exponent temp modulus = E at hE
    have e1 : (E - ((53 : Nat) - 1 : Int)).toNat = 0 := by omega
    obtain ⟨s, hs⟩ : ∃ s, (-(E - ((53 : Nat) - 1 : Int))).toNat = s := ⟨_, rfl⟩
    rw [e1, hs, Nat.pow_zero, Nat.mul_one, Nat.mul_one]
    refine floor_nearest (by decide) ?_
    have : 2 ^ 36 ≤ 2 ^ s := Nat.pow_le_pow_right (by decide) (by omega)
    unfold modulus
    omega

/-- The integers computed are less than `2^53`. -/
theorem exact {s : Nat} (h : s < modulus) :
    16807 * s < 2 ^ 53 ∧ modulus * min ((Dyadic.round 53 (16807 * s) modulus).floor) (2 ^ 31 - 1) ≤ 16807 * s := by
  unfold modulus at h
  refine ⟨by omega, ?_⟩
  rw [quotient (by omega)]
  unfold modulus
  omega

theorem nextSeed_eq {s : Nat} (h : s < modulus) : nextSeed s = 16807 * s % modulus := by
  unfold nextSeed
  unfold modulus at h
  dsimp only
  rw [quotient (by omega)]
  unfold modulus
  omega

theorem seed_eq (k : Nat) : seed k = 16807 ^ k % modulus := by
  induction k with
  | zero => decide
  | succ k ih =>
    rw [seed, nextSeed_eq (by rw [ih]; exact Nat.mod_lt _ (by decide)), ih, Nat.pow_succ, Nat.mul_mod,
      Nat.mod_mod, ← Nat.mul_mod, Nat.mul_comm]

theorem seed_lt (k : Nat) : seed k < modulus := by rw [seed_eq]; exact Nat.mod_lt _ (by decide)

theorem seed_pos (k : Nat) : 0 < seed k := by
  rw [seed_eq]
  have h : Nat.Coprime (16807 ^ k) modulus := Nat.Coprime.pow_left k (by decide)
  refine Nat.pos_of_ne_zero fun h0 => ?_
  have := Nat.dvd_of_mod_eq_zero h0
  have := Nat.Coprime.eq_one_of_dvd h.symm this
  exact absurd this (by decide)

/-- The seeds checked one after the other: `n` seeds after `s` are at most `2^31 - 1 - 116`. -/
def allSmall : Nat → Nat → Bool
  | 0, _ => true
  | n + 1, s => (16807 * s % modulus).ble (modulus - 116) && allSmall n (16807 * s % modulus)

theorem allSmall_spec {n s : Nat} (h : allSmall n s = true) (hs : s < modulus) :
    ∀ k < n, 16807 ^ (k + 1) * s % modulus ≤ modulus - 116 := by
  induction n generalizing s with
  | zero => intro k hk; omega
  | succ n ih =>
    intro k hk
    simp only [allSmall, Bool.and_eq_true] at h
    cases k with
    | zero => simpa using Nat.le_of_ble_eq_true h.1
    | succ k =>
      have := ih h.2 (Nat.mod_lt _ (by decide)) k (by omega)
      rw [Nat.mul_mod, Nat.mod_mod, ← Nat.mul_mod, ← Nat.mul_assoc, ← Nat.pow_succ] at this
      exact this

theorem seed_small {k : Nat} (h : k < nRandom) : seed (k + 1) ≤ modulus - 116 := by
  have := allSmall_spec (n := nRandom) (s := 1) (by decide +kernel) (by decide) k h
  rw [Nat.mul_one] at this
  rw [seed_eq]
  exact this

/-- Rounding to 24 bits does not double the number. -/
theorem round24_le {n : Nat} (h0 : n ≠ 0) :
    (Dyadic.round 24 n 1).m * 2 ^ (Dyadic.round 24 n 1).e.toNat ≤ 2 * n * 2 ^ (-(Dyadic.round 24 n 1).e).toNat := by
  unfold Dyadic.round
  rw [if_neg h0]
  dsimp only
  rw [exponent_one h0]
  have h1 := (log2_bounds h0).1
  generalize n.log2 = l at h1
  by_cases hle : 23 ≤ l
  · have e1 : (-((l : Int) - ((24 : Nat) - 1 : Int))).toNat = 0 := by omega
    have e2 : ((l : Int) - ((24 : Nat) - 1 : Int)).toNat = l - 23 := by omega
    rw [e1, e2, Nat.pow_zero, Nat.mul_one, Nat.one_mul, Nat.mul_one]
    have h2 := (nearest_le n (2 ^ (l - 23))).2
    have h3 : 2 ^ (l - 23) ≤ 2 ^ l := Nat.pow_le_pow_right (by decide) (by omega)
    have h4 := Nat.div_mul_le_self n (2 ^ (l - 23))
    have h5 := Nat.mul_le_mul_right (2 ^ (l - 23)) h2
    rw [Nat.add_mul, Nat.one_mul] at h5
    omega
  · have e1 : (-((l : Int) - ((24 : Nat) - 1 : Int))).toNat = 23 - l := by omega
    have e2 : ((l : Int) - ((24 : Nat) - 1 : Int)).toNat = 0 := by omega
    rw [e1, e2, Nat.pow_zero, Nat.mul_one, Nat.mul_one]
    have : nearest (n * 2 ^ (23 - l)) 1 = n * 2 ^ (23 - l) := by
      unfold nearest
      rw [if_neg (by omega), Nat.div_one]
    rw [this, Nat.mul_assoc, Nat.two_mul]
    omega

theorem round24_of {n : Nat} (h0 : n ≠ 0) (h : n.log2 = 52) : Dyadic.round 24 n 1 = ⟨nearest n (2 ^ 29), 29⟩ := by
  unfold Dyadic.round
  rw [if_neg h0, exponent_one h0, h]
  have e : (((52 : Nat) : Int) - ((24 : Nat) - 1 : Int)) = 29 := by decide
  dsimp only
  rw [e]
  show (⟨nearest (n * 2 ^ 0) (1 * 2 ^ 29), 29⟩ : Dyadic) = _
  rw [Nat.pow_zero, Nat.mul_one, Nat.one_mul]

theorem round53 {s : Nat} (h0 : s ≠ 0) (h : s < modulus) :
    ∃ E : Int, Dyadic.round 53 s modulus = ⟨nearest (s * 2 ^ (-(E - 52)).toNat) modulus, E - 52⟩ ∧ E ≤ -1 ∧
      0 < nearest (s * 2 ^ (-(E - 52)).toNat) modulus ∧
      nearest (s * 2 ^ (-(E - 52)).toNat) modulus ≤ 2 ^ 53 ∧
      2 ^ 52 ≤ nearest (s * 2 ^ (-(E - 52)).toNat) modulus := by
  have hm : modulus ≠ 0 := by decide
  have hE := exponent_le (c := 0) h0 hm (by omega)
  obtain ⟨b1, b2⟩ := exponent_bounds h0 hm
  refine ⟨exponent s modulus, ?_, by omega, ?_⟩
  · unfold Dyadic.round
    rw [if_neg h0]
    dsimp only
    have e1 : (exponent s modulus - ((53 : Nat) - 1 : Int)).toNat = 0 := by omega
    have e2 : (exponent s modulus - ((53 : Nat) - 1 : Int)) = exponent s modulus - 52 := by omega
    rw [e1, e2, Nat.pow_zero, Nat.mul_one]
  · generalize exponent s modulus = E at hE b1 b2
    have e1 : E.toNat = 0 := by omega
    have e2 : (E + 1).toNat = 0 := by omega
    obtain ⟨t, ht⟩ : ∃ t, (-(E + 1)).toNat = t := ⟨_, rfl⟩
    have e3 : (-E).toNat = t + 1 := by omega
    have e4 : (-(E - 52)).toNat = t + 53 := by omega
    rw [e1, e3, Nat.pow_zero, Nat.mul_one] at b1
    rw [e2, ht, Nat.pow_zero, Nat.mul_one] at b2
    rw [e4, Nat.pow_add, ← Nat.mul_assoc]
    rw [Nat.pow_succ, ← Nat.mul_assoc] at b1
    generalize s * 2 ^ t = w at b1 b2
    have hlow : 2 ^ 52 ≤ w * 2 ^ 53 / modulus := by
      rw [Nat.le_div_iff_mul_le (by decide)]
      unfold modulus at *
      omega
    have h1 := (nearest_le (w * 2 ^ 53) modulus).1
    have h2 := nearest_le_of (n := w * 2 ^ 53) (d := modulus) (b := 2 ^ 53) (by decide) (by omega)
    refine ⟨?_, h2, ?_⟩ <;> omega

/-- The random numbers are positive and less than 1. -/
theorem rand_bounds {i : Nat} (h : i < nRandom) : 0 < (rand i).m ∧ (rand i).LtOne := by
  have hs := seed_small h
  have hp := seed_pos (i + 1)
  have hl := seed_lt (i + 1)
  unfold rand
  generalize seed (i + 1) = s at hs hp hl
  obtain ⟨E, h1, h2, h3, h4, h5⟩ := round53 (by omega) hl
  rw [h1]
  obtain ⟨N, hN⟩ : ∃ N, nearest (s * 2 ^ (-(E - 52)).toNat) modulus = N := ⟨_, rfl⟩
  have hup : E = -1 → N ≤ 2 ^ 53 - 116 * 2 ^ 22 + 1 := by
    intro he
    have e : (-(E - 52)).toNat = 53 := by omega
    rw [e] at hN
    have := (nearest_le (s * 2 ^ 53) modulus).2
    have h1 : s * 2 ^ 53 / modulus ≤ (modulus - 116) * 2 ^ 53 / modulus :=
      Nat.div_le_div_right (Nat.mul_le_mul_right _ hs)
    have h2 : (modulus - 116) * 2 ^ 53 / modulus ≤ 2 ^ 53 - 116 * 2 ^ 22 := by decide +kernel
    omega
  rw [hN] at h3 h4 h5 ⊢
  unfold Dyadic.toF32 Dyadic.LtOne
  dsimp only
  rcases Nat.lt_or_ge N (2 ^ 53) with hlt | hge
  · have hlog : N.log2 = 52 := by
      have := (Nat.log2_lt (n := N) (k := 53) (by omega)).2 hlt
      have := (Nat.le_log2 (n := N) (k := 52) (by omega)).2 h5
      omega
    rw [round24_of (by omega) hlog]
    dsimp only
    have e1 : ((29 : Int) + (E - 52)).toNat = 0 := by omega
    obtain ⟨t, ht⟩ : ∃ t, (-((29 : Int) + (E - 52))).toNat = t := ⟨_, rfl⟩
    rw [e1, ht, Nat.pow_zero, Nat.mul_one]
    have hb := nearest_le_of (n := N) (d := 2 ^ 29) (b := 2 ^ 24) (by decide) (by omega)
    have hlow := (nearest_le N (2 ^ 29)).1
    refine ⟨by omega, ?_⟩
    by_cases he : E = -1
    · have := hup he
      have e : t = 24 := by omega
      rw [e]
      rcases nearest_cases N (2 ^ 29) with hc | ⟨hc, hc'⟩ <;> omega
    · have : 2 ^ 25 ≤ 2 ^ t := Nat.pow_le_pow_right (by decide) (by omega)
      omega
  · have e : N = 2 ^ 53 := by omega
    subst e
    have er : Dyadic.round 24 (2 ^ 53) 1 = ⟨2 ^ 23, 30⟩ := by decide +kernel
    rw [er]
    dsimp only
    refine ⟨by omega, ?_⟩
    have he : E ≠ -1 := by
      intro he
      have := hup he
      omega
    have e1 : ((30 : Int) + (E - 52)).toNat = 0 := by omega
    obtain ⟨t, ht⟩ : ∃ t, (-((30 : Int) + (E - 52))).toNat = t := ⟨_, rfl⟩
    rw [e1, ht, Nat.pow_zero, Nat.mul_one]
    exact Nat.pow_lt_pow_right (by decide) (by omega)

/-- The index of the first random number used is in bounds. -/
theorem first_lt {i : Nat} (h : i < nRandom) : first i < nRandom := by
  obtain ⟨h0, h1⟩ := rand_bounds h
  unfold first Dyadic.mulF32
  unfold Dyadic.LtOne at h1
  generalize rand i = x at h0 h1
  have hx : x.e < 0 := by
    by_cases hx : x.e < 0
    · exact hx
    · have e : (-x.e).toNat = 0 := by omega
      rw [e, Nat.pow_zero] at h1
      have := Nat.mul_pos h0 (Nat.two_pow_pos x.e.toNat)
      omega
  obtain ⟨t, ht⟩ : ∃ t, (-x.e).toNat = t := ⟨_, rfl⟩
  have e0 : x.e.toNat = 0 := by omega
  rw [e0, ht, Nat.pow_zero, Nat.mul_one] at h1
  have hy := round24_le (n := x.m * 500) (by omega)
  generalize Dyadic.round 24 (x.m * 500) 1 = y at hy
  unfold Dyadic.floor
  dsimp only
  refine Nat.lt_of_lt_of_le (m := 1000) ?_ (by decide)
  rw [Nat.div_lt_iff_lt_mul (Nat.two_pow_pos _)]
  by_cases h2 : y.e < 0
  · have e1 : y.e.toNat = 0 := by omega
    have e2 : (y.e + x.e).toNat = 0 := by omega
    have e3 : (-(y.e + x.e)).toNat = t + (-y.e).toNat := by omega
    rw [e1, Nat.pow_zero, Nat.mul_one] at hy
    rw [e2, e3, Nat.pow_zero, Nat.mul_one, Nat.pow_add, ← Nat.mul_assoc]
    refine Nat.lt_of_le_of_lt hy (Nat.mul_lt_mul_of_pos_right (by omega) (Nat.two_pow_pos _))
  · have e1 : (-y.e).toNat = 0 := by omega
    rw [e1, Nat.pow_zero, Nat.mul_one] at hy
    by_cases h3 : y.e + x.e < 0
    · have e2 : (y.e + x.e).toNat = 0 := by omega
      have e3 : t = (-(y.e + x.e)).toNat + y.e.toNat := by omega
      rw [e2, Nat.pow_zero, Nat.mul_one]
      refine Nat.lt_of_mul_lt_mul_right (a := 2 ^ y.e.toNat) ?_
      rw [Nat.mul_assoc, ← Nat.pow_add, ← e3]
      omega
    · have e2 : (-(y.e + x.e)).toNat = 0 := by omega
      have e3 : y.e.toNat = (y.e + x.e).toNat + t := by omega
      rw [e2, Nat.pow_zero, Nat.mul_one]
      refine Nat.lt_of_mul_lt_mul_right (a := 2 ^ t) ?_
      rw [Nat.mul_assoc, ← Nat.pow_add, ← e3]
      omega

end Dither
namespace Dyadic
open Spec

theorem scale {x y q : Nat} {E e : Int} (he : e = E - q) :
    x * 2 ^ E.toNat ≤ y * 2 ^ (-E).toNat ↔ 2 ^ q * (x * 2 ^ e.toNat) ≤ y * 2 ^ (-e).toNat := by
  have hs : E.toNat + (-e).toNat = (-E).toNat + (q + e.toNat) := by omega
  have h1 : x * 2 ^ E.toNat ≤ y * 2 ^ (-E).toNat ↔
      x * 2 ^ E.toNat * 2 ^ (-e).toNat ≤ y * 2 ^ (-E).toNat * 2 ^ (-e).toNat :=
    (Nat.mul_le_mul_right_iff (Nat.two_pow_pos _)).symm
  rw [h1, Nat.mul_assoc, ← Nat.pow_add, hs, Nat.pow_add, Nat.pow_add]
  have e1 : x * (2 ^ (-E).toNat * (2 ^ q * 2 ^ e.toNat)) = 2 ^ q * (x * 2 ^ e.toNat) * 2 ^ (-E).toNat := by
    generalize 2 ^ (-E).toNat = a
    generalize 2 ^ e.toNat = b
    generalize 2 ^ q = c
    rw [Nat.mul_comm a, ← Nat.mul_assoc, Nat.mul_left_comm]
  have e2 : y * 2 ^ (-E).toNat * 2 ^ (-e).toNat = y * 2 ^ (-e).toNat * 2 ^ (-E).toNat := Nat.mul_right_comm _ _ _
  rw [e1, e2]
  exact Nat.mul_le_mul_right_iff (Nat.two_pow_pos _)

theorem nearest_spec (n : Nat) {d : Nat} (hd : 0 < d) :
    2 * nearest n d * d ≤ 2 * n + d ∧ 2 * n ≤ (2 * nearest n d + 1) * d ∧
    (2 * nearest n d * d = 2 * n + d → nearest n d % 2 = 0) ∧
    (2 * n = (2 * nearest n d + 1) * d → nearest n d % 2 = 0) := by
  have hn := Nat.div_add_mod n d
  have hm := Nat.mod_lt n hd
  unfold nearest
  generalize n / d = q at *
  generalize n % d = r at *
  rw [Nat.mul_comm] at hn
  have x1 : 2 * q * d = 2 * (q * d) := Nat.mul_assoc _ _ _
  have x2 : (2 * q + 1) * d = 2 * (q * d) + d := by rw [Nat.add_mul, x1, Nat.one_mul]
  have x3 : 2 * (q + 1) * d = 2 * (q * d) + 2 * d := by rw [Nat.mul_assoc, Nat.add_mul]; omega
  have x4 : (2 * (q + 1) + 1) * d = 2 * (q * d) + 3 * d := by rw [Nat.add_mul, x3]; omega
  split
  · rw [x3, x4]; omega
  · rw [x1, x2]; omega

theorem round_rounded {prec num den : Nat} (hp : 0 < prec) (hn : num ≠ 0) (hd : 0 < den) :
    Rounded prec num den (round prec num den).m (round prec num den).e := by
  obtain ⟨h1, h2⟩ := exponent_bounds hn (Nat.ne_of_gt hd)
  unfold round
  rw [if_neg hn]
  dsimp only
  have hd' : 0 < den * 2 ^ (exponent num den - (prec - 1 : Int)).toNat := Nat.mul_pos hd (Nat.two_pow_pos _)
  obtain ⟨g1, g2, g3, g4⟩ := nearest_spec (num * 2 ^ (-(exponent num den - (prec - 1 : Int))).toNat) hd'
  refine ⟨(scale (by omega)).1 h1, ?_, g1, g2, g3, g4⟩
  exact Nat.lt_of_not_le fun h => Nat.not_le.2 h2 ((scale (q := prec) (by omega)).2 h)

end Dyadic

end Fitsrs

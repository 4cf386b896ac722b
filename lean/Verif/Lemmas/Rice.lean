import Verif.Spec.Rice
import Verif.Lemmas.Basic
/-
Helper lemmas: bits, and the reading of the differences of a RICE stream.
-/

namespace Fitsrs
open Spec

/-! ## Bits -/

theorem bitsOf_length (w n : Nat) : (bitsOf w n).length = w := by
  induction w with
  | zero => rfl
  | succ w ih => simp [bitsOf, ih]

theorem bitsOf_add (m n x : Nat) : bitsOf (m + n) x = bitsOf m (x / 2 ^ n) ++ bitsOf n x := by
  induction m with
  | zero => simp [bitsOf]
  | succ m ih =>
    rw [Nat.add_right_comm, bitsOf, ih, bitsOf, Nat.div_div_eq_div_mul, ← Nat.pow_add, Nat.add_comm n m]
    rfl

theorem bitsOf_mod (w n : Nat) : bitsOf w (n % 2 ^ w) = bitsOf w n := by
  suffices h : ∀ v, w ≤ v → bitsOf w (n % 2 ^ v) = bitsOf w n from h w (Nat.le_refl _)
  induction w with
  | zero => intros; rfl
  | succ w ih =>
    intro v hv
    rw [bitsOf, bitsOf, ih v (by omega)]
    have h : n % 2 ^ v / 2 ^ w % 2 = n / 2 ^ w % 2 := by
      have e : v = w + (v - w) := by omega
      rw [e, Nat.pow_add, Nat.mod_mul_right_div_self]
      have e : v - w = (v - w - 1) + 1 := by omega
      rw [e, Nat.pow_add_one, Nat.mod_mul_left_mod]
    rw [h]

theorem bitsOf_zero (w : Nat) : bitsOf w 0 = List.replicate w false := by
  induction w with
  | zero => rfl
  | succ w ih => simp [bitsOf, ih, List.replicate_succ]

theorem bitsOf_inj {w m n : Nat} (hm : m < 2 ^ w) (hn : n < 2 ^ w) (h : bitsOf w m = bitsOf w n) : m = n := by
  induction w generalizing m n with
  | zero => omega
  | succ w ih =>
    rw [bitsOf, bitsOf] at h
    obtain ⟨h0, h1⟩ := List.cons.inj h
    rw [Nat.pow_add_one] at hm hn
    have hp := Nat.two_pow_pos w
    have hm2 : m / 2 ^ w < 2 := Nat.div_lt_of_lt_mul hm
    have hn2 : n / 2 ^ w < 2 := Nat.div_lt_of_lt_mul hn
    have hd : m / 2 ^ w = n / 2 ^ w := by
      have := decide_eq_decide.1 h0
      generalize m / 2 ^ w = x at *
      generalize n / 2 ^ w = y at *
      omega
    have := ih (Nat.mod_lt m hp) (Nat.mod_lt n hp) (by rw [bitsOf_mod, bitsOf_mod, h1])
    rw [← Nat.div_add_mod m (2 ^ w), ← Nat.div_add_mod n (2 ^ w), hd, this]

/-- A number of bits, followed by other bits, determines the number and the other bits. -/
theorem bitsOf_append_inj {w m n : Nat} {a b : List Bool} (hm : m < 2 ^ w) (hn : n < 2 ^ w)
    (h : bitsOf w m ++ a = bitsOf w n ++ b) : m = n ∧ a = b := by
  obtain ⟨h0, h1⟩ := List.append_inj h (by rw [bitsOf_length, bitsOf_length])
  exact ⟨bitsOf_inj hm hn h0, h1⟩

theorem byteBits_cons (x : UInt8) (inp : List UInt8) : byteBits (x :: inp) = bitsOf 8 x.toNat ++ byteBits inp := rfl

theorem byteBits_length (inp : List UInt8) : (byteBits inp).length = 8 * inp.length := by
  induction inp with
  | nil => rfl
  | cons x inp ih => rw [byteBits_cons, List.length_append, bitsOf_length, ih, List.length_cons]; omega

/-- Appending a byte to a bit buffer. -/
theorem bitsOf_byte (nb b : Nat) (x : UInt8) (inp : List UInt8) :
    bitsOf nb b ++ byteBits (x :: inp) = bitsOf (nb + 8) (256 * b + x.toNat) ++ byteBits inp := by
  have hx : x.toNat < 256 := x.toNat_lt
  rw [bitsOf_add, byteBits_cons, List.append_assoc]
  have h1 : (256 * b + x.toNat) / 2 ^ 8 = b := by omega
  have h2 : bitsOf 8 (256 * b + x.toNat) = bitsOf 8 x.toNat := by
    rw [← bitsOf_mod 8 (256 * b + x.toNat)]
    congr 1
    omega
  rw [h1, h2]

theorem zeros_inj {m n : Nat} {a b : List Bool}
    (h : List.replicate m false ++ true :: a = List.replicate n false ++ true :: b) : m = n ∧ a = b := by
  induction m generalizing n with
  | zero =>
    cases n with
    | zero => exact ⟨rfl, by simpa using h⟩
    | succ n => simp [List.replicate_succ] at h
  | succ m ih =>
    cases n with
    | zero => simp [List.replicate_succ] at h
    | succ n =>
      simp only [List.replicate_succ, List.cons_append, List.cons.injEq, true_and] at h
      obtain ⟨h0, h1⟩ := ih h
      exact ⟨by omega, h1⟩

/-- The bits of a number other than zero: zeros, its leading one, and the bits after it. -/
theorem bitsOf_lead {w b c : Nat} (hc : c < w) (h0 : 2 ^ c ≤ b) (h1 : b < 2 ^ (c + 1)) :
    bitsOf w b = List.replicate (w - (c + 1)) false ++ true :: bitsOf c b := by
  have e : w = (w - (c + 1)) + (c + 1) := by omega
  conv => lhs; rw [e, bitsOf_add]
  rw [Nat.div_eq_of_lt h1, bitsOf_zero, bitsOf]
  rw [show b / 2 ^ c = 1 from Nat.div_eq_of_lt_le (by omega) (by rw [Nat.pow_add_one] at h1; omega)]
  simp

/-! ## Arithmetic -/

theorem wrap32_of {x : Int} (h : InI32 x) : wrap32 x = x := by
  unfold InI32 at h; unfold wrap32; omega

theorem wrap32_in (x : Int) : InI32 (wrap32 x) := by
  unfold InI32 wrap32; omega

theorem toSigned_wrap (x : Int) : toSigned 32 (x % 2 ^ 32).toNat = wrap32 x := by
  unfold toSigned wrap32
  split <;> omega

theorem i32op_ok {p : Profile} {x : Int} (h : p = .wrapping ∨ InI32 x) : i32op p x = .ok (wrap32 x) := by
  unfold i32op
  by_cases hx : -(2 ^ 31) ≤ x ∧ x < 2 ^ 31
  · rw [if_pos hx, wrap32_of hx]
  · rw [if_neg hx]
    cases h with
    | inl h => subst h; simp only [toSigned_wrap]
    | inr h => exact absurd h hx

theorem shamt_ok {p : Profile} {w : Nat} {n : Int} (h0 : 0 ≤ n) (h1 : n < w) : shamt p w n = .ok n.toNat := by
  unfold shamt; rw [if_pos ⟨h0, h1⟩]

theorem shamt_nat {p : Profile} {w n : Nat} (h1 : n < w) : shamt p w (n : Int) = .ok n := by
  rw [shamt_ok (by omega) (by omega)]; rfl

namespace Rice

theorem low_eq (n b : Nat) : low n b = b % 2 ^ n := by
  unfold low
  rw [Nat.one_shiftLeft, Nat.and_two_pow_sub_one_eq_mod]

theorem or_eq {a i b : Nat} (h : b < 2 ^ i) : a * 2 ^ i ||| b = a * 2 ^ i + b := by
  rw [← Nat.shiftLeft_eq, Nat.shiftLeft_add_eq_or_of_lt h]

/-! ## The bit buffer -/

/-- The bits not read. -/
def Bits.stream (s : Bits) : List Bool := bitsOf s.nbits.toNat s.b ++ byteBits s.inp

/-- The bit buffer holds at most `m` bits. -/
def Bits.Ok (m : Nat) (s : Bits) : Prop := 0 ≤ s.nbits ∧ s.nbits ≤ m ∧ s.b < 2 ^ s.nbits.toNat

theorem refill_done {inp : List UInt8} {b : Nat} {nbits : Int} (h : ¬ nbits < 0) :
    refill inp b nbits = .ok { b, nbits, inp } := by
  unfold refill; rw [if_neg h]

theorem refill_nil {b : Nat} {nbits : Int} (h : nbits < 0) : refill [] b nbits = .err (.io .unexpectedEof) := by
  unfold refill; rw [if_pos h]

theorem refill_cons {x : UInt8} {inp : List UInt8} {b : Nat} {nbits : Int} (h : nbits < 0) :
    refill (x :: inp) b nbits = refill inp ((b <<< 8) % 2 ^ 32 ||| x.toNat) (nbits + 8) := by
  conv => lhs; unfold refill
  rw [if_pos h]

theorem push_byte {b : Nat} {x : UInt8} (h : b < 2 ^ 24) : (b <<< 8) % 2 ^ 32 ||| x.toNat = 256 * b + x.toNat := by
  have hx : x.toNat < 2 ^ 8 := x.toNat_lt
  rw [Nat.shiftLeft_eq, Nat.mod_eq_of_lt (by omega), or_eq hx]
  omega

/-- Reading `w` bits. -/
theorem refill_take {w v : Nat} {rest : List Bool} (hw : w ≤ 24) (hv : v < 2 ^ w) (inp : List UInt8) :
    ∀ (b nb : Nat), b < 2 ^ nb → bitsOf nb b ++ byteBits inp = bitsOf w v ++ rest →
    ∃ (n b' : Nat) (inp' : List UInt8), refill inp b ((nb : Int) - w) = .ok { b := b', nbits := n, inp := inp' } ∧
      (n ≤ 7 ∨ n ≤ nb - w) ∧ b' >>> n = v ∧ bitsOf n (b' % 2 ^ n) ++ byteBits inp' = rest := by
  induction inp with
  | nil =>
    intro b nb hb h
    have hl := congrArg List.length h
    simp only [List.length_append, bitsOf_length, byteBits, List.flatMap_nil, List.length_nil] at hl
    refine ⟨nb - w, b, [], ?_, Or.inr (Nat.le_refl _), ?_⟩
    · rw [refill_done (by omega)]
      congr 2
      omega
    · have e : nb = w + (nb - w) := by omega
      rw [e, bitsOf_add, List.append_assoc] at h
      obtain ⟨h0, h1⟩ := bitsOf_append_inj
        (Nat.div_lt_of_lt_mul (by rw [← Nat.pow_add, Nat.add_comm, ← e]; exact hb)) hv h
      rw [bitsOf_mod]
      exact ⟨by rw [Nat.shiftRight_eq_div_pow]; exact h0, h1⟩
  | cons x inp ih =>
    intro b nb hb h
    by_cases hn : w ≤ nb
    · refine ⟨nb - w, b, x :: inp, ?_, Or.inr (Nat.le_refl _), ?_⟩
      · rw [refill_done (by omega)]
        congr 2
        omega
      · have e : nb = w + (nb - w) := by omega
        rw [e, bitsOf_add, List.append_assoc] at h
        obtain ⟨h0, h1⟩ := bitsOf_append_inj
          (Nat.div_lt_of_lt_mul (by rw [← Nat.pow_add, Nat.add_comm, ← e]; exact hb)) hv h
        rw [bitsOf_mod]
        exact ⟨by rw [Nat.shiftRight_eq_div_pow]; exact h0, h1⟩
    · have hb24 : b < 2 ^ 24 := Nat.lt_of_lt_of_le hb (Nat.pow_le_pow_right (by decide) (by omega))
      rw [refill_cons (by omega), push_byte hb24]
      rw [bitsOf_byte] at h
      have hx : x.toNat < 256 := x.toNat_lt
      obtain ⟨n, b', inp', h0, h1, h2⟩ := ih (256 * b + x.toNat) (nb + 8) (by rw [Nat.pow_add]; omega) h
      refine ⟨n, b', inp', ?_, Or.inl (by omega), h2⟩
      rw [← h0]
      congr 1
      omega

/-- Reading the parameter of a block. -/
theorem fsValue_ok {p : Profile} {s : Bits} {v : Nat} {rest : List Bool} (hs : s.Ok 8) (hv : v < 2 ^ 5)
    (h : s.stream = bitsOf 5 v ++ rest) :
    ∃ s', fsValue p s = .ok ((v : Int) - 1, s') ∧ s'.Ok 7 ∧ s'.stream = rest := by
  obtain ⟨h0, h1, h2⟩ := hs
  have e : s.nbits = (s.nbits.toNat : Int) := by omega
  obtain ⟨n, b', inp', h3, h4, h5, h6⟩ := refill_take (by decide) hv s.inp s.b s.nbits.toNat h2 h
  refine ⟨{ b := b' % 2 ^ n, nbits := n, inp := inp' }, ?_, ⟨by dsimp only; omega, by dsimp only; omega, ?_⟩, ?_⟩
  · unfold fsValue
    rw [e]
    rw [show ((5 : Int)) = ((5 : Nat) : Int) from rfl, h3]
    simp only [Res.bind_ok]
    rw [shamt_nat (by omega)]
    simp only [Res.bind_ok]
    rw [h5]
    have : toSigned 32 v = v := by unfold toSigned; rw [if_pos (by omega)]
    rw [this, i32op_ok (Or.inr ⟨by omega, by omega⟩), wrap32_of ⟨by omega, by omega⟩, low_eq]
    rfl
  · exact Nat.mod_lt _ (Nat.two_pow_pos _)
  · exact h6

/-! ## High entropy -/

theorem highFill_step {p : Profile} {x : UInt8} {inp : List UInt8} {b diff : Nat} {k : Int} (h0 : 0 ≤ k)
    (h1 : k < 32) :
    highFill p (x :: inp) b diff k = highFill p inp x.toNat (diff ||| (x.toNat <<< k.toNat) % 2 ^ 32) (k - 8) := by
  conv => lhs; unfold highFill
  rw [if_pos h0, shamt_ok h0 h1]

theorem highFill_done {p : Profile} {inp : List UInt8} {b diff : Nat} {k : Int} (h0 : ¬ 0 ≤ k) :
    highFill p inp b diff k = .ok (diff, b, k, inp) := by
  unfold highFill; rw [if_neg h0]

theorem or_byte {D k : Nat} {x : UInt8} (hk : k ≤ 24) (hD : D % 2 ^ (k + 8) = 0) :
    D ||| (x.toNat <<< k) % 2 ^ 32 = D + x.toNat * 2 ^ k := by
  have hx : x.toNat < 2 ^ 8 := x.toNat_lt
  have hlt : x.toNat * 2 ^ k < 2 ^ (k + 8) := by
    rw [Nat.pow_add, Nat.mul_comm]
    exact Nat.mul_lt_mul_of_pos_left hx (Nat.two_pow_pos k)
  have h32 : 2 ^ (k + 8) ≤ 2 ^ 32 := Nat.pow_le_pow_right (by decide) (by omega)
  rw [Nat.shiftLeft_eq, Nat.mod_eq_of_lt (a := x.toNat * 2 ^ k) (by omega)]
  have e : D = D / 2 ^ (k + 8) * 2 ^ (k + 8) := by
    rw [Nat.mul_comm]; have := Nat.div_add_mod D (2 ^ (k + 8)); omega
  rw [e, or_eq hlt]

theorem or_low {D y i : Nat} (hD : D % 2 ^ i = 0) (hy : y < 2 ^ i) : D ||| y = D + y := by
  have e : D = D / 2 ^ i * 2 ^ i := by
    rw [Nat.mul_comm]; have := Nat.div_add_mod D (2 ^ i); omega
  rw [e, or_eq hy]

/-- Reading a difference of the high entropy case: four bytes. -/
theorem highDiff_four {p : Profile} {nb b : Nat} {x0 x1 x2 x3 : UInt8} {inp : List UInt8} (hnb : nb ≤ 7)
    (hb : b < 2 ^ nb) :
    highDiff p { b, nbits := nb, inp := x0 :: x1 :: x2 :: x3 :: inp } =
      .ok ((256 * (256 * (256 * (256 * b + x0.toNat) + x1.toNat) + x2.toNat) + x3.toNat) / 2 ^ nb,
        { b := x3.toNat % 2 ^ nb, nbits := nb, inp }) := by
  have y0 : x0.toNat < 256 := x0.toNat_lt
  have y1 : x1.toNat < 256 := x1.toNat_lt
  have y2 : x2.toNat < 256 := x2.toNat_lt
  have y3 : x3.toNat < 256 := x3.toNat_lt
  unfold highDiff
  dsimp only
  rw [shamt_ok (by omega) (by omega)]
  simp only [Res.bind_ok]
  rw [highFill_step (by omega) (by omega), highFill_step (by omega) (by omega), highFill_step (by omega) (by omega)]
  by_cases h0 : nb = 0
  · subst h0
    have hb0 : b = 0 := by omega
    subst hb0
    rw [highFill_step (by omega) (by omega), highFill_done (by omega)]
    simp only [Res.bind_ok]
    unfold highEnd
    rw [if_neg (by omega)]
    have e : ((0 : Nat) <<< ((32 : Int) - ((0 : Nat) : Int)).toNat) % 2 ^ 64 % 2 ^ 32 = 0 := by decide
    rw [e]
    have k0 : ((32 : Int) - ((0 : Nat) : Int) - 8).toNat = 24 := by decide
    have k1 : ((32 : Int) - ((0 : Nat) : Int) - 8 - 8).toNat = 16 := by decide
    have k2 : ((32 : Int) - ((0 : Nat) : Int) - 8 - 8 - 8).toNat = 8 := by decide
    have k3 : ((32 : Int) - ((0 : Nat) : Int) - 8 - 8 - 8 - 8).toNat = 0 := by decide
    rw [k0, k1, k2, k3, or_byte (x := x0) (by decide) (by omega), or_byte (x := x1) (by decide) (by omega),
      or_byte (x := x2) (by decide) (by omega), or_byte (x := x3) (by decide) (by omega)]
    congr 2
    · omega
    · congr 1
      omega
  · rw [highFill_done (by omega)]
    simp only [Res.bind_ok]
    unfold highEnd
    rw [if_pos (by omega)]
    dsimp only
    rw [shamt_ok (by omega) (by omega), shamt_nat (by omega)]
    simp only [Res.bind_ok]
    have kk : (-((32 : Int) - (nb : Int) - 8 - 8 - 8 - 8)).toNat = nb := by omega
    rw [kk, low_eq]
    congr 2
    have hc : nb = 1 ∨ nb = 2 ∨ nb = 3 ∨ nb = 4 ∨ nb = 5 ∨ nb = 6 ∨ nb = 7 := by omega
    rcases hc with rfl | rfl | rfl | rfl | rfl | rfl | rfl
    all_goals
      simp only [Int.reduceSub, Int.reduceToNat, Int.cast_ofNat_Int]
      rw [Nat.shiftLeft_eq, or_byte (x := x0) (by decide) (by omega), or_byte (x := x1) (by decide) (by omega),
        or_byte (x := x2) (by decide) (by omega), Nat.shiftRight_eq_div_pow]
    · rw [or_low (i := 7) (by omega) (by omega)]; omega
    · rw [or_low (i := 6) (by omega) (by omega)]; omega
    · rw [or_low (i := 5) (by omega) (by omega)]; omega
    · rw [or_low (i := 4) (by omega) (by omega)]; omega
    · rw [or_low (i := 3) (by omega) (by omega)]; omega
    · rw [or_low (i := 2) (by omega) (by omega)]; omega
    · rw [or_low (i := 1) (by omega) (by omega)]; omega

/-- Reading a difference of the high entropy case. -/
theorem highDiff_ok {p : Profile} {s : Bits} {d : Nat} {rest : List Bool} (hs : s.Ok 7) (hd : d < 2 ^ 32)
    (h : s.stream = bitsOf 32 d ++ rest) : ∃ s', highDiff p s = .ok (d, s') ∧ s'.Ok 7 ∧ s'.stream = rest := by
  obtain ⟨b, nbits, inp⟩ := s
  obtain ⟨h0, h1, h2⟩ := hs
  dsimp only at h0 h1 h2
  obtain ⟨nb, rfl⟩ : ∃ nb : Nat, nbits = nb := ⟨nbits.toNat, by omega⟩
  rw [Int.toNat_natCast] at h2
  have hl := congrArg List.length h
  simp only [Bits.stream, List.length_append, bitsOf_length, byteBits_length] at hl
  match inp, h, hl with
  | x0 :: x1 :: x2 :: x3 :: inp, h, _ =>
    rw [highDiff_four (by omega) h2]
    have y0 : x0.toNat < 256 := x0.toNat_lt
    have y1 : x1.toNat < 256 := x1.toNat_lt
    have y2 : x2.toNat < 256 := x2.toNat_lt
    have y3 : x3.toNat < 256 := x3.toNat_lt
    unfold Bits.stream at h
    dsimp only at h
    rw [Int.toNat_natCast, bitsOf_byte, bitsOf_byte, bitsOf_byte, bitsOf_byte] at h
    have hlt : 256 * (256 * (256 * (256 * b + x0.toNat) + x1.toNat) + x2.toNat) + x3.toNat < 2 ^ nb * 2 ^ 32 := by
      omega
    have hm : (256 * (256 * (256 * (256 * b + x0.toNat) + x1.toNat) + x2.toNat) + x3.toNat) % 2 ^ nb =
        x3.toNat % 2 ^ nb := by
      have e : 256 = 2 ^ nb * 2 ^ (8 - nb) := by
        rw [← Nat.pow_add, show nb + (8 - nb) = 8 by omega]
      generalize 256 * (256 * (256 * b + x0.toNat) + x1.toNat) + x2.toNat = z
      rw [e, Nat.mul_assoc, Nat.add_comm, Nat.add_mul_mod_self_left]
    generalize 256 * (256 * (256 * (256 * b + x0.toNat) + x1.toNat) + x2.toNat) + x3.toNat = y at h hlt hm
    rw [show nb + 8 + 8 + 8 + 8 = 32 + nb by omega, bitsOf_add, List.append_assoc] at h
    obtain ⟨h3, h4⟩ := bitsOf_append_inj (Nat.div_lt_of_lt_mul hlt) hd h
    refine ⟨_, by rw [h3], ⟨by dsimp only; omega, h1, ?_⟩, ?_⟩
    · exact Nat.mod_lt _ (Nat.two_pow_pos _)
    · rw [← h4, ← bitsOf_mod nb y, hm]
      rfl
  | [], _, hl | [_], _, hl | [_, _], _, hl | [_, _, _], _, hl =>
    simp only [List.length_cons, List.length_nil] at hl
    omega

/-! ## Split differences -/

theorem skipZeros_done {p : Profile} {inp : List UInt8} {b : Nat} {nbits : Int} (h : b ≠ 0) :
    skipZeros p inp b nbits = .ok { b, nbits, inp } := by
  unfold skipZeros; rw [if_neg h]

theorem skipZeros_cons {p : Profile} {x : UInt8} {inp : List UInt8} {nbits n : Int} (h : i32op p (nbits + 8) = .ok n) :
    skipZeros p (x :: inp) 0 nbits = skipZeros p inp x.toNat n := by
  conv => lhs; unfold skipZeros
  rw [if_pos rfl, h]

theorem log2_spec {b : Nat} (h : b ≠ 0) : 2 ^ b.log2 ≤ b ∧ b < 2 ^ (b.log2 + 1) :=
  ⟨Nat.log2_self_le h, Nat.lt_log2_self⟩

theorem wrap32_add_left (x y : Int) : wrap32 (wrap32 x + y) = wrap32 (x + y) := by
  unfold wrap32; omega

theorem wrap32_sub_left (x y : Int) : wrap32 (wrap32 x - y) = wrap32 (x - y) := by
  unfold wrap32; omega

theorem wrap32_sub_right (x y : Int) : wrap32 (x - wrap32 y) = wrap32 (x - y) := by
  unfold wrap32; omega

/-- Skipping zeros: `z` zeros and a one. -/
theorem skipZeros_ok {p : Profile} {R : List Bool} (inp : List UInt8) :
    ∀ (z b nb acc : Nat), nb ≤ 8 → b < 2 ^ nb → (p = .wrapping ∨ acc + z + 8 < 2 ^ 31) →
    bitsOf nb b ++ byteBits inp = List.replicate z false ++ true :: R →
    ∃ (b' : Nat) (inp' : List UInt8), skipZeros p inp b (wrap32 ((acc + nb : Nat) : Int)) =
        .ok { b := b', nbits := wrap32 ((acc + z + (b'.log2 + 1) : Nat) : Int), inp := inp' } ∧
      b' ≠ 0 ∧ b' < 256 ∧ bitsOf b'.log2 b' ++ byteBits inp' = R := by
  induction inp with
  | nil =>
    intro z b nb acc hnb hb hp h
    by_cases h0 : b = 0
    · subst h0
      rw [bitsOf_zero] at h
      have hm : true ∈ List.replicate nb false ++ byteBits [] := by rw [h]; simp
      simp [byteBits] at hm
    · obtain ⟨h1, h2⟩ := log2_spec h0
      have hc : b.log2 < nb := (Nat.pow_lt_pow_iff_right (by decide)).1 (Nat.lt_of_le_of_lt h1 hb)
      rw [bitsOf_lead hc h1 h2, List.append_assoc, List.cons_append] at h
      obtain ⟨h3, h4⟩ := zeros_inj h
      refine ⟨b, [], ?_, h0, Nat.lt_of_lt_of_le hb (Nat.pow_le_pow_right (n := 2) (by decide) hnb), h4⟩
      have e1 : acc + nb = acc + z + (b.log2 + 1) := by omega
      rw [skipZeros_done h0, e1]
  | cons x inp ih =>
    intro z b nb acc hnb hb hp h
    by_cases h0 : b = 0
    · subst h0
      rw [bitsOf_zero] at h
      have hz : nb ≤ z := by
        refine Nat.le_of_not_lt fun hlt => ?_
        have e : (List.replicate nb false ++ byteBits (x :: inp))[z]? = (List.replicate z false ++ true :: R)[z]? := by
          rw [h]
        rw [List.getElem?_append_left (by rw [List.length_replicate]; exact hlt),
          List.getElem?_append_right (by simp)] at e
        simp [hlt] at e
      have e : List.replicate z false = List.replicate nb false ++ List.replicate (z - nb) false := by
        rw [List.replicate_append_replicate, Nat.add_sub_cancel' hz]
      rw [e, List.append_assoc, List.append_cancel_left_eq] at h
      have hx : x.toNat < 2 ^ 8 := x.toNat_lt
      obtain ⟨b', inp', h1, h2⟩ := ih (z - nb) x.toNat 8 (acc + nb) (Nat.le_refl _) hx
        (hp.imp id fun _ => by omega) h
      refine ⟨b', inp', ?_, h2⟩
      have e1 : acc + nb + (z - nb) + (b'.log2 + 1) = acc + z + (b'.log2 + 1) := by omega
      rw [skipZeros_cons (n := wrap32 ((acc + nb + 8 : Nat) : Int)), h1, e1]
      · have e2 : ((acc + nb : Nat) : Int) + 8 = ((acc + nb + 8 : Nat) : Int) := by omega
        rw [i32op_ok, wrap32_add_left, e2]
        · refine hp.imp id fun h => ?_
          have : wrap32 ((acc + nb : Nat) : Int) = (acc + nb : Nat) := wrap32_of ⟨by omega, by omega⟩
          rw [this]
          exact ⟨by omega, by omega⟩
    · obtain ⟨h1, h2⟩ := log2_spec h0
      have hc : b.log2 < nb := (Nat.pow_lt_pow_iff_right (by decide)).1 (Nat.lt_of_le_of_lt h1 hb)
      rw [bitsOf_lead hc h1 h2, List.append_assoc, List.cons_append] at h
      obtain ⟨h3, h4⟩ := zeros_inj h
      refine ⟨b, x :: inp, ?_, h0, Nat.lt_of_lt_of_le hb (Nat.pow_le_pow_right (n := 2) (by decide) hnb), h4⟩
      have e1 : acc + nb = acc + z + (b.log2 + 1) := by omega
      rw [skipZeros_done h0, e1]

/-- The table of the numbers of bits, and the removal of the leading bit. -/
theorem nonzeroCount_spec : ∀ b, b < 256 → b ≠ 0 →
    nonzeroCount[b]? = some (b.log2 + 1) ∧ b ^^^ (1 <<< b.log2) = b % 2 ^ b.log2 ∧ b.log2 ≤ 7 := by
  decide +kernel

theorem wrap32_mod (z : Nat) : (wrap32 (z : Int) % 2 ^ 32).toNat = z % 2 ^ 32 := by
  unfold wrap32; omega

/-- Reading a difference once the zeros are skipped. -/
theorem riceEnd_eq {p : Profile} {fs z b : Nat} {inp : List UInt8} (hb : b < 256) (hb0 : b ≠ 0)
    (hp : p = .wrapping ∨ z + 8 < 2 ^ 31) (hfs : fs < 32) :
    riceEnd p fs { b := b, nbits := wrap32 ((z + (b.log2 + 1) : Nat) : Int), inp := inp } =
      ((refill inp (b % 2 ^ b.log2) ((b.log2 : Int) - fs)).bind fun s =>
        (shamt p 32 s.nbits).bind fun n =>
          .ok (((z % 2 ^ 32) <<< fs) % 2 ^ 32 ||| s.b >>> n, { s with b := low n s.b })) := by
  obtain ⟨h1, h2, h3⟩ := nonzeroCount_spec b hb hb0
  unfold riceEnd
  simp only [h1]
  have hcond : ∀ {x : Int}, (p ≠ .wrapping → InI32 x) → p = .wrapping ∨ InI32 x := by
    intro x h
    by_cases hpw : p = .wrapping
    · exact Or.inl hpw
    · exact Or.inr (h hpw)
  have hz : p ≠ .wrapping → z + 8 < 2 ^ 31 := fun h => hp.resolve_left h
  have e1 : i32op p (wrap32 ((z + (b.log2 + 1) : Nat) : Int) - ((b.log2 + 1 : Nat) : Int)) = .ok (wrap32 z) := by
    have e : ((z + (b.log2 + 1) : Nat) : Int) - ((b.log2 + 1 : Nat) : Int) = z := by omega
    rw [i32op_ok, wrap32_sub_left, e]
    · refine hcond fun hpw => ?_
      have := hz hpw
      rw [wrap32_of ⟨by omega, by omega⟩]
      exact ⟨by omega, by omega⟩
  rw [e1, Res.bind_ok]
  have e2 : i32op p (wrap32 (z : Int) + 1) = .ok (wrap32 ((z : Int) + 1)) := by
    rw [i32op_ok, wrap32_add_left]
    refine hcond fun hpw => ?_
    have := hz hpw
    rw [wrap32_of ⟨by omega, by omega⟩]
    exact ⟨by omega, by omega⟩
  rw [e2, Res.bind_ok]
  have e3 : i32op p (wrap32 ((z + (b.log2 + 1) : Nat) : Int) - wrap32 ((z : Int) + 1)) = .ok (b.log2 : Int) := by
    rw [i32op_ok, wrap32_sub_left, wrap32_sub_right]
    · have e : ((z + (b.log2 + 1) : Nat) : Int) - ((z : Int) + 1) = (b.log2 : Int) := by omega
      rw [e, wrap32_of ⟨by omega, by omega⟩]
    · refine hcond fun hpw => ?_
      have := hz hpw
      rw [wrap32_of ⟨by omega, by omega⟩, wrap32_of ⟨by omega, by omega⟩]
      exact ⟨by omega, by omega⟩
  rw [e3, Res.bind_ok]
  rw [shamt_nat (by omega), Res.bind_ok, h2]
  rewrite [wrap32_mod z]
  generalize z % 2 ^ 32 = zz
  cases refill inp (b % 2 ^ b.log2) ((b.log2 : Int) - fs) with
  | err e => rfl
  | panic => rfl
  | ok s =>
    rw [Res.bind_ok, shamt_nat hfs]
    rfl

/-- Reading a split difference. -/
theorem riceDiff_ok {p : Profile} {s : Bits} {fs d : Nat} {rest : List Bool} (hs : s.Ok 7) (hfs : fs ≤ 24)
    (hd : d < 2 ^ 32) (hp : p = .wrapping ∨ d + 8 < 2 ^ 31) (h : s.stream = splitBits fs d ++ rest) :
    ∃ s', riceDiff p fs s = .ok (d, s') ∧ s'.Ok 7 ∧ s'.stream = rest := by
  obtain ⟨h0, h1, h2⟩ := hs
  have hz : d / 2 ^ fs ≤ d := Nat.div_le_self _ _
  unfold Bits.stream splitBits at h
  rw [List.append_assoc, List.cons_append] at h
  obtain ⟨b', inp', h3, h4, h5, h6⟩ := skipZeros_ok (p := p) s.inp (d / 2 ^ fs) s.b s.nbits.toNat 0 (by omega) h2
    (hp.imp id fun _ => by omega) h
  have e : wrap32 ((0 + s.nbits.toNat : Nat) : Int) = s.nbits := by
    rw [wrap32_of ⟨by omega, by omega⟩]; omega
  rw [e, Nat.zero_add] at h3
  rw [← bitsOf_mod, ← bitsOf_mod fs] at h6
  obtain ⟨n, b2, inp2, h7, h8, h9, h10⟩ := refill_take hfs (Nat.mod_lt d (Nat.two_pow_pos fs)) inp' _ _
    (Nat.mod_lt b' (Nat.two_pow_pos _)) h6
  obtain ⟨-, -, hlog⟩ := nonzeroCount_spec b' h5 h4
  refine ⟨{ b := b2 % 2 ^ n, nbits := n, inp := inp2 }, ?_, ⟨by dsimp only; omega, by dsimp only; omega, ?_⟩, h10⟩
  · unfold riceDiff
    rw [h3]
    simp only [Res.bind_ok]
    rw [riceEnd_eq h5 h4 (hp.imp id fun _ => by omega) (by omega), h7]
    show ((shamt p 32 (n : Int)).bind fun n => _) = _
    rw [shamt_nat (by omega)]
    show Res.ok (((d / 2 ^ fs % 2 ^ 32) <<< fs) % 2 ^ 32 ||| b2 >>> n, Bits.mk (low n b2) n inp2) = _
    rw [h9, low_eq]
    have hm := Nat.div_add_mod d (2 ^ fs)
    have hlt := Nat.mod_lt d (Nat.two_pow_pos fs)
    rw [Nat.mod_eq_of_lt (Nat.lt_of_le_of_lt hz hd), Nat.shiftLeft_eq, Nat.mul_comm, Nat.mod_eq_of_lt (by omega),
      Nat.mul_comm, or_eq hlt, Nat.mul_comm, hm]
  · exact Nat.mod_lt _ (Nat.two_pow_pos _)

/-! ## Pixels -/

theorem zigzag_lt {d : Int} (h : InI32 d) : zigzag d < 2 ^ 32 := by
  unfold InI32 at h; unfold zigzag; split <;> omega

theorem unmap_even {n : Nat} (h : n % 2 = 0) : unmap n = n / 2 := by
  unfold unmap
  rw [Nat.and_one_is_mod, Nat.shiftRight_eq_div_pow, if_pos h]

theorem unmap_odd {n : Nat} (h : n % 2 ≠ 0) : unmap n = 2 ^ 32 - 1 - n / 2 := by
  unfold unmap
  rw [Nat.and_one_is_mod, Nat.shiftRight_eq_div_pow, if_neg h]

theorem unmap_zigzag {d : Int} (h : InI32 d) : toSigned 32 (unmap (zigzag d)) = d := by
  unfold InI32 at h
  by_cases h0 : 0 ≤ d
  · have e : zigzag d = (2 * d).toNat := by unfold zigzag; rw [if_pos h0]
    rw [e, unmap_even (by omega)]
    unfold toSigned
    rw [if_pos (by omega)]
    omega
  · have e : zigzag d = (-2 * d - 1).toNat := by unfold zigzag; rw [if_neg h0]
    rw [e, unmap_odd (by omega)]
    unfold toSigned
    rw [if_neg (by omega)]
    omega

/-- Consecutive pixels whose difference is safe in the given build. -/
def Safe (p : Profile) (last v : Int) : Prop := p = .wrapping ∨ (v - last).natAbs < 2 ^ 30 - 8

theorem Safe.small {p : Profile} {last v : Int} (h : Safe p last v) :
    p = .wrapping ∨ zigzag (wrap32 (v - last)) + 8 < 2 ^ 31 := by
  refine h.imp id fun h => ?_
  rw [wrap32_of ⟨by omega, by omega⟩]
  unfold zigzag
  split <;> omega

/-- Undoing the difference. -/
theorem curPix_ok {p : Profile} {last v : Int} (hv : InI32 v) (h : Safe p last v) :
    curPix p (zigzag (wrap32 (v - last))) last = .ok v := by
  unfold curPix
  rw [unmap_zigzag (wrap32_in _), i32op_ok, wrap32_add_left, show v - last + last = v by omega, wrap32_of hv]
  refine h.imp id fun h => ?_
  unfold InI32 at hv
  rw [wrap32_of ⟨by omega, by omega⟩, show v - last + last = v by omega]
  exact hv

/-- All the pixels are 32-bit integers and safe one after the other. -/
def Chain (p : Profile) : Int → List Int → Prop
  | _, [] => True
  | last, v :: vs => InI32 v ∧ Safe p last v ∧ Chain p v vs

theorem diffs_zero {last : Int} {vs : List Int} {p : Profile} (hl : InI32 last) (hc : Chain p last vs)
    (h : ∀ d ∈ diffs last vs, d = 0) : vs = List.replicate vs.length last := by
  induction vs generalizing last with
  | nil => rfl
  | cons v vs ih =>
    have h0 := h _ (List.mem_cons_self ..)
    have hv := hc.1
    have e : v = last := by
      unfold InI32 at hl hv
      unfold zigzag wrap32 at h0
      split at h0 <;> omega
    subst e
    rw [List.length_cons, List.replicate_succ, ← ih hl hc.2.2 fun d hd => h d (List.mem_cons_of_mem _ hd)]

/-- The pixels of a block, given that each difference is read. -/
theorem pixels_ok {p : Profile} {diff : Bits → Res (Nat × Bits)} {enc : Nat → List Bool}
    (hdiff : ∀ (s : Bits) (d : Nat) (rest : List Bool), s.Ok 7 → d < 2 ^ 32 → (p = .wrapping ∨ d + 8 < 2 ^ 31) →
      s.stream = enc d ++ rest → ∃ s', diff s = .ok (d, s') ∧ s'.Ok 7 ∧ s'.stream = rest)
    {rest : List Bool} (vs : List Int) :
    ∀ (last : Int) (s : Bits), s.Ok 7 → Chain p last vs → s.stream = (diffs last vs).flatMap enc ++ rest →
    ∃ s', pixels p diff vs.length last s = .ok (vs, vs.getLastD last, s') ∧ s'.Ok 7 ∧ s'.stream = rest := by
  induction vs with
  | nil =>
    intro last s hs _ h
    exact ⟨s, rfl, hs, h⟩
  | cons v vs ih =>
    intro last s hs hc h
    rw [diffs, List.flatMap_cons, List.append_assoc] at h
    obtain ⟨s1, h1, h2, h3⟩ := hdiff s _ _ hs (zigzag_lt (wrap32_in _)) hc.2.1.small h
    obtain ⟨s2, h4, h5, h6⟩ := ih v s1 h2 hc.2.2 h3
    refine ⟨s2, ?_, h5, h6⟩
    rw [List.length_cons, pixels, h1]
    simp only [Res.bind_ok]
    rw [curPix_ok hc.1 hc.2.1]
    simp only [Res.bind_ok]
    rw [h4]
    simp only [Res.bind_ok]
    cases vs <;> rfl

/-! ## Blocks -/

theorem blockState_low {s : Bits} {i imax last : Int} : blockState ((0 : Nat) - 1 : Int) s i imax last =
    .low s i imax last := rfl

theorem blockState_high {s : Bits} {i imax last : Int} : blockState ((26 : Nat) - 1 : Int) s i imax last =
    .high s i imax last := rfl

theorem blockState_rice {s : Bits} {i imax last : Int} {fs : Nat} (h : fs ≤ 24) :
    blockState (((fs + 1 : Nat) : Int) - 1) s i imax last = .rice s fs i imax last := by
  unfold blockState fsMax
  rw [if_neg (by omega), if_neg (by omega), show ((fs + 1 : Nat) : Int) - 1 = fs by omega]

theorem afterBlock_end {old : State} {s : Bits} {i imax last : Int} (h : i = imax) :
    afterBlock old s i imax last = .fs s i last := if_pos h

/-- The two turns of the loop for a block. -/
theorem block_ok {p : Profile} {q : Params} {room : Nat} {s : Bits} {i last im : Int} {c : Coding} {block : List Int}
    {rest : List Bool} (hs : s.Ok 8) (hl : InI32 last) (hc : Chain p last block) (hp : c.Permits (diffs last block))
    (h : s.stream = blockBits c (diffs last block) ++ rest) (hi : i32op p (i + q.nblock) = .ok im)
    (hm : min im q.nx = i + block.length) (hroom : block.length ≤ room) :
    ∃ st s', step p q room (.fs s i last) = .ok ([], st, false) ∧
      step p q room st = .ok (block, .fs s' (i + block.length) (block.getLastD last), true) ∧ s'.Ok 7 ∧
      s'.stream = rest := by
  have hn : min room (i + (block.length : Int) - i).toNat = block.length := by omega
  cases c with
  | low =>
    obtain ⟨s1, h1, h2, h3⟩ := fsValue_ok (p := p) (v := 0) hs (by decide) h
    refine ⟨.low s1 i (i + block.length) last, s1, ?_, ?_, h2, h3⟩
    · unfold step
      dsimp only
      rw [h1]
      simp only [Res.bind_ok]
      rw [hi]
      simp only [Res.bind_ok]
      rw [hm, blockState_low]
    · have e := diffs_zero hl hc hp
      have e2 : block.getLastD last = last := by
        rw [e]
        generalize block.length = n
        cases n with
        | zero => rfl
        | succ n => rw [List.getLastD_eq_getLast?, List.getLast?_replicate]; simp
      unfold step
      dsimp only
      rw [hn, afterBlock_end rfl, e2, ← e]
  | split fs =>
    have hp : fs ≤ 24 := hp
    unfold blockBits at h
    rw [List.append_assoc] at h
    obtain ⟨s1, h1, h2, h3⟩ := fsValue_ok (p := p) (v := fs + 1) hs (by omega) h
    obtain ⟨s2, h4, h5, h6⟩ := pixels_ok (p := p) (diff := riceDiff p fs) (enc := splitBits fs)
      (fun s d rest hs hd hp' h => riceDiff_ok hs hp hd hp' h) block last s1 h2 hc h3
    refine ⟨.rice s1 fs i (i + block.length) last, s2, ?_, ?_, h5, h6⟩
    · unfold step
      dsimp only
      rw [h1]
      simp only [Res.bind_ok]
      rw [hi]
      simp only [Res.bind_ok]
      rw [hm, blockState_rice hp]
    · unfold step
      dsimp only
      rw [hn, h4]
      simp only [Res.bind_ok]
      rw [afterBlock_end rfl]
  | high =>
    unfold blockBits at h
    rw [List.append_assoc] at h
    obtain ⟨s1, h1, h2, h3⟩ := fsValue_ok (p := p) (v := 26) hs (by omega) h
    obtain ⟨s2, h4, h5, h6⟩ := pixels_ok (p := p) (diff := highDiff p) (enc := bitsOf 32)
      (fun s d rest hs hd _ h => highDiff_ok hs hd h) block last s1 h2 hc h3
    refine ⟨.high s1 i (i + block.length) last, s2, ?_, ?_, h5, h6⟩
    · unfold step
      dsimp only
      rw [h1]
      simp only [Res.bind_ok]
      rw [hi]
      simp only [Res.bind_ok]
      rw [hm, blockState_high]
    · unfold step
      dsimp only
      rw [hn, h4]
      simp only [Res.bind_ok]
      rw [afterBlock_end rfl]

/-! ## Reading -/

theorem read_end {p : Profile} {q : Params} {fuel room : Nat} {st st' : State} {out : List Int}
    (h : step p q room st = .ok (out, st', true)) (hr : out.length = room) :
    read p q (fuel + 1) room st = some (.ok (out, st')) := by
  rw [read, h]
  simp [hr]

theorem read_more {p : Profile} {q : Params} {fuel room : Nat} {st st' : State} {out : List Int} {t : Bool}
    (h : step p q room st = .ok (out, st', t)) (hr : t = false ∨ out.length ≠ room) :
    read p q (fuel + 1) room st =
      (read p q fuel (room - out.length) st').map (fun r => r.map fun (rest, st) => (out ++ rest, st)) := by
  rw [read, h]
  dsimp only
  rw [if_neg]
  rintro ⟨h1, h2⟩
  rcases hr with hr | hr
  · rw [hr] at h1; exact absurd h1 (by decide)
  · exact hr h2

theorem read_fs {p : Profile} {q : Params} {fuel room : Nat} {st st' : State}
    (h : step p q room st = .ok ([], st', false)) : read p q (fuel + 1) room st = read p q fuel room st' := by
  rw [read_more h (Or.inl rfl)]
  cases h2 : read p q fuel room st' with
  | none => simp [h2]
  | some r => cases r <;> simp [h2]

theorem chain_append {p : Profile} {last : Int} {a b : List Int} (h : Chain p last (a ++ b)) :
    Chain p last a ∧ Chain p (a.getLastD last) b := by
  induction a generalizing last with
  | nil => exact ⟨trivial, h⟩
  | cons v a ih =>
    obtain ⟨h1, h2⟩ := ih h.2.2
    refine ⟨⟨h.1, h.2.1, h1⟩, ?_⟩
    cases a <;> exact h2

theorem chain_last {p : Profile} {last : Int} {a : List Int} (hl : InI32 last) (h : Chain p last a) :
    InI32 (a.getLastD last) := by
  induction a generalizing last with
  | nil => exact hl
  | cons v a ih =>
    have := ih h.1 h.2.2
    cases a <;> exact this

/-- Reading all the pixels that the bits code. -/
theorem read_blocks {p : Profile} {nblock : Nat} {nx : Int} {pad : List Bool} {last : Int} {vs : List Int}
    {bits : List Bool} (hb : Blocks nblock last vs bits) :
    ∀ (s : Bits) (i fuel : Nat), vs ≠ [] → s.Ok 8 → InI32 last → Chain p last vs → s.stream = bits ++ pad →
    (i : Int) + vs.length = nx → nx + nblock ≤ 2 ^ 31 → 2 * vs.length ≤ fuel →
    ∃ st, read p { nblock := nblock, nx } fuel vs.length (.fs s i last) = some (.ok (vs, st)) := by
  induction hb with
  | nil => intro s i fuel h; exact absurd rfl h
  | @block last block rest bits c h0 h1 h2 h3 ih =>
    intro s i fuel _ hs hl hc h hi hx hf
    obtain ⟨hc1, hc2⟩ := chain_append hc
    rw [List.append_assoc] at h
    rw [List.length_append] at hi hf
    have hpos : 0 < block.length := List.length_pos_iff.2 h0
    have hin : InI32 ((i : Int) + (nblock : Int)) := by
      refine ⟨by omega, ?_⟩
      omega
    have him : i32op p ((i : Int) + (nblock : Int)) = .ok ((i : Int) + nblock) := by
      rw [i32op_ok (Or.inr hin), wrap32_of hin]
    have hm : min ((i : Int) + (nblock : Int)) nx = (i : Int) + block.length := by
      rcases h1 with h1 | ⟨h1, h4⟩
      · omega
      · subst h4
        rw [List.length_nil] at hi
        omega
    obtain ⟨st, s', e1, e2, e3, e4⟩ := block_ok (p := p) (q := { nblock := nblock, nx })
      (room := (block ++ rest).length) hs hl hc1 h2 h him hm (by rw [List.length_append]; omega)
    obtain ⟨fuel, rfl⟩ : ∃ k, fuel = k + 1 + 1 := ⟨fuel - 2, by omega⟩
    rw [read_fs e1]
    by_cases hr : rest = []
    · subst hr
      exact ⟨_, by rw [read_end e2 (by rw [List.append_nil]), List.append_nil]⟩
    · have hrl : 0 < rest.length := List.length_pos_iff.2 hr
      have hlast : block.getLastD last = block.getLast h0 := by
        rw [List.getLastD_eq_getLast?, List.getLast?_eq_some_getLast h0]; rfl
      rw [hlast] at e2 hc2
      obtain ⟨st', ih⟩ := ih s' (i + block.length) fuel hr ⟨e3.1, by have := e3.2.1; omega, e3.2.2⟩
        (hlast ▸ chain_last hl hc1) hc2 e4 (by omega) hx (by omega)
      refine ⟨st', ?_⟩
      rw [read_more e2 (Or.inr (by rw [List.length_append]; omega)), List.length_append, Nat.add_sub_cancel_left]
      rw [show ((i : Int) + (block.length : Int)) = ((i + block.length : Nat) : Int) by omega, ih]
      rfl

/-! ## Arbitrary bits -/

theorem exists_bitsOf (l : List Bool) : ∃ v, v < 2 ^ l.length ∧ bitsOf l.length v = l := by
  induction l with
  | nil => exact ⟨0, by decide, rfl⟩
  | cons x l ih =>
    obtain ⟨v, h1, h2⟩ := ih
    refine ⟨x.toNat * 2 ^ l.length + v, ?_, ?_⟩
    · rw [List.length_cons, Nat.pow_add_one]
      cases x <;> simp only [Bool.toNat_false, Bool.toNat_true] <;> omega
    · have hp := Nat.two_pow_pos l.length
      have e1 : (x.toNat * 2 ^ l.length + v) / 2 ^ l.length = x.toNat := by
        rw [Nat.mul_comm, Nat.mul_add_div hp, Nat.div_eq_of_lt h1, Nat.add_zero]
      have e2 : (x.toNat * 2 ^ l.length + v) % 2 ^ l.length = v := by
        rw [Nat.mul_comm, Nat.mul_add_mod, Nat.mod_eq_of_lt h1]
      rw [List.length_cons, bitsOf, e1, ← bitsOf_mod l.length, e2, h2]
      cases x <;> rfl

theorem exists_take (w : Nat) (l : List Bool) (h : w ≤ l.length) : ∃ v rest, v < 2 ^ w ∧ l = bitsOf w v ++ rest := by
  obtain ⟨v, h1, h2⟩ := exists_bitsOf (l.take w)
  rw [List.length_take, Nat.min_eq_left h] at h1 h2
  exact ⟨v, l.drop w, h1, by rw [h2, List.take_append_drop]⟩

/-- Any bits are the first bits of some bytes. -/
theorem exists_bytes (n : Nat) : ∀ l : List Bool, l.length ≤ 8 * n → ∃ bytes pad, byteBits bytes = l ++ pad := by
  induction n with
  | zero =>
    intro l h
    have : l = [] := List.length_eq_zero_iff.1 (by omega)
    exact ⟨[], [], by rw [this]; rfl⟩
  | succ n ih =>
    intro l h
    obtain ⟨v, rest, h1, h2⟩ := exists_take 8 (l ++ List.replicate 8 false) (by simp)
    have hv : (UInt8.ofNat v).toNat = v := by
      rw [UInt8.toNat_ofNat']; exact Nat.mod_eq_of_lt h1
    by_cases hl : 8 ≤ l.length
    · obtain ⟨bytes, pad, h3⟩ := ih (l.drop 8) (by rw [List.length_drop]; omega)
      refine ⟨UInt8.ofNat v :: bytes, pad, ?_⟩
      rw [byteBits_cons, h3, hv]
      have e := List.append_inj (s₁ := l.take 8) (t₁ := l.drop 8 ++ List.replicate 8 false)
        (s₂ := bitsOf 8 v) (t₂ := rest)
        (by rw [← List.append_assoc, List.take_append_drop]; exact h2) (by rw [bitsOf_length, List.length_take]; omega)
      rw [← e.1, ← List.append_assoc, List.take_append_drop]
    · refine ⟨[UInt8.ofNat v], List.replicate (8 - l.length) false, ?_⟩
      rw [byteBits_cons, hv]
      have e : List.replicate 8 false = List.replicate (8 - l.length) false ++ List.replicate l.length false := by
        rw [List.replicate_append_replicate]; congr 1; omega
      rw [e, ← List.append_assoc] at h2
      have e := List.append_inj h2 (by rw [bitsOf_length, List.length_append, List.length_replicate]; omega)
      rw [e.1]
      exact List.append_nil _

/-! ## No panic in release builds -/

theorem Bits.stream_length {s : Bits} : s.stream.length = s.nbits.toNat + 8 * s.inp.length := by
  rw [Bits.stream, List.length_append, bitsOf_length, byteBits_length]

/-- What the reading of a difference does on arbitrary bytes. -/
def Total (r : Res (Nat × Bits)) : Prop :=
  r = .err (.io .unexpectedEof) ∨ ∃ d s', r = .ok (d, s') ∧ s'.Ok 7

theorem refill_any (inp : List UInt8) : ∀ (b : Nat) (nbits : Int),
    refill inp b nbits = .err (.io .unexpectedEof) ∨
    ∃ b' n inp', refill inp b nbits = .ok { b := b', nbits := n, inp := inp' } ∧ 0 ≤ n ∧ (n ≤ 7 ∨ n = nbits) := by
  induction inp with
  | nil =>
    intro b nbits
    by_cases h : nbits < 0
    · exact Or.inl (refill_nil h)
    · exact Or.inr ⟨b, nbits, [], refill_done h, by omega, Or.inr rfl⟩
  | cons x inp ih =>
    intro b nbits
    by_cases h : nbits < 0
    · rw [refill_cons h]
      rcases ih ((b <<< 8) % 2 ^ 32 ||| x.toNat) (nbits + 8) with h1 | ⟨b', n, inp', h1, h2, h3⟩
      · exact Or.inl h1
      · exact Or.inr ⟨b', n, inp', h1, h2, by omega⟩
    · exact Or.inr ⟨b, nbits, x :: inp, refill_done h, by omega, Or.inr rfl⟩

theorem refill_short {w : Nat} (inp : List UInt8) : ∀ (b nb : Nat), nb + 8 * inp.length < w →
    refill inp b ((nb : Int) - w) = .err (.io .unexpectedEof) := by
  induction inp with
  | nil => intro b nb h; rw [List.length_nil] at h; exact refill_nil (by omega)
  | cons x inp ih =>
    intro b nb h
    rw [List.length_cons] at h
    rw [refill_cons (by omega), show (nb : Int) - w + 8 = ((nb + 8 : Nat) : Int) - w by omega]
    exact ih _ _ (by omega)

/-- The parameter of a block, in arbitrary bytes. -/
theorem fsValue_any {p : Profile} {s : Bits} (hs : s.Ok 8) :
    fsValue p s = .err (.io .unexpectedEof) ∨
    ∃ (v : Nat) (s' : Bits), fsValue p s = .ok ((v : Int) - 1, s') ∧ v < 32 ∧ s'.Ok 7 := by
  by_cases h : 5 ≤ s.stream.length
  · obtain ⟨v, rest, h1, h2⟩ := exists_take 5 _ h
    obtain ⟨s', h3, h4, -⟩ := fsValue_ok (p := p) hs h1 h2
    exact Or.inr ⟨v, s', h3, h1, h4⟩
  · rw [Bits.stream_length] at h
    refine Or.inl ?_
    unfold fsValue
    have e : s.nbits - 5 = (s.nbits.toNat : Int) - ((5 : Nat) : Int) := by have := hs.1; omega
    rw [e, refill_short s.inp s.b _ (by omega)]
    rfl

theorem highFill_short {p : Profile} (inp : List UInt8) : ∀ (b diff : Nat) (k : Int), k < 32 → 8 * inp.length ≤ k →
    highFill p inp b diff k = .err (.io .unexpectedEof) := by
  induction inp with
  | nil =>
    intro b diff k _ h
    rw [List.length_nil] at h
    unfold highFill
    rw [if_pos (by omega)]
  | cons x inp ih =>
    intro b diff k h0 h
    rw [List.length_cons] at h
    rw [highFill_step (by omega) h0]
    exact ih _ _ _ (by omega) (by omega)

/-- A difference of the high entropy case, in arbitrary bytes. -/
theorem highDiff_any {p : Profile} {s : Bits} (hs : s.Ok 7) : Total (highDiff p s) := by
  by_cases h : 32 ≤ s.stream.length
  · obtain ⟨d, rest, h1, h2⟩ := exists_take 32 _ h
    obtain ⟨s', h3, h4, -⟩ := highDiff_ok (p := p) hs h1 h2
    exact Or.inr ⟨d, s', h3, h4⟩
  · refine Or.inl ?_
    rw [Bits.stream_length] at h
    obtain ⟨b, nbits, inp⟩ := s
    obtain ⟨h0, h1, h2⟩ := hs
    dsimp only at h0 h1 h2 h
    obtain ⟨nb, rfl⟩ : ∃ nb : Nat, nbits = nb := ⟨nbits.toNat, by omega⟩
    rw [Int.toNat_natCast] at h h2
    unfold highDiff
    dsimp only
    rw [shamt_ok (by omega) (by omega)]
    simp only [Res.bind_ok]
    by_cases hl : 8 * inp.length ≤ 24 - nb
    · rw [highFill_short _ _ _ _ (by omega) (by omega)]
      rfl
    · match inp, h, hl with
      | [x0, x1, x2], h, hl =>
        have hnb : nb ≠ 0 := by
          intro hnb
          simp [hnb] at hl
        rw [highFill_step (by omega) (by omega), highFill_step (by omega) (by omega),
          highFill_step (by omega) (by omega), highFill_done (by omega)]
        simp only [Res.bind_ok]
        unfold highEnd
        rw [if_pos (by omega)]
      | [], h, hl | [_], h, hl | [_, _], h, hl =>
        simp only [List.length_cons, List.length_nil] at h hl
        omega
      | _ :: _ :: _ :: _ :: _, h, hl =>
        simp only [List.length_cons] at h hl
        omega

theorem skipZeros_short (inp : List UInt8) : ∀ (b nb : Nat) (nbits : Int), b < 2 ^ nb →
    true ∉ bitsOf nb b ++ byteBits inp → skipZeros .wrapping inp b nbits = .err (.io .unexpectedEof) := by
  induction inp with
  | nil =>
    intro b nb nbits hb h
    by_cases h0 : b = 0
    · subst h0
      unfold skipZeros
      rw [if_pos rfl, i32op_ok (Or.inl rfl)]
    · obtain ⟨h1, h2⟩ := log2_spec h0
      have hc : b.log2 < nb := (Nat.pow_lt_pow_iff_right (by decide)).1 (Nat.lt_of_le_of_lt h1 hb)
      rw [bitsOf_lead hc h1 h2] at h
      simp at h
  | cons x inp ih =>
    intro b nb nbits hb h
    by_cases h0 : b = 0
    · subst h0
      rw [skipZeros_cons (i32op_ok (Or.inl rfl))]
      have hx : x.toNat < 2 ^ 8 := x.toNat_lt
      refine ih _ 8 _ hx fun hm => h ?_
      rw [byteBits_cons]
      exact List.mem_append_right _ hm
    · obtain ⟨h1, h2⟩ := log2_spec h0
      have hc : b.log2 < nb := (Nat.pow_lt_pow_iff_right (by decide)).1 (Nat.lt_of_le_of_lt h1 hb)
      rw [bitsOf_lead hc h1 h2] at h
      simp at h

theorem exists_zeros (l : List Bool) (h : true ∈ l) : ∃ z R, l = List.replicate z false ++ true :: R := by
  induction l with
  | nil => cases h
  | cons x l ih =>
    cases x with
    | true => exact ⟨0, l, rfl⟩
    | false =>
      obtain ⟨z, R, h1⟩ := ih (by simpa using h)
      exact ⟨z + 1, R, by rw [h1, List.replicate_succ]; rfl⟩

/-- A split difference, in arbitrary bytes. -/
theorem riceDiff_any {s : Bits} {fs : Nat} (hs : s.Ok 7) (hfs : fs < 32) : Total (riceDiff .wrapping fs s) := by
  obtain ⟨h0, h1, h2⟩ := hs
  unfold riceDiff
  by_cases ht : true ∈ s.stream
  · obtain ⟨z, R, h⟩ := exists_zeros _ ht
    obtain ⟨b', inp', h3, h4, h5, h6⟩ := skipZeros_ok (p := .wrapping) s.inp z s.b s.nbits.toNat 0 (by omega) h2
      (Or.inl rfl) h
    have e : wrap32 ((0 + s.nbits.toNat : Nat) : Int) = s.nbits := by
      rw [wrap32_of ⟨by omega, by omega⟩]; omega
    rw [e, Nat.zero_add] at h3
    rw [h3]
    simp only [Res.bind_ok]
    rw [riceEnd_eq h5 h4 (Or.inl rfl) hfs]
    obtain ⟨-, -, hlog⟩ := nonzeroCount_spec b' h5 h4
    rcases refill_any inp' (b' % 2 ^ b'.log2) ((b'.log2 : Int) - fs) with h7 | ⟨b2, n, inp2, h7, h8, h9⟩
    · rw [h7]
      exact Or.inl rfl
    · rw [h7]
      obtain ⟨m, rfl⟩ : ∃ m : Nat, n = m := ⟨n.toNat, by omega⟩
      refine Or.inr ⟨((z % 2 ^ 32) <<< fs) % 2 ^ 32 ||| b2 >>> m, { b := low m b2, nbits := m, inp := inp2 }, ?_, ?_⟩
      · show ((shamt .wrapping 32 (m : Int)).bind fun n => _) = _
        rw [shamt_nat (by omega)]
        rfl
      · refine ⟨h8, by dsimp only; omega, ?_⟩
        dsimp only
        rw [low_eq]
        exact Nat.mod_lt _ (Nat.two_pow_pos _)
  · rw [skipZeros_short s.inp s.b s.nbits.toNat _ h2 ht]
    exact Or.inl rfl

/-- The pixels of a block, in arbitrary bytes. -/
theorem pixels_any {diff : Bits → Res (Nat × Bits)} (hdiff : ∀ s, s.Ok 7 → Total (diff s)) (n : Nat) :
    ∀ (last : Int) (s : Bits), s.Ok 7 → InI32 last → pixels .wrapping diff n last s = .err (.io .unexpectedEof) ∨
    ∃ out last' s', pixels .wrapping diff n last s = .ok (out, last', s') ∧ out.length = n ∧ s'.Ok 7 ∧
      InI32 last' ∧ ∀ v ∈ out, InI32 v := by
  induction n with
  | zero => intro last s hs hl; exact Or.inr ⟨[], last, s, rfl, rfl, hs, hl, by simp⟩
  | succ n ih =>
    intro last s hs _
    rw [pixels]
    rcases hdiff s hs with h | ⟨d, s1, h, h1⟩
    · rw [h]; exact Or.inl rfl
    · rw [h]
      simp only [Res.bind_ok]
      unfold curPix
      rw [i32op_ok (Or.inl rfl)]
      simp only [Res.bind_ok]
      rcases ih (wrap32 (toSigned 32 (unmap d) + last)) s1 h1 (wrap32_in _) with
        h2 | ⟨out, last', s', h2, h3, h4, h5, h6⟩
      · rw [h2]; exact Or.inl rfl
      · rw [h2]
        simp only [Res.bind_ok]
        refine Or.inr ⟨_, _, _, rfl, by rw [List.length_cons, h3], h4, h5, ?_⟩
        intro v hv
        rcases List.mem_cons.1 hv with rfl | hv
        · exact wrap32_in _
        · exact h6 v hv

theorem toSigned_in (n : Nat) (h : n < 2 ^ 32) : InI32 (toSigned 32 n) := by
  unfold toSigned InI32
  split <;> omega

/-- The first turn of the loop for a block, in arbitrary bytes. -/
theorem step_fs_any {q : Params} {room : Nat} {s : Bits} {i last im : Int} (hs : s.Ok 8)
    (hi : i32op .wrapping (i + q.nblock) = .ok im) :
    step .wrapping q room (.fs s i last) = .err (.io .unexpectedEof) ∨
    ∃ (v : Nat) (s' : Bits), step .wrapping q room (.fs s i last) =
      .ok ([], blockState ((v : Int) - 1) s' i (min im q.nx) last, false) ∧ v < 32 ∧ s'.Ok 7 := by
  unfold step
  dsimp only
  rcases fsValue_any (p := .wrapping) hs with h | ⟨v, s', h, h1, h2⟩
  · rw [h]; exact Or.inl rfl
  · rw [h]
    simp only [Res.bind_ok]
    rw [hi]
    exact Or.inr ⟨v, s', rfl, h1, h2⟩

/-- The second turn of the loop for a block, in arbitrary bytes: the buffer is filled or the block is finished. -/
theorem step_block_any {q : Params} {room v : Nat} {s : Bits} {i imax last : Int} (hs : s.Ok 7) (hv : v < 32)
    (hl : InI32 last) :
    step .wrapping q room (blockState ((v : Int) - 1) s i imax last) = .err (.io .unexpectedEof) ∨
    ∃ (out : List Int) (old : State) (s' : Bits) (last' : Int),
      step .wrapping q room (blockState ((v : Int) - 1) s i imax last) =
        .ok (out, afterBlock old s' (i + out.length) imax last', true) ∧ out.length = min room (imax - i).toNat ∧
      s'.Ok 7 ∧ InI32 last' ∧ ∀ v ∈ out, InI32 v := by
  unfold blockState fsMax
  by_cases h0 : (v : Int) - 1 < 0
  · rw [if_pos h0]
    refine Or.inr ⟨List.replicate (min room (imax - i).toNat) last, .low s i imax last, s, last, ?_, by simp, hs, hl, ?_⟩
    · rw [List.length_replicate]; rfl
    · intro w hw
      rw [(List.mem_replicate.1 hw).2]
      exact hl
  · rw [if_neg h0]
    by_cases h1 : (v : Int) - 1 = 25
    · rw [if_pos h1]
      unfold step
      dsimp only
      rcases pixels_any (fun s hs => highDiff_any hs) (min room (imax - i).toNat) last s hs hl with
        h | ⟨out, last', s', h, h2, h3, h4, h5⟩
      · rw [h]; exact Or.inl rfl
      · rw [h]
        simp only [Res.bind_ok]
        exact Or.inr ⟨out, _, s', last', by rw [h2], h2, h3, h4, h5⟩
    · rw [if_neg h1]
      obtain ⟨fs, hfs⟩ : ∃ fs : Nat, (v : Int) - 1 = fs := ⟨v - 1, by omega⟩
      rw [hfs]
      unfold step
      dsimp only
      rcases pixels_any (fun s hs => riceDiff_any (fs := fs) hs (by omega)) (min room (imax - i).toNat) last s hs
        hl with
        h | ⟨out, last', s', h, h2, h3, h4, h5⟩
      · rw [h]; exact Or.inl rfl
      · rw [h]
        simp only [Res.bind_ok]
        exact Or.inr ⟨out, _, s', last', by rw [h2], h2, h3, h4, h5⟩

theorem read_err {p : Profile} {q : Params} {fuel room : Nat} {st : State} {e : Err}
    (h : step p q room st = .err e) : read p q (fuel + 1) room st = some (.err e) := by
  rw [read, h]

/-- Reading in arbitrary bytes: the output is filled, or there is an error. -/
theorem read_any {nblock : Nat} {nx : Int} (hnb : 0 < nblock) (hx : nx + nblock ≤ 2 ^ 31) (room : Nat) :
    ∀ (s : Bits) (i fuel : Nat) (last : Int), s.Ok 8 → InI32 last → 0 < room → (i : Int) + room = nx → 2 * room ≤ fuel →
    read .wrapping { nblock := nblock, nx } fuel room (.fs s i last) = some (.err (.io .unexpectedEof)) ∨
    ∃ out st, read .wrapping { nblock := nblock, nx } fuel room (.fs s i last) = some (.ok (out, st)) ∧
      out.length = room ∧ ∀ v ∈ out, InI32 v := by
  induction room using Nat.strongRecOn with
  | ind room ih =>
    intro s i fuel last hs hl hr hi hf
    obtain ⟨fuel, rfl⟩ : ∃ k, fuel = k + 1 + 1 := ⟨fuel - 2, by omega⟩
    have hin : InI32 ((i : Int) + (nblock : Int)) := ⟨by omega, by omega⟩
    have him : i32op .wrapping ((i : Int) + (nblock : Int)) = .ok ((i : Int) + nblock) := by
      rw [i32op_ok (Or.inr hin), wrap32_of hin]
    rcases step_fs_any (q := { nblock := nblock, nx }) (room := room) (last := last) hs him with h | ⟨v, s1, h, hv, h1⟩
    · exact Or.inl (read_err h)
    · rw [read_fs h]
      rcases step_block_any (q := { nblock := nblock, nx }) (room := room) (i := i) (imax := min ((i : Int) + nblock) nx)
        h1 hv hl with h2 | ⟨out, old, s2, last', h2, h3, h4, h5, h6⟩
      · exact Or.inl (read_err h2)
      · by_cases hlen : out.length = room
        · exact Or.inr ⟨out, _, read_end h2 hlen, hlen, h6⟩
        · have e : (i : Int) + (out.length : Int) = min ((i : Int) + nblock) nx := by omega
          rw [afterBlock_end e] at h2
          rw [read_more h2 (Or.inr hlen), show (i : Int) + (out.length : Int) = ((i + out.length : Nat) : Int) by omega]
          rcases ih (room - out.length) (by omega) s2 (i + out.length) fuel last'
            ⟨h4.1, by have := h4.2.1; omega, h4.2.2⟩ h5 (by omega) (by omega) (by omega) with h7 | ⟨out2, st, h7, h8, h9⟩
          · rw [h7]; exact Or.inl rfl
          · rw [h7]
            refine Or.inr ⟨out ++ out2, st, rfl, by rw [List.length_append]; omega, ?_⟩
            intro w hw
            rcases List.mem_append.1 hw with hw | hw
            · exact h6 w hw
            · exact h9 w hw

/-! ## Reading in several calls -/

theorem read_mono {p : Profile} {q : Params} (fuel : Nat) : ∀ {room : Nat} {st : State} {r : Res (List Int × State)},
    read p q fuel room st = some r → read p q (fuel + 1) room st = some r := by
  induction fuel with
  | zero => intro room st r h; cases h
  | succ fuel ih =>
    intro room st r h
    rw [read] at h ⊢
    cases hs : step p q room st with
    | err e => simp only [hs] at h ⊢; exact h
    | panic => simp only [hs] at h ⊢; exact h
    | ok x =>
      obtain ⟨out, st', t⟩ := x
      simp only [hs] at h ⊢
      by_cases hc : t = true ∧ out.length = room
      · rw [if_pos hc] at h ⊢; exact h
      · rw [if_neg hc] at h ⊢
        obtain ⟨r', h1, h2⟩ := Option.map_eq_some_iff.1 h
        rw [ih h1, ← h2]
        rfl

theorem step_room {p : Profile} {q : Params} {room room' : Nat} {fs i imax last : Int} {s : Bits}
    (h : min room (imax - i).toNat = min room' (imax - i).toNat) :
    step p q room (blockState fs s i imax last) = step p q room' (blockState fs s i imax last) := by
  unfold blockState
  by_cases h0 : fs < 0
  · rw [if_pos h0]; unfold step; dsimp only; rw [h]
  · rw [if_neg h0]
    by_cases h1 : fs = fsMax
    · rw [if_pos h1]; unfold step; dsimp only; rw [h]
    · rw [if_neg h1]; unfold step; dsimp only; rw [h]

theorem pixels_length {p : Profile} {diff : Bits → Res (Nat × Bits)} (n : Nat) :
    ∀ {last last' : Int} {s s' : Bits} {out : List Int}, pixels p diff n last s = .ok (out, last', s') →
    out.length = n := by
  induction n with
  | zero => intro last last' s s' out h; rw [pixels] at h; cases h; rfl
  | succ n ih =>
    intro last last' s s' out h
    rw [pixels] at h
    obtain ⟨⟨d, s1⟩, -, h⟩ := Res.bind_eq_ok.1 h
    dsimp only at h
    obtain ⟨cur, -, h⟩ := Res.bind_eq_ok.1 h
    obtain ⟨⟨out', l', s2⟩, h1, h⟩ := Res.bind_eq_ok.1 h
    dsimp only at h
    cases h
    rw [List.length_cons, ih h1]

/-- The turn of the loop for the pixels of a block. -/
theorem step_block {p : Profile} {q : Params} {room : Nat} {fs i imax last : Int} {s : Bits} {out : List Int} {st : State}
    {t : Bool} (h : step p q room (blockState fs s i imax last) = .ok (out, st, t)) :
    t = true ∧ out.length = min room (imax - i).toNat ∧
    ∃ old s' last', st = afterBlock old s' (i + out.length) imax last' := by
  unfold blockState at h
  by_cases h0 : fs < 0
  · rw [if_pos h0] at h
    unfold step at h
    dsimp only at h
    cases h
    exact ⟨rfl, List.length_replicate, _, _, _, by rw [List.length_replicate]⟩
  · rw [if_neg h0] at h
    by_cases h1 : fs = fsMax
    · rw [if_pos h1] at h
      unfold step at h
      dsimp only at h
      obtain ⟨⟨out', l', s2⟩, h2, h⟩ := Res.bind_eq_ok.1 h
      dsimp only at h
      cases h
      have := pixels_length _ h2
      exact ⟨rfl, this, _, _, _, by rw [this]⟩
    · rw [if_neg h1] at h
      unfold step at h
      dsimp only at h
      obtain ⟨⟨out', l', s2⟩, h2, h⟩ := Res.bind_eq_ok.1 h
      dsimp only at h
      cases h
      have := pixels_length _ h2
      exact ⟨rfl, this, _, _, _, by rw [this]⟩

/-- The turn of the loop for the parameter of a block. -/
theorem step_fs {p : Profile} {q : Params} {room : Nat} {i last im : Int} {s : Bits} {out : List Int} {st : State}
    {t : Bool} (hi : i32op p (i + q.nblock) = .ok im) (h : step p q room (.fs s i last) = .ok (out, st, t)) :
    out = [] ∧ t = false ∧ ∃ fs s', st = blockState fs s' i (min im q.nx) last ∧
      ∀ room', step p q room' (.fs s i last) = .ok ([], st, false) := by
  have h' := h
  unfold step at h
  dsimp only at h
  obtain ⟨⟨fs, s'⟩, h1, h⟩ := Res.bind_eq_ok.1 h
  dsimp only at h
  rw [hi] at h
  simp only [Res.bind_ok] at h
  cases h
  exact ⟨rfl, rfl, fs, s', rfl, fun _ => h'⟩

/-- A read of whole blocks followed by another one. -/
theorem read_split {p : Profile} {nblock : Nat} {nx : Int} (hnb : 0 < nblock) (hx : nx + nblock ≤ 2 ^ 31) (fuel : Nat) :
    ∀ (k r i : Nat) (s : Bits) (last : Int) (out : List Int) (st : State), 0 < k → k % nblock = 0 → 0 < r →
    (i : Int) + k + r ≤ nx → read p { nblock := nblock, nx } fuel (k + r) (.fs s i last) = some (.ok (out, st)) →
    ∃ out1 s1 last1 out2, read p { nblock := nblock, nx } fuel k (.fs s i last) =
        some (.ok (out1, .fs s1 ((i + k : Nat) : Int) last1)) ∧
      read p { nblock := nblock, nx } fuel r (.fs s1 ((i + k : Nat) : Int) last1) = some (.ok (out2, st)) ∧
      out = out1 ++ out2 := by
  induction fuel using Nat.strongRecOn with
  | ind fuel ih =>
    intro k r i s last out st hk hkn hr hi h
    have hkb : nblock ≤ k := Nat.le_of_dvd hk (Nat.dvd_of_mod_eq_zero hkn)
    have hin : InI32 ((i : Int) + (nblock : Int)) := ⟨by omega, by omega⟩
    have him : i32op p ((i : Int) + (nblock : Int)) = .ok ((i : Int) + nblock) := by
      rw [i32op_ok (Or.inr hin), wrap32_of hin]
    match fuel, ih, h with
    | 0, _, h => cases h
    | fuel + 1, ih, h =>
      cases h0 : step p { nblock := nblock, nx } (k + r) (.fs s i last) with
      | err e => rw [read, h0] at h; cases h
      | panic => rw [read, h0] at h; cases h
      | ok x =>
        obtain ⟨o, st0, t⟩ := x
        obtain ⟨rfl, rfl, fs, s1, hst, h1⟩ := step_fs (q := { nblock := nblock, nx }) (i := (i : Int))
          (im := (i : Int) + nblock) him h0
        rw [read_fs h0] at h
        match fuel, ih, h with
        | 0, _, h => cases h
        | fuel + 1, ih, h =>
          have e : min ((i : Int) + nblock) nx = (i : Int) + nblock := by omega
          rw [e] at hst
          subst hst
          cases h2 : step p { nblock := nblock, nx } (k + r) (blockState fs s1 i ((i : Int) + nblock) last) with
          | err e => rw [read, h2] at h; cases h
          | panic => rw [read, h2] at h; cases h
          | ok x =>
            obtain ⟨o, st1, t⟩ := x
            obtain ⟨rfl, hlen, old, s2, last2, hst⟩ := step_block h2
            have hlen : o.length = nblock := by omega
            rw [afterBlock_end (by rw [hlen])] at hst
            subst hst
            rw [read_more h2 (Or.inr (by omega))] at h
            obtain ⟨r1, h3, h4⟩ := Option.map_eq_some_iff.1 h
            obtain ⟨⟨rest, st'⟩, rfl, h4⟩ := Res.map_eq_ok.1 h4
            cases h4
            have h2' := h2
            rw [step_room (room' := k) (by omega)] at h2'
            rw [hlen] at h2' h3
            by_cases hkk : k = nblock
            · subst hkk
              refine ⟨o, s2, last2, rest, ?_, ?_, rfl⟩
              · rw [read_fs (h1 k), read_end h2' hlen, Int.natCast_add]
              · rw [Nat.add_sub_cancel_left] at h3
                exact read_mono _ (read_mono _ h3)
            · rw [show k + r - nblock = (k - nblock) + r by omega,
                show (i : Int) + (nblock : Int) = ((i + nblock : Nat) : Int) by omega] at h3
              obtain ⟨o1, s3, last3, o2, h5, h6, h7⟩ := ih fuel (by omega) (k - nblock) r (i + nblock) s2 last2 rest _
                (by omega) (by rw [← Nat.mod_eq_sub_mod hkb]; exact hkn) hr (by omega) h3
              rw [show i + nblock + (k - nblock) = i + k by omega] at h5 h6
              refine ⟨o ++ o1, s3, last3, o2, ?_, read_mono _ (read_mono _ h6), by rw [h7, List.append_assoc]⟩
              rw [read_fs (h1 k), read_more h2' (Or.inr (by omega)), hlen,
                show (i : Int) + (nblock : Int) = ((i + nblock : Nat) : Int) by omega, h5]
              rfl

end Rice
end Fitsrs

import Verif.Props.C02_C08
import Verif.Props.C29_C32
/-
C55: files that announce huge data units.
-/

namespace Fitsrs
open Spec

/-- **C55**, the full statement, which the code does not meet: the header of the HDU returned after `h` starts at or
after the end of the header of `h`. -/
def C55_statement : Prop :=
  ∀ (p : Profile) (data : List UInt8) (f1 f2 : Fits) (h h' : HDU),
    (Fits.fromReader ⟨data, 0⟩).next p = (some (.ok h), f1) → f1.next p = (some (.ok h'), f2) →
    h.dataOffset + roundUp2880 (80 * h'.cards.length) ≤ h'.dataOffset

/-- **C55, partial.** If the data units announced end before byte `2^63`, the header of each HDU starts after the data
unit of the HDU before it.  Missing: larger data units. -/
theorem C55_partial {p : Profile} {data : List UInt8} {hs : List HDU} {f : Fits}
    (hist : History p data hs f) (hfit : SizesFit p hs) (hl : data.length < 2 ^ 63)
    (i : Nat) (h h' : HDU) (hi : hs[i]? = some h) (hj : hs[i + 1]? = some h') :
    ∃ n, h.dataSize p = .ok n ∧ h.dataOffset + n + roundUp2880 (80 * h'.cards.length) ≤ h'.dataOffset := by
  obtain ⟨h1, -, -⟩ := C06_alignment hist hfit hl (i + 1) h' hj
  obtain ⟨T, hp⟩ := (hist.inv hfit hl).placed
  obtain ⟨n, hn⟩ := (hp.get i h hi).size
  refine ⟨n, hn, ?_⟩
  rw [h1, headerStart, hi]
  dsimp only
  rw [nextHeader_of hn]
  have := roundUp2880_ge n
  omega

/-! ### Exactly -/

/-- The iterator after an HDU without data whose header ends at byte `x`. -/
def Fits.emptyAt (data : List UInt8) (x : Nat) : Fits :=
  { start := false, posStart := x, numBytes := 0, errored := false, rd := ⟨data, x⟩ }

/-- The iterator goes on as if the next header were to be found at byte `x`: it returns the same, and if this is an HDU
it is in the same state. -/
def GoesOnAt (p : Profile) (f : Fits) (x : Nat) : Prop :=
  (f.next p).1 = ((Fits.emptyAt f.rd.data x).next p).1 ∧
    ∀ h, (f.next p).1 = some (.ok h) → (f.next p).2 = ((Fits.emptyAt f.rd.data x).next p).2

theorem Fits.emptyAt_consume {p : Profile} {data : List UInt8} {x : Nat} (hx : x < 2 ^ 64) :
    (Fits.emptyAt data x).consumeUntilNextHdu p = (.ok (), ⟨data, x⟩) := by
  unfold Fits.consumeUntilNextHdu Fits.skipBytes Fits.emptyAt
  dsimp only
  rw [usub_ok (Nat.le_refl x), Res.bind_ok, usub_ok (by omega), Res.bind_ok, if_pos rfl]
  dsimp only
  unfold Reader.seekRelative asI64
  dsimp only
  rw [if_pos (show 0 - (x - x) < 2 ^ 63 by omega), if_pos (by unfold two64; omega)]
  have : ((x : Int) + ((0 - (x - x) : Nat) : Int)).toNat = x := by omega
  rw [this]

theorem goesOn {p : Profile} {f : Fits} {x : Nat} (hs : f.start = false) (he : f.errored = false) (hx : x < 2 ^ 64)
    (hc : f.consumeUntilNextHdu p = (.ok (), ⟨f.rd.data, x⟩)) : GoesOnAt p f x := by
  have h1 : ∀ g : Fits, g.start = false → g.errored = false → g.consumeUntilNextHdu p = (.ok (), ⟨f.rd.data, x⟩) →
      g.next p = Fits.record p (match (HDU.newXtension p { rd := ⟨f.rd.data, x⟩, nread := 0 }).1 with
        | .err (.io .unexpectedEof) => if (HDU.newXtension p { rd := ⟨f.rd.data, x⟩, nread := 0 }).2.nread = 0 then none
            else some (HDU.newXtension p { rd := ⟨f.rd.data, x⟩, nread := 0 }).1
        | _ => some (HDU.newXtension p { rd := ⟨f.rd.data, x⟩, nread := 0 }).1)
        { g with start := false, rd := (HDU.newXtension p { rd := ⟨f.rd.data, x⟩, nread := 0 }).2.rd } := by
    intro g h1 h2 h3
    unfold Fits.next
    rw [if_neg (by rw [h2]; simp), if_neg (by rw [h1]; simp), h3]
    rfl
  unfold GoesOnAt
  rw [h1 f hs he hc, h1 (Fits.emptyAt f.rd.data x) rfl rfl (Fits.emptyAt_consume hx)]
  generalize (match (HDU.newXtension p { rd := ⟨f.rd.data, x⟩, nread := 0 }).1 with
        | .err (.io .unexpectedEof) => if (HDU.newXtension p { rd := ⟨f.rd.data, x⟩, nread := 0 }).2.nread = 0 then none
            else some (HDU.newXtension p { rd := ⟨f.rd.data, x⟩, nread := 0 }).1
        | _ => some (HDU.newXtension p { rd := ⟨f.rd.data, x⟩, nread := 0 }).1) = w
  generalize (HDU.newXtension p { rd := ⟨f.rd.data, x⟩, nread := 0 }).2.rd = rd
  unfold Fits.record
  rcases w with _ | (h | e | _)
  · exact ⟨rfl, fun h e => (by cases e)⟩
  · dsimp only
    cases h.dataSize p with
    | ok n =>
      refine ⟨rfl, fun _ _ => ?_⟩
      dsimp only [Fits.emptyAt]
      rw [he]
    | err e => exact ⟨rfl, fun h e => (by cases e)⟩
    | panic => exact ⟨rfl, fun h e => (by cases e)⟩
  · exact ⟨rfl, fun h e => (by cases e)⟩
  · exact ⟨rfl, fun h e => (by cases e)⟩

theorem umul_lt {p : Profile} {a b n : Nat} (h : umul p a b = .ok n) : n < 2 ^ 64 := by
  unfold umul at h
  split at h
  · cases h; assumption
  · cases p
    · cases h
    · cases h; exact Nat.mod_lt _ (Nat.two_pow_pos 64)

theorem uadd_lt {p : Profile} {a b n : Nat} (h : uadd p a b = .ok n) : n < 2 ^ 64 := by
  unfold uadd at h
  split at h
  · cases h; assumption
  · cases p
    · cases h
    · cases h; exact Nat.mod_lt _ (Nat.two_pow_pos 64)

/-- Sizes are counted in 64 bits. -/
theorem HDU.dataSize_lt {p : Profile} {h : HDU} {n : Nat} (hn : h.dataSize p = .ok n) : n < 2 ^ 64 := by
  cases h with
  | primary h => obtain ⟨_, -, e⟩ := Res.bind_eq_ok.1 hn; exact umul_lt e
  | image h => obtain ⟨_, -, e⟩ := Res.bind_eq_ok.1 hn; exact umul_lt e
  | binTable h => obtain ⟨_, -, e⟩ := Res.bind_eq_ok.1 hn; exact uadd_lt e
  | asciiTable h => exact umul_lt hn

/-- **C55, exactly.** `h` is an HDU that announces `n` bytes of data, and the reader stands anywhere in this data unit.  If
less than `2^63` bytes are to be skipped, the next header is looked for after the data unit, filled to a multiple of 2880
bytes.  If more are to be skipped, it is looked for `2^64` bytes before that place, i.e. before the data unit, and if
there is no such place the next call returns an error; a build with overflow checks panics instead if the number of bytes
is `2^64` or more. -/
theorem C55_exact {p : Profile} {f0 f : Fits} {h : HDU} {n : Nat} (hret : f0.next p = (some (.ok h), f))
    (hl : f0.rd.data.length < 2 ^ 63) (hn : h.dataSize p = .ok n) (k : Nat) (hk : k ≤ n)
    (ho : h.dataOffset + k ≤ f0.rd.data.length) :
    let g : Fits := { f with rd := ⟨f.rd.data, h.dataOffset + k⟩ }
    if roundUp2880 n - k < 2 ^ 63 then GoesOnAt p g (h.dataOffset + roundUp2880 n)
    else if 2 ^ 64 ≤ roundUp2880 n - k ∧ p = .checked then (g.next p).1 = some .panic
    else if h.dataOffset + roundUp2880 n < 2 ^ 64 then (g.next p).1 = some (.err (.io .invalidInput))
    else GoesOnAt p g (h.dataOffset + roundUp2880 n - 2 ^ 64) := by
  intro g
  obtain ⟨h1, h2, h3, h4, h5, h6⟩ := next_ok_state hret
  rw [hn] at h4
  have h4 : f.numBytes = n := (Res.ok.inj h4).symm
  have hlt := HDU.dataSize_lt hn
  have hge := roundUp2880_ge n
  have hround : roundUp2880 n = if n % 2880 = 0 then n else n + (2880 - n % 2880) := by
    unfold roundUp2880
    split <;> omega
  have hup : roundUp2880 n < n + 2880 := by rw [hround]; split <;> omega
  generalize roundUp2880 n = N at hge hround hup ⊢
  have hskip : g.skipBytes p = if N - k < 2 ^ 64 then .ok (N - k) else
      match p with
      | .checked => .panic
      | .wrapping => .ok (N - k - 2 ^ 64) := by
    unfold Fits.skipBytes
    show (usub p (h.dataOffset + k) f.posStart >>= fun d => usub p f.numBytes d >>= fun m =>
      if f.numBytes % 2880 = 0 then Res.ok m else uadd p m (2880 - f.numBytes % 2880)) = _
    rw [h3, h4, usub_ok (by omega), Res.bind_ok, usub_ok (by omega), Res.bind_ok, Nat.add_sub_cancel_left]
    by_cases h0 : n % 2880 = 0
    · rw [if_pos h0] at hround ⊢
      rw [hround, if_pos (by omega)]
    · rw [if_neg h0] at hround ⊢
      have e : n - k + (2880 - n % 2880) = N - k := by omega
      unfold uadd
      rw [e]
      by_cases hb : N - k < 2 ^ 64
      · rw [if_pos hb, if_pos hb]
      · rw [if_neg hb, if_neg hb]
        cases p with
        | checked => rfl
        | wrapping =>
          show Res.ok ((N - k) % two64) = _
          rw [show (N - k) % two64 = N - k - 2 ^ 64 by unfold two64; omega]
  have hseek : ∀ m : Nat, m < 2 ^ 64 → (g.skipBytes p = .ok m) → g.consumeUntilNextHdu p =
      if m < 2 ^ 63 then (.ok (), ⟨f.rd.data, h.dataOffset + k + m⟩)
      else if h.dataOffset + k + m < 2 ^ 64 then (.err (.io .invalidInput), ⟨f.rd.data, h.dataOffset + k⟩)
      else (.ok (), ⟨f.rd.data, h.dataOffset + k + m - 2 ^ 64⟩) := by
    intro m hm e
    unfold Fits.consumeUntilNextHdu
    rw [e]
    show Reader.seekRelative (asI64 m) ⟨f.rd.data, h.dataOffset + k⟩ = _
    unfold Reader.seekRelative asI64 two64
    dsimp only
    by_cases hb : m < 2 ^ 63
    · rw [if_pos hb, if_pos hb, if_pos (by omega)]
      rw [show (((h.dataOffset + k : Nat) : Int) + (m : Int)).toNat = h.dataOffset + k + m by omega]
    · rw [if_neg hb, if_neg hb]
      by_cases hc : h.dataOffset + k + m < 2 ^ 64
      · rw [if_pos hc, if_neg (by omega)]
      · rw [if_neg hc, if_pos (by omega)]
        rw [show (((h.dataOffset + k : Nat) : Int) + ((m : Int) - ((2 ^ 64 : Nat) : Int))).toNat = h.dataOffset + k + m - 2 ^ 64 by omega]
  have hgs : g.start = false := h6
  have hge2 : g.errored = false := h5
  by_cases c1 : N - k < 2 ^ 63
  · rw [if_pos c1]
    rw [if_pos (show N - k < 2 ^ 64 by omega)] at hskip
    have := hseek _ (by omega) hskip
    rw [if_pos c1] at this
    refine goesOn hgs hge2 (by omega) (this.trans ?_)
    rw [show h.dataOffset + k + (N - k) = h.dataOffset + N by omega]
  rw [if_neg c1]
  by_cases c2 : N - k < 2 ^ 64
  · rw [if_neg (by omega)]
    rw [if_pos c2] at hskip
    have := hseek _ c2 hskip
    rw [if_neg c1, show h.dataOffset + k + (N - k) = h.dataOffset + N by omega] at this
    by_cases c3 : h.dataOffset + N < 2 ^ 64
    · rw [if_pos c3] at this ⊢
      unfold Fits.next
      rw [if_neg (by rw [hge2]; simp), if_neg (by rw [hgs]; simp), this]
      rfl
    · rw [if_neg c3] at this ⊢
      refine goesOn hgs hge2 (by omega) this
  · rw [if_neg c2] at hskip
    cases p with
    | checked =>
      rw [if_pos ⟨by omega, rfl⟩]
      unfold Fits.next Fits.consumeUntilNextHdu
      rw [if_neg (by rw [hge2]; simp), if_neg (by rw [hgs]; simp), hskip]
      rfl
    | wrapping =>
      rw [if_neg (by rintro ⟨-, h⟩; cases h), if_neg (by omega)]
      have := hseek _ (by omega) hskip
      rw [if_pos (by omega)] at this
      refine goesOn hgs hge2 (by omega) (this.trans ?_)
      rw [show h.dataOffset + k + (N - k - 2 ^ 64) = h.dataOffset + N - 2 ^ 64 by omega]

/-- A primary header that announces `2^64 - 2176` bytes, with the header of an extension in its fill. -/
def hugePrimary : List UInt8 :=
  [rec80 "SIMPLE  =                    T", rec80 "BITPIX  =                   64",
   rec80 "NAXIS   =                    1", rec80 "NAXIS1  =  2305843009213693680", rec80 "END"].flatten

def hugeExtension : List UInt8 :=
  [rec80 "XTENSION= 'IMAGE   '", rec80 "BITPIX  =                    8",
   rec80 "NAXIS   =                    0", rec80 "END"].flatten

def hugeFile : List UInt8 := hugePrimary ++ blanks 304 ++ hugeExtension ++ blanks 2560

/-- The state after the primary HDU. -/
def hugeState : Fits :=
  { start := false, posStart := 2880, numBytes := 2 ^ 64 - 2176, errored := false, rd := ⟨hugeFile, 2880⟩ }

/-- The HDU of a result. -/
def hduOf? : Res HDU → Option HDU
  | .ok h => some h
  | _ => none

set_option maxRecDepth 20000 in
/-- **C55 fails**: the data unit announced by the primary header of this file has `2^64 - 2176` bytes; the iterator
goes back 2176 bytes and returns an HDU whose header is inside the fill of the primary header. -/
theorem C55_fails : ¬ C55_statement := by
  intro hst
  have key : ((Fits.fromReader ⟨hugeFile, 0⟩).next .checked).2 =
        hugeState ∧
      (((Fits.fromReader ⟨hugeFile, 0⟩).next .checked).1.bind hduOf?).map HDU.dataOffset = some 2880 := by
    decide +kernel
  have key2 : (((Fits.next .checked hugeState).1.bind hduOf?).map fun h => (h.dataOffset, h.cards.length)) =
      some (3584, 4) := by
    decide +kernel
  cases h1 : (Fits.fromReader ⟨hugeFile, 0⟩).next .checked with
  | mk r f1 =>
    rw [h1] at key
    obtain ⟨k1, k2⟩ := key
    dsimp only at k1 k2
    subst k1
    cases h2 : Fits.next .checked hugeState with
    | mk r' f2 =>
      rw [h2] at key2
      rcases r with _ | (h | e | _) <;> simp [hduOf?] at k2
      rcases r' with _ | (h' | e | _) <;> simp [hduOf?] at key2
      have := hst _ _ _ _ _ _ h1 h2
      rw [k2, key2.1, key2.2] at this
      exact absurd this (by decide)

set_option maxRecDepth 20000 in
/-- In the file of `C55_fails` the header after the primary one is looked for at byte 704. -/
example : ∃ h f, (Fits.fromReader ⟨hugeFile, 0⟩).next .wrapping = (some (.ok h), f) ∧ GoesOnAt .wrapping f 704 := by
  have key : ((Fits.fromReader ⟨hugeFile, 0⟩).next .wrapping).2 = hugeState ∧
      (((Fits.fromReader ⟨hugeFile, 0⟩).next .wrapping).1.bind hduOf?).map (fun h => (h.dataOffset, h.dataSize .wrapping)) =
        some (2880, .ok (2 ^ 64 - 2176)) ∧ (hugeFile.length < 2 ^ 63 ∧ 2880 ≤ hugeFile.length) := by
    decide +kernel
  cases h1 : (Fits.fromReader ⟨hugeFile, 0⟩).next .wrapping with
  | mk r f1 =>
    rw [h1] at key
    obtain ⟨k1, k2, k3, k4⟩ := key
    dsimp only at k1 k2
    subst k1
    rcases r with _ | (h | e | _) <;> simp [hduOf?] at k2
    refine ⟨h, _, rfl, ?_⟩
    have hd : (Fits.fromReader ⟨hugeFile, 0⟩).rd.data = hugeFile := rfl
    rw [← hd] at k3 k4
    generalize Fits.fromReader ⟨hugeFile, 0⟩ = f0 at h1 k3 k4
    have hg : hugeState = { hugeState with rd := ⟨hugeState.rd.data, 2880 + 0⟩ } := rfl
    generalize hugeState = f at h1 hg
    obtain ⟨k2, k5⟩ := k2
    have hN : roundUp2880 18446744073709549440 = 18446744073709549440 := by decide
    generalize hb : 18446744073709549440 = n at k5 hN
    have := C55_exact h1 k3 k5 0 (Nat.zero_le n) (by rw [k2]; exact k4)
    dsimp only at this
    rw [k2, hN, if_neg (by omega), if_neg (by omega), if_neg (by omega), ← hg, ← hb] at this
    exact this

end Fitsrs

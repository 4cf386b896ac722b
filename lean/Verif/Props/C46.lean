import Verif.Lemmas.Dither
import Verif.Lemmas.Basic
import Verif.Spec.Tile
/-
C46 the random numbers of subtractive dithering.
-/

namespace Fitsrs
open Spec

/-- **C46**, the seeds: those prescribed, although they are computed with floating-point numbers. -/
theorem C46_seeds (k : Nat) : Dither.seed k = parkMiller k := by
  induction k with
  | zero => rfl
  | succ k ih =>
    rw [Dither.seed, Dither.nextSeed_eq (Dither.seed_lt k), ih]
    rfl

/-- The value of the last seed, which the standard gives as a check. -/
theorem C46_final : Dither.nRandom = 10000 ∧ Dither.seed Dither.nRandom = 1043618065 := by
  refine ⟨rfl, ?_⟩
  rw [Dither.seed_eq]
  decide +kernel

/-- **C46**, the numbers: each is the quotient of a seed prescribed and the modulus, rounded to 53 bits and then to 24. -/
theorem C46_rounded (i : Nat) : ∃ x : Dyadic, Rounded 53 (parkMiller (i + 1)) (2 ^ 31 - 1) x.m x.e ∧
    Rounded 24 x.m 1 (Dither.rand i).m ((Dither.rand i).e - x.e) := by
  have hp := Dither.seed_pos (i + 1)
  have h1 := Dyadic.round_rounded (prec := 53) (by decide) (Nat.ne_of_gt hp) (show 0 < Dither.modulus by decide)
  refine ⟨Dyadic.round 53 (Dither.seed (i + 1)) Dither.modulus, ?_, ?_⟩
  · rw [C46_seeds] at h1 ⊢
    exact h1
  · have hm : (Dyadic.round 53 (Dither.seed (i + 1)) Dither.modulus).m ≠ 0 := by
      intro h0
      have h2 := h1.below
      have h3 := h1.low
      rw [h0] at h2
      have h4 := h1.high
      generalize Dither.modulus * 2 ^ (Dyadic.round 53 (Dither.seed (i + 1)) Dither.modulus).e.toNat = a at *
      generalize Dither.seed (i + 1) * 2 ^ (-(Dyadic.round 53 (Dither.seed (i + 1)) Dither.modulus).e).toNat = b at *
      omega
    have h2 := Dyadic.round_rounded (prec := 24) (by decide) hm Nat.one_pos
    have e : (Dither.rand i).e - (Dyadic.round 53 (Dither.seed (i + 1)) Dither.modulus).e =
        (Dyadic.round 24 (Dyadic.round 53 (Dither.seed (i + 1)) Dither.modulus).m 1).e := by
      unfold Dither.rand Dyadic.toF32
      dsimp only
      omega
    rw [e]
    exact h2

/-- **C46**, the numbers: all of them are positive and less than 1, even once rounded to 32 bits. -/
theorem C46_values (i : Nat) (h : i < Dither.nRandom) : 0 < (Dither.rand i).m ∧ (Dither.rand i).LtOne :=
  Dither.rand_bounds h

-- The first number is 16807 / (2^31 - 1), about 7.83e-6.
example : Dither.rand 0 = ⟨8605184, -40⟩ := by decide +kernel

-- The second seed is 16807², reduced; the numbers are those divided by the modulus.
example : Dither.seed 1 = 16807 ∧ Dither.seed 2 = 282475249 ∧ Dither.seed 3 = 1622650073 := by decide +kernel

example : 0 < (Dither.rand 9999).m ∧ (Dither.rand 9999).LtOne := C46_values 9999 (by decide)

/-- The state of the dithering is within the bounds of the table. -/
def Quantiz.InBounds : Quantiz → Prop
  | .noDither => True
  | .dither1 i => i < Dither.nRandom
  | .dither2 i => i < Dither.nRandom

theorem startQuantiz_bounds {p : Profile} {row : Nat} {k : FloatKw} {q : Quantiz} (h : k.startQuantiz p row = .ok q) :
    q.InBounds := by
  have hf : ∀ i, FloatKw.firstIndex p k.dither0 row = .ok i → i < Dither.nRandom := by
    intro i hi
    unfold FloatKw.firstIndex at hi
    obtain ⟨a, -, hi⟩ := Res.bind_eq_ok.1 hi
    obtain ⟨b, -, hi⟩ := Res.bind_eq_ok.1 hi
    rw [Res.ok.injEq] at hi
    rw [← hi]
    exact Dither.first_lt (Nat.mod_lt _ (by decide))
  unfold FloatKw.startQuantiz at h
  cases hz : k.zQuantiz with
  | noDither =>
    rw [hz] at h
    dsimp only at h
    rw [Res.ok.injEq] at h
    subst h
    trivial
  | subtractiveDither1 =>
    rw [hz] at h
    dsimp only at h
    cases hi : FloatKw.firstIndex p k.dither0 row with
    | panic => rw [hi] at h; cases h
    | err e => rw [hi] at h; cases h
    | ok i =>
      rw [hi, Res.map_ok, Res.ok.injEq] at h
      subst h
      exact hf i hi
  | subtractiveDither2 =>
    rw [hz] at h
    dsimp only at h
    cases hi : FloatKw.firstIndex p k.dither0 row with
    | panic => rw [hi] at h; cases h
    | err e => rw [hi] at h; cases h
    | ok i =>
      rw [hi, Res.map_ok, Res.ok.injEq] at h
      subst h
      exact hf i hi

/-- **C46**, the lookups, one pixel: from a state within bounds, no lookup panics, and the next state is within
bounds. -/
theorem C46_lookup (k : FloatKw) (v : Int) (h : k.quantiz.InBounds) :
    ∃ x k', k.unquantize v = .ok (x, k') ∧ k'.quantiz.InBounds := by
  unfold FloatKw.unquantize
  have hm : ∀ i, (i + 1) % Dither.nRandom < Dither.nRandom := fun i => Nat.mod_lt _ (by decide)
  by_cases hb : k.blank = some v
  · rw [if_pos hb]
    exact ⟨_, _, rfl, h⟩
  · rw [if_neg hb]
    cases hq : k.quantiz with
    | noDither => exact ⟨_, _, rfl, by rw [hq]; trivial⟩
    | dither1 i =>
      rw [hq] at h
      dsimp only
      rw [if_pos (show i < Dither.nRandom from h)]
      exact ⟨_, _, rfl, hm i⟩
    | dither2 i =>
      rw [hq] at h
      dsimp only
      by_cases hv : v = -2147483647
      · rw [if_pos hv]; exact ⟨_, _, rfl, hm i⟩
      · rw [if_neg hv, if_pos (show i < Dither.nRandom from h)]
        exact ⟨_, _, rfl, hm i⟩

/-- The dithering of an iterator is within the bounds of the table. -/
def TileIt.InBounds (it : TileIt) : Prop := ∀ k, it.kw = some k → k.quantiz.InBounds

theorem startTile_bounds {p : Profile} {row : Nat} {vs : List DataValue} {k k' : FloatKw}
    (h : k.startTile p row vs = .ok k') : k'.quantiz.InBounds := by
  unfold FloatKw.startTile at h
  obtain ⟨q, hq, h⟩ := Res.bind_eq_ok.1 h
  obtain ⟨s, -, h⟩ := Res.bind_eq_ok.1 h
  obtain ⟨z, -, h⟩ := Res.bind_eq_ok.1 h
  have := startQuantiz_bounds hq
  cases hb : k.blankIdx with
  | none =>
    rw [hb] at h
    dsimp only at h
    rw [Res.ok.injEq] at h
    rw [← h]
    exact this
  | some i =>
    rw [hb] at h
    dsimp only at h
    obtain ⟨b, -, h⟩ := Res.bind_eq_ok.1 h
    rw [Res.ok.injEq] at h
    rw [← h]
    exact this

theorem fill_kw {p : Profile} {gz : Gunzip} {fuel : Nat} {off : Int} {it it' : TileIt} {r : Res Bool}
    (h : it.fill p gz fuel off = some (r, it')) : it'.kw = it.kw := by
  unfold TileIt.fill at h
  dsimp only at h
  split at h
  · split at h
    · cases h
    all_goals cases h; rfl
  all_goals cases h; rfl

theorem openTile_bounds {p : Profile} {gz : Gunzip} {fuel : Nat} {vs : List DataValue} {it it' : TileIt}
    {r : Res Bool} (h0 : it.InBounds) (h : it.openTile p gz fuel vs = some (r, it')) : it'.InBounds := by
  unfold TileIt.openTile at h
  split at h
  · dsimp only at h
    split at h
    · rename_i kw hk
      have hkw : ∀ k, kw = some k → k.quantiz.InBounds := by
        unfold TileIt.tileKw at hk
        cases hi : it.kw with
        | none =>
          rw [hi] at hk
          cases hk
          intro k hk
          cases hk
        | some k0 =>
          rw [hi] at hk
          dsimp only at hk
          cases hs : k0.startTile p it.rows.row vs with
          | panic => rw [hs] at hk; cases hk
          | err e => rw [hs] at hk; cases hk
          | ok k1 =>
            rw [hs] at hk
            cases hk
            intro k hk
            cases hk
            exact startTile_bounds hs
      split at h
      · intro k hk
        rw [fill_kw h] at hk
        exact hkw k hk
      · cases h; exact hkw
    · cases h; exact h0
  · cases h; exact h0

theorem load_bounds {p : Profile} {gz : Gunzip} {fuel : Nat} {it it' : TileIt} {r : Res Bool}
    (h0 : it.InBounds) (h : it.load p gz fuel = some (r, it')) : it'.InBounds := by
  unfold TileIt.load at h
  split at h
  · cases h
  · exact openTile_bounds (by exact h0) h
  all_goals cases h; exact h0

theorem pixel_bounds {p : Profile} {it : TileIt} (h0 : it.InBounds) : (it.pixel p).2.InBounds := by
  unfold TileIt.pixel
  split
  · rename_i x kw hx
    have hkw : ∀ k, kw = some k → k.quantiz.InBounds := by
      obtain ⟨i, -, hx⟩ := Res.bind_eq_ok.1 hx
      obtain ⟨v, -, hx⟩ := Res.bind_eq_ok.1 hx
      unfold TileIt.toPixel at hx
      cases hi : it.kw with
      | none => rw [hi] at hx; cases hx; intro k hk; cases hk
      | some k0 =>
        rw [hi] at hx
        obtain ⟨y, k1, h1, h2⟩ := C46_lookup k0 v (h0 k0 hi)
        dsimp only at hx
        rw [h1] at hx
        cases hx
        intro k hk
        cases hk
        exact h2
    split
    · exact hkw
    · exact hkw
  · exact h0

/-- **C46**, the lookups: whatever the file, the keywords and the calls made, an iterator is in a state from which no
lookup is out of bounds (`C46_lookup`). -/
theorem C46_in_bounds {p : Profile} {gz : Gunzip} {fuel : Nat} {t : TableData} {h : Header BinTable}
    {z : TileCompressedImage} {it it' : TileIt} {n : Nat} (h0 : TileIt.new p t h z = .ok it)
    (hn : it.after p gz fuel n = some it') : it'.InBounds := by
  have hi : it.InBounds := by
    unfold TileIt.new at h0
    obtain ⟨a, -, h0⟩ := Res.bind_eq_ok.1 h0
    obtain ⟨b, -, h0⟩ := Res.bind_eq_ok.1 h0
    split at h0
    · cases h0
    · obtain ⟨kw, hk, h0⟩ := Res.bind_eq_ok.1 h0
      rw [Res.ok.injEq] at h0
      rw [← h0]
      intro k hk'
      replace hk' : kw = some k := hk'
      subst hk'
      have hnew : FloatKw.new h z = .ok k := by
        cases hz : z.zBitpix <;> rw [hz] at hk <;> dsimp only at hk <;>
          first
          | cases hk
          | (cases hf : FloatKw.new h z with
            | panic => rw [hf] at hk; cases hk
            | err e => rw [hf] at hk; cases hk
            | ok k1 => rw [hf] at hk; cases hk; rfl)
      unfold FloatKw.new at hnew
      split at hnew
      · cases hnew; trivial
      · cases hnew
  clear h0
  induction n generalizing it with
  | zero => cases hn; exact hi
  | succ n ih =>
    rw [TileIt.after] at hn
    split at hn
    · cases hn
    · rename_i r it1 h1
      refine ih hn ?_
      unfold TileIt.next at h1
      split at h1
      · split at h1
        · cases h1
        · rename_i it2 h2
          have := pixel_bounds (p := p) (load_bounds hi h2)
          rw [Option.some.injEq] at h1
          rw [h1] at this
          exact this
        all_goals
          rename_i it2 h2
          cases h1
          exact load_bounds hi h2
      · have := pixel_bounds (p := p) hi
        rw [Option.some.injEq] at h1
        rw [h1] at this
        exact this

/-! A table of one row, with the columns of a dithered image of floats. -/

def ditherTable : BinTable :=
  { bitpix := .u8, naxis1 := 16, naxis2 := 1, tfields := 3, theap := 16, tforms := [.P .B, .plain .E 1, .plain .E 1]
    ttypes := [some "COMPRESSED_DATA".toList, some "ZSCALE".toList, some "ZZERO".toList], pcount := 0, gcount := 1
    zImage := none }

def ditherImage : TileCompressedImage :=
  { zCmpType := .gzip1, zBitpix := .f32, zNaxisn := [2], zTilen := [2], zQuantiz := some .subtractiveDither1
    zDither0 := some 2, dataCompressedIdx := 0 }

def ditherState : TableData :=
  { rd := ⟨List.replicate 16 0, 0⟩, inHeap := none, cols := [0, 1, 2], offsets := [0, 8, 12], ctx := ditherTable, col := 0
    item := 0, byteOffset := 0, mainSize := 16, startPos := 0, seekFirst := false, row := 0, heap := true }

def ditherIt : TileIt :=
  { ty := .f32, rows := TableRows.new (ditherState.readTheHeap false), buf := List.replicate 8 0, nPixels := 0
    remaining := 0
    kw := some { scaleIdx := 1, zeroIdx := 2, blankIdx := none, dither0 := 2, zQuantiz := .subtractiveDither1
                 scale := .one, zero := .zero, blank := none, quantiz := .noDither }
    zTile := [2], cmp := .gzip1, dataIdx := 0 }

/-- Both pixels of the tile use the random numbers from the index given by `ZDITHER0`. -/
theorem dither_run (p : Profile) : ditherIt.run p (.of fun _ => [0, 0, 1, 2, 0, 0, 0, 3]) 5 3 =
    [some (.ok (some (.dithered 258 377 (.float 0) (.float 0)))), some (.ok (some (.dithered 3 378 (.float 0) (.float 0)))),
     some (.ok none)] := by
  cases p <;> decide +kernel

example (p : Profile) (it : TileIt) (h : ditherIt.after p (.of fun _ => [0, 0, 1, 2, 0, 0, 0, 3]) 5 1 = some it) :
    it.InBounds :=
  C46_in_bounds (p := p) (t := ditherState) (h := ⟨[], [], ditherTable⟩) (z := ditherImage) (by cases p <;> rfl) h

end Fitsrs

import Verif.Lemmas.TilePanic
import Verif.Lemmas.TileSamples
import Verif.Spec.TileSamples
import Verif.Model.Session
/-
C84: what can make the reading of a compressed image panic.
-/

namespace Fitsrs
open Spec TableData

/-! ### Sound headers -/

/-- **C84.** A compressed image whose header is sound can be opened, and its pixels can be asked for any number of times,
without panic, whatever the rows of the table, the heap and the decompressor give, and wherever the file ends. -/
theorem C84_no_panic (p : Profile) (f : Fits) (h : Hdu BinTable) (z : TileCompressedImage)
    (gz : Gunzip) (fuel n : Nat) (hs : TileSound p h.header z) (hf : f.rd.data.length < 2 ^ 60) :
    ∃ it, f.getTiles p h z = .ok it ∧ some .panic ∉ it.run p gz fuel n := by
  obtain ⟨it, h1, h2⟩ := getTiles_safe hs hf
  exact ⟨it, h1, h2.run n⟩

/-! ### Opening -/

theorem columnOffsets_not_err {p : Profile} {l : List TForm} {a : Nat} {e : Err} : columnOffsets p l a ≠ .err e := by
  induction l generalizing a with
  | nil => intro h; cases h
  | cons t ts ih =>
    intro h
    unfold columnOffsets at h
    rcases Res.bind_eq_err.1 h with h | ⟨n, -, h⟩
    · unfold TForm.numBytes at h
      have : t.numBits p ≠ .err e := by
        cases t with
        | plain ty rep => exact umul_not_err
        | P ty => exact fun h => (by cases h)
        | Q ty => exact fun h => (by cases h)
      rcases Res.map_eq_err.1 h with h
      exact this h
    · rcases Res.bind_eq_err.1 h with h | ⟨m, -, h⟩
      · exact absurd h uadd_not_err
      · rcases Res.bind_eq_err.1 h with h | ⟨os, -, h⟩
        · exact ih h
        · cases h

theorem product_wraps {ts : List Nat} {acc : Nat} (h : acc < 2 ^ 64) :
    TileIt.product .wrapping ts acc = .ok ((acc * product ts) % 2 ^ 64) := by
  induction ts generalizing acc with
  | nil =>
    show Res.ok acc = _
    rw [show product [] = 1 from rfl, Nat.mul_one, Nat.mod_eq_of_lt h]
  | cons t ts ih =>
    have hm : umul .wrapping acc t = .ok ((acc * t) % 2 ^ 64) := by
      by_cases hlt : acc * t < two64
      · rw [umul_ok hlt, Nat.mod_eq_of_lt (show acc * t < 2 ^ 64 from hlt)]
      · unfold umul
        rw [if_neg hlt]
    unfold TileIt.product
    rw [hm, Res.bind_ok, ih (Nat.mod_lt _ (Nat.two_pow_pos 64)), show product (t :: ts) = t * product ts from rfl]
    congr 1
    rw [Nat.mod_mul_mod, Nat.mul_assoc]

/-- The compressions and types that the parser accepts. -/
theorem parsed_tiles {p : Profile} {m : ValueMap} {x : BinTable} {z : TileCompressedImage} (hx : BinTable.parse p m = .ok x)
    (hz : x.zImage = some z) : (z.zCmpType ≠ .plio1 ∧ z.zCmpType ≠ .hcompress1) ∧ z.zBitpix ≠ .i64 := by
  obtain ⟨axes, -, h⟩ := parse_zImage hx
  rw [hz] at h
  unfold mkZImage at h
  dsimp only at h
  split at h
  · split at h
    · cases h
    split at h
    · cases h
    split at h
    · cases h
    cases h
    exact ⟨⟨‹_›, ‹_›⟩, ‹_›⟩
  · cases h

/-- **C84.** In a build without overflow checks, opening a compressed image panics exactly when its pixels are floats
without columns named `ZSCALE` and `ZZERO`, or when the bytes of a tile, counted modulo 2^64, are too many for memory. -/
theorem C84_open_iff (f : Fits) (h : Hdu BinTable) (m : ValueMap) (z : TileCompressedImage)
    (hx : BinTable.parse .wrapping m = .ok h.header.xtension) (hi : h.header.xtension.zImage = some z) :
    f.getTiles .wrapping h z = .panic ↔
      2 ^ 63 ≤ (product z.zTilen * 4) % 2 ^ 64 ∨
        IsFloat z.zBitpix ∧ (some "ZSCALE".toList ∉ h.header.xtension.ttypes ∨ some "ZZERO".toList ∉ h.header.xtension.ttypes) := by
  have htable : ∃ t, TableData.new .wrapping f.rd h.header.xtension f.posStart = .ok t := by
    cases ht : TableData.new .wrapping f.rd h.header.xtension f.posStart with
    | ok t => exact ⟨t, rfl⟩
    | panic => exact absurd ht (TableData.new_wraps _ _ _)
    | err e =>
      unfold TableData.new at ht
      rcases Res.bind_eq_err.1 ht with h | ⟨os, -, h⟩
      · exact absurd h columnOffsets_not_err
      · rcases Res.bind_eq_err.1 h with h | ⟨m, -, h⟩
        · exact absurd h umul_not_err
        · cases h
  obtain ⟨t, ht⟩ := htable
  have hm : ∀ n, n < 2 ^ 64 → umul .wrapping (n % 2 ^ 64) 4 = .ok ((n * 4) % 2 ^ 64) := by
    intro n hn
    rw [Nat.mod_eq_of_lt hn]
    by_cases hlt : n * 4 < two64
    · rw [umul_ok hlt, Nat.mod_eq_of_lt (show n * 4 < 2 ^ 64 from hlt)]
    · unfold umul
      rw [if_neg hlt]
  have hkw : FloatKw.new h.header z = .panic ↔
      some "ZSCALE".toList ∉ h.header.xtension.ttypes ∨ some "ZZERO".toList ∉ h.header.xtension.ttypes := by
    rw [← findField_none, ← findField_none]
    unfold FloatKw.new
    cases findFieldByTtype h.header.xtension.ttypes "ZSCALE".toList with
    | none => exact ⟨fun _ => Or.inl rfl, fun _ => rfl⟩
    | some s =>
      cases findFieldByTtype h.header.xtension.ttypes "ZZERO".toList with
      | none => exact ⟨fun _ => Or.inr rfl, fun _ => rfl⟩
      | some o => exact ⟨fun h => (by cases h), fun h => (by rcases h with h | h <;> cases h)⟩
  have hsize : (product z.zTilen % 2 ^ 64 * 4) % 2 ^ 64 = (product z.zTilen * 4) % 2 ^ 64 := by omega
  unfold Fits.getTiles
  rw [ht, Res.bind_ok]
  unfold TileIt.new
  rw [product_wraps (by decide), Res.bind_ok, Nat.one_mul]
  have hmm := hm (product z.zTilen % 2 ^ 64) (Nat.mod_lt _ (Nat.two_pow_pos 64))
  rw [Nat.mod_mod] at hmm
  rw [hmm, Res.bind_ok, hsize]
  by_cases hbig : 2 ^ 63 ≤ (product z.zTilen * 4) % 2 ^ 64
  · rw [if_pos hbig]
    exact ⟨fun _ => Or.inl hbig, fun _ => rfl⟩
  rw [if_neg hbig]
  have fl : ∀ hz : IsFloat z.zBitpix, ((((FloatKw.new h.header z).map some : Res (Option FloatKw)) >>= fun kw =>
      .ok ({ ty := z.zBitpix, rows := TableRows.new (t.readTheHeap false), buf := List.replicate ((product z.zTilen * 4) % 2 ^ 64) 0,
             nPixels := 0, remaining := 0, kw, zTile := z.zTilen, cmp := z.zCmpType, dataIdx := z.dataCompressedIdx } : TileIt)) =
        Res.panic) ↔ (some "ZSCALE".toList ∉ h.header.xtension.ttypes ∨ some "ZZERO".toList ∉ h.header.xtension.ttypes) := by
    intro hz
    rw [← hkw]
    constructor
    · intro e
      rcases Res.bind_eq_panic.1 e with h | ⟨k, -, h⟩
      · exact Res.map_eq_panic.1 h
      · cases h
    · intro e
      rw [e]
      rfl
  cases hz : z.zBitpix with
  | u8 => exact ⟨fun e => (by cases e), fun e => (by rcases e with e | ⟨e | e, -⟩ <;> first | exact absurd e hbig | cases e)⟩
  | i16 => exact ⟨fun e => (by cases e), fun e => (by rcases e with e | ⟨e | e, -⟩ <;> first | exact absurd e hbig | cases e)⟩
  | i32 => exact ⟨fun e => (by cases e), fun e => (by rcases e with e | ⟨e | e, -⟩ <;> first | exact absurd e hbig | cases e)⟩
  | i64 => exact absurd hz (parsed_tiles hx hi).2
  | f32 =>
    have fl := fl (Or.inl hz)
    rw [hz] at fl
    refine fl.trans ⟨fun h => Or.inr ⟨Or.inl rfl, h⟩, fun e => ?_⟩
    rcases e with e | e
    · exact absurd e hbig
    · exact e.2
  | f64 =>
    have fl := fl (Or.inr hz)
    rw [hz] at fl
    refine fl.trans ⟨fun h => Or.inr ⟨Or.inr rfl, h⟩, fun e => ?_⟩
    rcases e with e | e
    · exact absurd e hbig
    · exact e.2

/-! ### Empty tiles -/

/-- No pixel can be made of the buffer, now or later. -/
def Barren (p : Profile) (it : TileIt) : Prop :=
  it.buf = [] ∧ TileIt.product p it.zTile 1 = .ok 0

theorem Barren.pixel {p : Profile} {it : TileIt} (h : Barren p it) {v : TilePixel} {it' : TileIt} :
    it.pixel p ≠ (.ok (some v), it') ∧ ∀ r it', it.pixel p = (r, it') → Barren p it' := by
  have hraw : ∀ i, TileIt.rawValue it.ty it.cmp it.buf i = .panic := by
    intro i
    unfold TileIt.rawValue
    rw [h.1]
    have hb : ∀ l, l ≠ [] → bytesNat [] l 0 = .panic := by
      intro l hl
      cases l with
      | nil => exact absurd rfl hl
      | cons a l => rfl
    have hi : TileIt.indices it.ty it.cmp ([] : List UInt8).length i ≠ [] := by
      unfold TileIt.indices
      split <;> simp
    generalize it.cmp = c at hi ⊢
    cases c <;> first | rfl | (dsimp only; rw [hb _ hi]; rfl)
  have key : it.pixel p = (.panic, it) := by
    unfold TileIt.pixel
    have : (usub p it.nPixels it.remaining >>= fun i => TileIt.rawValue it.ty it.cmp it.buf i >>= TileIt.toPixel it.kw) ≠ .err (.io .invalidInput) ∧
        ∀ v, (usub p it.nPixels it.remaining >>= fun i => TileIt.rawValue it.ty it.cmp it.buf i >>= TileIt.toPixel it.kw) ≠ .ok v := by
      refine ⟨fun e => ?_, fun v e => ?_⟩
      · rcases Res.bind_eq_err.1 e with e | ⟨i, -, e⟩
        · exact absurd e usub_not_err
        · rw [hraw i] at e; cases e
      · obtain ⟨i, -, e⟩ := Res.bind_eq_ok.1 e
        rw [hraw i] at e
        cases e
    generalize (usub p it.nPixels it.remaining >>= fun i => TileIt.rawValue it.ty it.cmp it.buf i >>= TileIt.toPixel it.kw) = w at this
    cases w with
    | ok v => exact absurd rfl (this.2 v)
    | err e => rfl
    | panic => rfl
  rw [key]
  refine ⟨fun e => (by cases e), fun r it' e => ?_⟩
  cases e
  exact h

theorem Barren.openTile {p : Profile} {gz : Gunzip} {fuel : Nat} {vs : List DataValue} {it it' : TileIt}
    {r : Res Bool} (h : Barren p it) (e : it.openTile p gz fuel vs = some (r, it')) : Barren p it' := by
  have same : ∀ u : TileIt, u.buf = it.buf → u.zTile = it.zTile → Barren p u := by
    intro u h2 h3
    unfold Barren
    rw [h2, h3]
    exact h
  unfold TileIt.openTile at e
  split at e
  case h_2 => cases e; exact h
  rename_i offset n ho hn
  dsimp only at e
  split at e
  case h_2 => cases e; exact same _ rfl rfl
  split at e
  case h_2 => cases e; exact same _ rfl rfl
  unfold TileIt.fill at e
  dsimp only at e
  split at e
  case h_2 => cases e; exact same _ rfl rfl
  case h_3 => cases e; exact same _ rfl rfl
  split at e
  case h_1 => cases e
  case h_3 =>
    cases e
    refine ⟨?_, h.2⟩
    dsimp only
    rw [h.1]
    exact List.eq_nil_of_length_eq_zero (overwrite_length _ _)
  case h_4 => cases e; exact same _ rfl rfl
  rename_i buf hd
  cases e
  obtain ⟨h1, h2⟩ := h
  refine ⟨?_, h2⟩
  show buf = []
  rw [h2] at hn
  cases hn
  rw [h1] at hd
  unfold TileIt.decompress at hd
  split at hd
  · rw [if_pos (show ([] : List UInt8).length ≤ _ from Nat.zero_le _)] at hd
    cases hd
    rfl
  · rw [if_pos (show ([] : List UInt8).length ≤ _ from Nat.zero_le _)] at hd
    cases hd
    rfl
  · unfold Rice.tile at hd
    rw [if_pos rfl] at hd
    cases hd
    rfl
  · cases hd
  · cases hd

theorem Barren.next {p : Profile} {gz : Gunzip} {fuel : Nat} {it it' : TileIt}
    {r : Res (Option TilePixel)} (h : Barren p it) (e : it.next p gz fuel = some (r, it')) :
    Barren p it' ∧ ∀ v, r ≠ .ok (some v) := by
  have pix : ∀ {u : TileIt}, Barren p u → u.pixel p = (r, it') → Barren p it' ∧ ∀ v, r ≠ .ok (some v) := by
    intro u hu e
    refine ⟨(hu.pixel (v := .nan) (it' := it')).2 r it' e, fun v hv => ?_⟩
    subst hv
    exact (hu.pixel (v := v) (it' := it')).1 e
  unfold TileIt.next at e
  by_cases h0 : it.remaining = 0
  · rw [if_pos h0] at e
    have ld : ∀ q u, it.load p gz fuel = some (q, u) → Barren p u := by
      intro q u hl
      unfold TileIt.load at hl
      split at hl
      · cases hl
      · rename_i vs rows _
        exact Barren.openTile (it := { it with rows }) h hl
      · cases hl; exact h
      · cases hl; exact h
      · cases hl; exact h
    cases hl : it.load p gz fuel with
    | none => rw [hl] at e; cases e
    | some w =>
      rcases w with ⟨q, u⟩
      have hu := ld q u hl
      rw [hl] at e
      cases q with
      | panic => cases e; exact ⟨hu, fun v hv => (by cases hv)⟩
      | err y => cases e; exact ⟨hu, fun v hv => (by cases hv)⟩
      | ok b =>
        cases b with
        | false => cases e; exact ⟨hu, fun v hv => (by cases hv)⟩
        | true =>
          injection e with e
          exact pix hu e
  · rw [if_neg h0] at e
    injection e with e
    exact pix h e

theorem product_zero {p : Profile} {ts : List Nat} {acc k : Nat} (h : 0 ∈ ts) (e : TileIt.product p ts acc = .ok k) :
    k = 0 := by
  have zero : ∀ {ts : List Nat} {k : Nat}, TileIt.product p ts 0 = .ok k → k = 0 := by
    intro ts
    induction ts with
    | nil => intro k e; cases e; rfl
    | cons t ts ih =>
      intro k e
      unfold TileIt.product at e
      rw [umul_ok (by rw [Nat.zero_mul]; decide), Res.bind_ok, Nat.zero_mul] at e
      exact ih e
  induction ts generalizing acc with
  | nil => cases h
  | cons t ts ih =>
    unfold TileIt.product at e
    rcases List.mem_cons.1 h with rfl | h
    · rw [umul_ok (by rw [Nat.mul_zero]; decide), Res.bind_ok, Nat.mul_zero] at e
      exact zero e
    · obtain ⟨a, -, e⟩ := Res.bind_eq_ok.1 e
      exact ih h e

/-- **C84.** An image one of whose tile sizes is 0 gives no pixel, although it is accepted and opened. -/
theorem C84_no_pixel (p : Profile) (f : Fits) (h : Hdu BinTable) (z : TileCompressedImage) (it : TileIt)
    (gz : Gunzip) (fuel n : Nat) (v : TilePixel) (ho : f.getTiles p h z = .ok it)
    (hz : 0 ∈ z.zTilen) :
    some (.ok (some v)) ∉ it.run p gz fuel n := by
  have hb : Barren p it := by
    unfold Fits.getTiles at ho
    obtain ⟨t, -, ho⟩ := Res.bind_eq_ok.1 ho
    unfold TileIt.new at ho
    obtain ⟨k, hk, ho⟩ := Res.bind_eq_ok.1 ho
    obtain ⟨s, hs, ho⟩ := Res.bind_eq_ok.1 ho
    split at ho
    · cases ho
    obtain ⟨kw, -, ho⟩ := Res.bind_eq_ok.1 ho
    cases ho
    have hz := product_zero hz hk
    subst hz
    rw [umul_ok (by decide)] at hs
    cases hs
    exact ⟨rfl, hk⟩
  clear ho hz
  induction n generalizing it with
  | zero => exact List.not_mem_nil
  | succ n ih =>
    unfold TileIt.run
    cases hq : it.next p gz fuel with
    | none => simp
    | some w =>
      rcases w with ⟨r, it'⟩
      obtain ⟨h1, h2⟩ := hb.next hq
      intro hm
      rcases List.mem_cons.1 hm with hm | hm
      · cases hm; exact h2 v rfl
      · exact ih it' h1 hm

/-! ### Cases -/

/-- An image of two integers in a tile, with the given cards. -/
def tileFile (form cmp bitpix tile : String) : List UInt8 :=
  tableFile ["NAXIS1  =                    8", "NAXIS2  =                    2", "PCOUNT  =                   10",
    "TFIELDS =                    1", form, "TTYPE1  = 'COMPRESSED_DATA'", "ZIMAGE  =                    T", cmp, bitpix,
    "ZNAXIS  =                    1", "ZNAXIS1 =                    3", tile]
    [0, 0, 0, 5, 0, 0, 0, 0, 0, 0, 0, 5, 0, 0, 0, 5, 0, 0, 0, 7, 0, 0, 0, 0, 5, 0]

/-- What is seen of the first pixel. -/
def firstPixel (p : Profile) (data : List UInt8) : List (Option (Res Seen)) :=
  (Session.run p (.of fun b => b ++ b) 100 [.hdu, .hdu, .getData 0, .next] (Session.new ⟨data, 0⟩)).drop 2

set_option maxRecDepth 20000 in
/-- A tile of GZIP data, as in the cases below but without fault. -/
theorem C84_sample : firstPixel .checked (tileFile "TFORM1  = '1PB'" "ZCMPTYPE= 'GZIP_1'" "ZBITPIX =                   32"
    "ZTILE1  =                    2") = [some (.ok .unit), some (.ok (.tilePixel (some (.int 7))))] := by decide +kernel

/-- The second HDU of a file is a compressed image with a sound header. -/
def soundFile (p : Profile) (data : List UInt8) : Bool :=
  match (afterPrimary data).next p with
  | (some (.ok (.binTable h)), f) =>
    match h.header.xtension.zImage with
    | some z => checkTile p h.header z && decide (f.rd.data.length < 2 ^ 60)
    | none => false
  | _ => false

theorem soundFile_ok {p : Profile} {data : List UInt8} (e : soundFile p data = true) : ∃ (f : Fits) (h : Hdu BinTable) (z : _),
    h.header.xtension.zImage = some z ∧ TileSound p h.header z ∧ f.rd.data.length < 2 ^ 60 := by
  unfold soundFile at e
  generalize (afterPrimary data).next p = w at e
  split at e
  · rename_i h f
    split at e
    · rename_i z hz
      rw [Bool.and_eq_true] at e
      exact ⟨f, h, z, hz, checkTile_ok e.1, of_decide_eq_true e.2⟩
    · cases e
  · cases e

set_option maxRecDepth 20000 in
theorem gzip_sound : soundFile .checked (tileFile "TFORM1  = '1PB'" "ZCMPTYPE= 'GZIP_1'" "ZBITPIX =                   32"
    "ZTILE1  =                    2") = true := by decide +kernel

set_option maxRecDepth 20000 in
theorem rice_sound : soundFile .wrapping floatTilesFile = true := by decide +kernel

/-- Non-vacuity: integers compressed with GZIP, with overflow checks, and floats compressed with RICE, without. -/
example : ∃ (f : Fits) (h : Hdu BinTable) (z : _),
    h.header.xtension.zImage = some z ∧ TileSound .checked h.header z ∧ f.rd.data.length < 2 ^ 60 := soundFile_ok gzip_sound

example : ∃ (f : Fits) (h : Hdu BinTable) (z : _),
    h.header.xtension.zImage = some z ∧ TileSound .wrapping h.header z ∧ f.rd.data.length < 2 ^ 60 := soundFile_ok rice_sound

set_option maxRecDepth 20000 in
/-- Floats without scales. -/
theorem C84_scale_needed : firstPixel .wrapping (tileFile "TFORM1  = '1PB'" "ZCMPTYPE= 'GZIP_1'"
    "ZBITPIX =                  -32" "ZTILE1  =                    2") = [some .panic] := by decide +kernel

set_option maxRecDepth 20000 in
/-- Empty tiles. -/
theorem C84_tiles_needed : firstPixel .wrapping (tileFile "TFORM1  = '1PB'" "ZCMPTYPE= 'GZIP_1'"
    "ZBITPIX =                   32" "ZTILE1  =                    0") = [some (.ok .unit), some .panic] := by decide +kernel

set_option maxRecDepth 20000 in
/-- A column of compressed data that does not hold arrays. -/
theorem C84_data_needed : firstPixel .wrapping (tileFile "TFORM1  = '1K'" "ZCMPTYPE= 'GZIP_1'"
    "ZBITPIX =                   32" "ZTILE1  =                    2") = [some (.ok .unit), some .panic] := by decide +kernel

set_option maxRecDepth 20000 in
/-- A column of two values before the column of compressed data. -/
theorem C84_one_value_needed : firstPixel .wrapping pairFile = [some (.ok .unit), some .panic] := by decide +kernel

end Fitsrs

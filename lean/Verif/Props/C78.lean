import Verif.Spec.Width
import Verif.Props.C44_C45
/-
C78 compressed pixels of one or two bytes.
-/

namespace Fitsrs
open Spec

/-! ### Four bytes -/

theorem wrapBytes_four (x : Int) : wrapBytes 4 x = wrap32 x := rfl

theorem diffsOf_four (last : Int) (vs : List Int) : diffsOf 4 last vs = diffs last vs := by
  induction vs generalizing last with
  | nil => rfl
  | cons v vs ih =>
    show zigzag (wrapBytes 4 (v - last)) :: _ = zigzag (wrap32 (v - last)) :: _
    rw [ih, wrapBytes_four]

theorem permits_four {c : Coding} {ds : List Nat} : c.PermitsFor 4 ds ↔ c.Permits ds := by
  cases c with
  | low => exact Iff.rfl
  | split fs => exact Nat.lt_succ_iff
  | high => exact Iff.rfl

theorem blockBits_four (c : Coding) (ds : List Nat) : blockBitsOf 4 c ds = blockBits c ds := by cases c <;> rfl

theorem blocks_four {nblock : Nat} {last : Int} {pixels : List Int} {bits : List Bool} :
    BlocksOf 4 nblock last pixels bits ↔ Blocks nblock last pixels bits := by
  constructor
  · intro h
    induction h with
    | nil => exact .nil
    | block c h0 h1 h2 _ ih =>
      rw [blockBits_four, diffsOf_four]
      rw [diffsOf_four, permits_four] at h2
      exact .block c h0 h1 h2 ih
  · intro h
    induction h with
    | nil => exact .nil
    | block c h0 h1 h2 _ ih =>
      rw [← blockBits_four, ← diffsOf_four]
      rw [← diffsOf_four, ← permits_four] at h2
      exact .block c h0 h1 h2 ih

theorem isRice_four {nblock : Nat} {pixels : List Int} {bytes : List UInt8} :
    IsRiceOf 4 nblock pixels bytes ↔ IsRice nblock pixels bytes := by
  constructor
  · rintro ⟨first, bits, pad, h1, h2, h3⟩
    exact ⟨first, bits, pad, h1, blocks_four.1 h2, h3⟩
  · rintro ⟨first, bits, pad, h1, h2, h3⟩
    exact ⟨first, bits, pad, h1, blocks_four.2 h2, h3⟩

theorem holds_four {gz : Gunzip} {cmp : ZCmpType} {pixels : List Int} {bytes : List UInt8} :
    HoldsFor gz 4 cmp pixels bytes ↔ Spec.Holds gz cmp pixels bytes := by
  cases cmp with
  | rice n => exact isRice_four
  | _ => exact Iff.rfl

/-! ### The property -/

/-- The tiles of the image, in the order of the rows: their sizes, and that the compressed data hold them as numbers of
`w` bytes. -/
structure TilesOf (w : Nat) (x : BinTable) (z : TileCompressedImage) (unit : List UInt8) (gz : Gunzip)
    (tile : Nat → List Int) : Prop where
  rows : x.naxis2 = tileCount z.zNaxisn z.zTilen
  axes : z.zNaxisn.length = z.zTilen.length
  size : ∀ r < x.naxis2, (tile r).length = tilePixels z.zNaxisn z.zTilen r
  range : ∀ r < x.naxis2, ∀ v ∈ tile r, InType z.zBitpix v
  holds : ∀ r < x.naxis2, HoldsFor gz w z.zCmpType (tile r) (heapArray x unit r z.dataCompressedIdx)
  blocks : ∀ nblock, z.zCmpType = .rice nblock → Spec.product z.zTilen + nblock ≤ 2 ^ 31

theorem TilesOf.four {x : BinTable} {z : TileCompressedImage} {unit : List UInt8} {gz : Gunzip}
    {tile : Nat → List Int} (h : TilesOf 4 x z unit gz tile) : Tiles x z unit gz tile :=
  ⟨h.rows, h.axes, h.size, h.range, fun r hr => holds_four.1 (h.holds r hr), h.blocks⟩

theorem Tiles.four {x : BinTable} {z : TileCompressedImage} {unit : List UInt8} {gz : Gunzip}
    {tile : Nat → List Int} (h : Tiles x z unit gz tile) : TilesOf 4 x z unit gz tile :=
  ⟨h.rows, h.axes, h.size, h.range, fun r hr => holds_four.2 (h.holds r hr), h.blocks⟩

/-- **C78**, the full statement, which the code does not meet: iterating a tile-compressed image, the tiles of which are
whole, gives its pixels, in the order of the rows, and then `None`, whatever the width with which they have been
compressed. -/
def C78_statement : Prop :=
  ∀ (p : Profile) (f f' : Fits) (x : Hdu BinTable) (z : TileCompressedImage) (it : TileIt)
    (gz : Gunzip) (fuel : Nat) (tile : Nat → List Int) (sc : Nat → Scaling) (w : Nat),
    TilesOpened p f f' x z it → Legal x.header.xtension f.rd.data x.dataOffset →
    Complete x.header.xtension f.rd.data x.dataOffset → Aligned x.header.xtension z →
    TileTable x.header z (f.rd.data.drop x.dataOffset) sc → Extends gz →
    x.header.xtension.naxis1 < fuel → 2 * Spec.product z.zTilen + 1 ≤ fuel →
    PixelWidth x.header.values z w → TilesOf w x.header.xtension z (f.rd.data.drop x.dataOffset) gz tile →
    (∀ r < x.header.xtension.naxis2, tilePixels z.zNaxisn z.zTilen r = Spec.product z.zTilen) →
    ∀ n, it.run p gz fuel n = tileScan (imagePixels x.header.xtension z tile sc) n

/-- **C78, partial.**  Missing: pixels compressed as numbers of one or two bytes; large differences of pixels with RICE
in builds with overflow checks. -/
theorem C78_partial {p : Profile} {f f' : Fits} {x : Hdu BinTable} {z : TileCompressedImage} {it : TileIt}
    {gz : Gunzip} {fuel : Nat} {tile : Nat → List Int} {sc : Nat → Scaling} {w : Nat}
    (ho : TilesOpened p f f' x z it) (hl : Legal x.header.xtension f.rd.data x.dataOffset)
    (hc : Complete x.header.xtension f.rd.data x.dataOffset) (one : Aligned x.header.xtension z)
    (ht : TileTable x.header z (f.rd.data.drop x.dataOffset) sc) (hg : Extends gz)
    (hf : x.header.xtension.naxis1 < fuel) (hf' : 2 * Spec.product z.zTilen + 1 ≤ fuel)
    (hw : PixelWidth x.header.values z w)
    (hi : TilesOf w x.header.xtension z (f.rd.data.drop x.dataOffset) gz tile)
    (whole : ∀ r < x.header.xtension.naxis2, tilePixels z.zNaxisn z.zTilen r = Spec.product z.zTilen) (h4 : w = 4)
    (hs : ∀ nblock, z.zCmpType = .rice nblock → p = .wrapping ∨ ∀ r < x.header.xtension.naxis2, Smooth (tile r)) (n : Nat) :
    it.run p gz fuel n = tileScan (imagePixels x.header.xtension z tile sc) n := by
  subst h4
  refine C44_partial ho hl hc one ht hg hf hf' hi.four whole ?_ hs n
  intro h8 h2
  have := hw.2
  rw [h2, h8] at this
  exact absurd (show 4 = widthOf .u8 from this) (by decide)

/-! ### The samples -/

set_option maxRecDepth 20000 in
theorem sample_bytesTile :
    returnsTiles .wrapping bytesTileFile bytesTileTable bytesTileImage (fun it =>
      decide (it.run .wrapping (.of fun _ => []) 9 3 =
        [some (.ok (some (.int 0))), some (.ok (some (.int 0))), some (.ok none)])) = true := by
  decide +kernel

set_option maxRecDepth 20000 in
theorem sample_shortsTile :
    returnsTiles .wrapping shortsTileFile shortsTileTable shortsTileImage (fun it =>
      decide (it.run .wrapping (.of (List.take 4)) 9 1 = [some (.ok none)])) = true := by
  decide +kernel

/-- The parameters of compression of the second HDU. -/
def parametersOf (data : List UInt8) : List (Str × Value) :=
  match (afterPrimary data).next .wrapping with
  | (some (.ok (.binTable h)), _) => h.header.values.filter fun e => "ZNAME".toList.isPrefixOf e.1
  | _ => []

set_option maxRecDepth 20000 in
theorem bytesTile_parameters : parametersOf bytesTileFile =
    [("ZNAME1".toList, .string "BLOCKSIZE".toList none), ("ZNAME2".toList, .string "BYTEPIX".toList none)] := by
  decide +kernel

/-- The value of `ZNAME2` and of `ZVAL2`. -/
def secondParameter (data : List UInt8) : Option Value × Option Value :=
  match (afterPrimary data).next .wrapping with
  | (some (.ok (.binTable h)), _) => (h.header.values.get (kwN "ZNAME" 2), h.header.values.get (kwN "ZVAL" 2))
  | _ => (none, none)

set_option maxRecDepth 20000 in
theorem bytesTile_second : secondParameter bytesTileFile =
    (some (.string "BYTEPIX".toList none), some (.integer 1 none)) := by
  decide +kernel

theorem bytesTile_width {f' : Fits} {h : Hdu BinTable}
    (hn : (afterPrimary bytesTileFile).next .wrapping = (some (.ok (.binTable h)), f')) :
    PixelWidth h.header.values bytesTileImage 1 := by
  refine ⟨.inl rfl, .inl ⟨2, ?_, ?_, ?_⟩⟩
  · have := bytesTile_second
    unfold secondParameter at this
    rw [hn] at this
    exact ⟨none, congrArg Prod.snd this⟩
  · have := bytesTile_second
    unfold secondParameter at this
    rw [hn] at this
    exact ⟨none, congrArg Prod.fst this⟩
  · intro t c ht
    have hp := bytesTile_parameters
    unfold parametersOf at hp
    rw [hn] at hp
    have hm : (("ZNAME".toList ++ t, .string "BYTEPIX".toList c) : Str × Value) ∈
        h.header.values.filter fun e => "ZNAME".toList.isPrefixOf e.1 :=
      List.mem_filter.2 ⟨mem_of_get ht, List.isPrefixOf_iff_prefix.2 ⟨t, rfl⟩⟩
    dsimp only at hp
    rw [hp] at hm
    rcases List.mem_cons.1 hm with e | hm
    · have := congrArg (fun e : Str × Value => match e.2 with | .string s _ => s | _ => []) e
      exact absurd (show "BYTEPIX".toList = "BLOCKSIZE".toList from this) (by decide)
    · have e := List.mem_singleton.1 hm
      have := congrArg Prod.fst e
      exact List.append_cancel_left (as := "ZNAME".toList) (this.trans (by decide))

set_option maxRecDepth 20000 in
theorem floatTiles_parameters : parametersOf floatTilesFile =
    [("ZNAME1".toList, .string "BLOCKSIZE".toList none)] := by
  decide +kernel

theorem floatTiles_width {f' : Fits} {h : Hdu BinTable}
    (hn : (afterPrimary floatTilesFile).next .wrapping = (some (.ok (.binTable h)), f')) :
    PixelWidth h.header.values floatTilesImage 4 := by
  refine ⟨.inr (.inr rfl), .inr ⟨rfl, ?_⟩⟩
  intro t c ht
  have hp := floatTiles_parameters
  unfold parametersOf at hp
  rw [hn] at hp
  have hm : (("ZNAME".toList ++ t, .string "BYTEPIX".toList c) : Str × Value) ∈
      h.header.values.filter fun e => "ZNAME".toList.isPrefixOf e.1 :=
    List.mem_filter.2 ⟨mem_of_get ht, List.isPrefixOf_iff_prefix.2 ⟨t, rfl⟩⟩
  dsimp only at hp
  rw [hp] at hm
  have := congrArg (fun e : Str × Value => match e.2 with | .string s _ => s | _ => []) (List.mem_singleton.1 hm)
  exact absurd (show "BYTEPIX".toList = "BLOCKSIZE".toList from this) (by decide)

/-- The image of floats has no `BYTEPIX`; its four pixels are found. -/
example : ∃ f' h it, TilesOpened .wrapping (afterPrimary floatTilesFile) f' h floatTilesImage it ∧
    ∀ n, it.run .wrapping (.of fun _ => []) 29 n = tileScan
      [.linear 7 (.double 0x3FF0000000000000) (.double 0), .linear 7 (.double 0x3FF0000000000000) (.double 0),
       .linear 8 (.double 0x4000000000000000) (.double 0x3FF0000000000000), .nan] n := by
  obtain ⟨f', h, it, ho, h1, h2, -⟩ := tiles_opened (sample_tiles .wrapping) rfl
  refine ⟨f', h, it, ho, fun n => ?_⟩
  have := C78_partial (fuel := 29) (gz := .of fun _ => []) (tile := floatTile) (sc := floatScaling) ho
    (by rw [h1, h2]; exact floatTiles_legal.1) (by rw [h1, h2]; exact floatTiles_legal.2) (by rw [h1]; exact floatTiles_one.aligned _)
    (by rw [h2]; exact floatTiles_table h1) (fun _ _ => List.prefix_refl _) (by rw [h1]; decide) (by decide)
    (floatTiles_width ho.next) (by rw [h1, h2]; exact floatTiles_tiles.four) (by rw [h1]; decide) rfl
    (fun nblock _ => .inl rfl) n
  rw [this, h1]
  rfl

/-- **C78** fails with RICE: the pixels 7, 7 compressed as bytes are given as 0, 0. -/
theorem C78_fails : ¬ C78_statement := by
  intro hall
  obtain ⟨f', h, it, ho, h1, h2, h3⟩ := tiles_opened sample_bytesTile rfl
  have hheap : heapArray bytesTileTable (bytesTileFile.drop 5760) 0 0 = [7, 0] := by decide +kernel
  have hrun := hall .wrapping _ f' h bytesTileImage it (.of fun _ => []) 9 (fun _ => [7, 7])
    (fun _ => ⟨.double 0, .double 0, none⟩) 1 ho
    (by rw [h1, h2]; exact legal_sample (by decide) (by decide) (by decide) (by decide) (by decide +kernel))
    (by rw [h1, h2]; decide +kernel)
    (by
      rw [h1]
      refine Spec.OneValue.aligned ?_ _
      intro ty rep h
      simp [bytesTileTable] at h)
    (by
      refine ⟨by rw [h1]; exact .inl rfl, ?_, by decide, by decide, fun hf => absurd hf (by decide), rfl⟩
      rw [h1, h2]
      change ∀ r < 1, bytesTileTable.theap + (descriptor bytesTileTable (bytesTileFile.drop 5760) r 0).2 +
        (descriptor bytesTileTable (bytesTileFile.drop 5760) r 0).1 ≤ (bytesTileFile.drop 5760).length
      decide +kernel)
    (fun _ _ => List.prefix_refl _) (by rw [h1]; decide) (by decide) (bytesTile_width ho.next)
    (by
      rw [h1, h2]
      refine ⟨by decide, rfl, by decide, ?_, ?_, ?_⟩
      · intro r hr v hv
        show 0 ≤ v ∧ v < 2 ^ 8
        simp at hv
        omega
      · intro r hr
        have hr : r = 0 := by change r < 1 at hr; omega
        subst hr
        change IsRiceOf 1 2 [7, 7] (heapArray bytesTileTable (bytesTileFile.drop 5760) 0 0)
        rw [hheap]
        refine ⟨7, blockBitsOf 1 .low [0, 0] ++ [], [false, false, false, false, false], rfl, ?_, by decide +kernel⟩
        refine BlocksOf.block (block := [7, 7]) (rest := []) .low (by simp) (Or.inl rfl) ?_ .nil
        show ∀ d ∈ diffsOf 1 7 [7, 7], d = 0
        decide
      · intro nblock h
        cases h
        decide)
    (by rw [h1]; decide) 3
  rw [of_decide_eq_true h3, h1] at hrun
  exact absurd hrun (by decide +kernel)

/-- **C78** fails with GZIP: the iteration over the two shorts 258 and -2 ends at once. -/
theorem C78_fails_gzip : ¬ C78_statement := by
  intro hall
  obtain ⟨f', h, it, ho, h1, h2, h3⟩ := tiles_opened sample_shortsTile rfl
  have hheap : heapArray shortsTileTable (shortsTileFile.drop 5760) 0 0 = [1, 2, 0xFF, 0xFE] := by decide +kernel
  have hrun := hall .wrapping _ f' h shortsTileImage it (.of (List.take 4)) 9 (fun _ => [258, -2])
    (fun _ => ⟨.double 0, .double 0, none⟩) 2 ho
    (by rw [h1, h2]; exact legal_sample (by decide) (by decide) (by decide) (by decide) (by decide +kernel))
    (by rw [h1, h2]; decide +kernel)
    (by
      rw [h1]
      refine Spec.OneValue.aligned ?_ _
      intro ty rep h
      simp [shortsTileTable] at h)
    (by
      refine ⟨by rw [h1]; exact .inl rfl, ?_, by decide, by decide, fun hf => absurd hf (by decide), rfl⟩
      rw [h1, h2]
      change ∀ r < 1, shortsTileTable.theap + (descriptor shortsTileTable (shortsTileFile.drop 5760) r 0).2 +
        (descriptor shortsTileTable (shortsTileFile.drop 5760) r 0).1 ≤ (shortsTileFile.drop 5760).length
      decide +kernel)
    (fun a b => by
      show List.take 4 a <+: List.take 4 (a ++ b)
      rw [List.take_append]; exact List.prefix_append _ _) (by rw [h1]; decide) (by decide)
    ⟨.inr (.inl rfl), rfl⟩
    (by
      rw [h1, h2]
      refine ⟨by decide, rfl, by decide, ?_, ?_, ?_⟩
      · intro r hr v hv
        show -(2 ^ 15) ≤ v ∧ v < 2 ^ 15
        simp at hv
        omega
      · intro r hr
        have hr : r = 0 := by change r < 1 at hr; omega
        subst hr
        change plainBytesOf 2 [258, -2] <+: (Gunzip.of (List.take 4)).out (heapArray shortsTileTable (shortsTileFile.drop 5760) 0 0)
        rw [hheap]
        exact ⟨[], by decide⟩
      · intro nblock h
        cases h)
    (by rw [h1]; decide) 1
  rw [of_decide_eq_true h3, h1] at hrun
  exact absurd hrun (by decide +kernel)

end Fitsrs

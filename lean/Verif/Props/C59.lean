import Verif.Lemmas.TileOrder
import Verif.Props.C52_C53
import Verif.Props.C44_C45
/-
C59 compressed images are decoded like plain ones.
-/

namespace Fitsrs
open Spec

/-! ### The type of the pixels does not change -/

theorem TileIt.fill_ty {p : Profile} {gz : Gunzip} {fuel : Nat} {off : Int} {it it' : TileIt}
    {r : Res Bool} (h : it.fill p gz fuel off = some (r, it')) : it'.ty = it.ty := by
  unfold TileIt.fill at h
  dsimp only at h
  split at h
  · split at h
    · cases h
    · cases h; rfl
    · cases h; rfl
    · cases h; rfl
  · cases h; rfl
  · cases h; rfl

theorem TileIt.openTile_ty {p : Profile} {gz : Gunzip} {fuel : Nat} {vs : List DataValue}
    {it it' : TileIt} {r : Res Bool} (h : it.openTile p gz fuel vs = some (r, it')) : it'.ty = it.ty := by
  unfold TileIt.openTile at h
  split at h
  · dsimp only at h
    split at h
    · split at h
      · have := TileIt.fill_ty h; exact this
      · cases h; rfl
    · cases h; rfl
  · cases h; rfl

theorem TileIt.load_ty {p : Profile} {gz : Gunzip} {fuel : Nat} {it it' : TileIt} {r : Res Bool}
    (h : it.load p gz fuel = some (r, it')) : it'.ty = it.ty := by
  unfold TileIt.load at h
  split at h
  · cases h
  · have := TileIt.openTile_ty h; exact this
  · cases h; rfl
  · cases h; rfl
  · cases h; rfl

theorem TileIt.pixel_ty {p : Profile} {it it' : TileIt} {r : Res (Option TilePixel)}
    (h : it.pixel p = (r, it')) : it'.ty = it.ty := by
  unfold TileIt.pixel at h
  split at h
  · split at h
    · cases h; rfl
    · cases h; rfl
  · cases h; rfl

theorem TileIt.next_ty {p : Profile} {gz : Gunzip} {fuel : Nat} {it it' : TileIt}
    {r : Res (Option TilePixel)} (h : it.next p gz fuel = some (r, it')) : it'.ty = it.ty := by
  unfold TileIt.next at h
  split at h
  · split at h
    · cases h
    · rename_i it1 hl
      exact (TileIt.pixel_ty (Option.some.inj h)).trans (TileIt.load_ty hl)
    · rename_i it1 hl
      cases h; exact TileIt.load_ty hl
    · rename_i it1 hl
      cases h; exact TileIt.load_ty hl
    · rename_i it1 hl
      cases h; exact TileIt.load_ty hl
  · exact TileIt.pixel_ty (Option.some.inj h)

/-! ### The samples of the tiles -/

/-- The iterator over tiles gives no more. -/
def TileIt.Ended (p : Profile) (gz : Gunzip) (fuel : Nat) (it : TileIt) : Prop :=
  ∀ k, it.run p gz fuel k = List.replicate k (some (.ok none))

theorem tileSource_exhausted (p : Profile) (gz : Gunzip) (fuel : Nat) (o : FloatOps) (s : Scale) :
    Exhausted (tileSource p gz fuel o s) (TileIt.Ended p gz fuel) := by
  intro it h
  have h1 := h 1
  cases hn : it.next p gz fuel with
  | none => simp [TileIt.run, hn, List.replicate] at h1
  | some q =>
    obtain ⟨r, it'⟩ := q
    simp only [TileIt.run, hn, List.replicate, List.cons.injEq, Option.some.injEq, and_true] at h1
    subst h1
    refine ⟨it', by unfold tileSource; rw [hn]; rfl, fun k => ?_⟩
    have h2 := h (k + 1)
    simp only [TileIt.run, hn, List.replicate_succ, List.cons.injEq, true_and] at h2
    exact h2

theorem tileSource_yields {p : Profile} {gz : Gunzip} {fuel : Nat} (o : FloatOps) (s : Scale)
    {ty : Bitpix} (ps : List TilePixel) : ∀ it : TileIt, it.ty = ty → (∀ n, it.run p gz fuel n = tileScan ps n) →
    Yields (tileSource p gz fuel o s) (TileIt.Ended p gz fuel) it (ps.map (o.tileSample s ty)) := by
  induction ps with
  | nil =>
    intro it _ h
    exact .nil fun k => by rw [h k]; simp [tileScan]
  | cons v ps ih =>
    intro it hty h
    have h1 := h 1
    cases hn : it.next p gz fuel with
    | none => simp [TileIt.run, hn, tileScan] at h1
    | some q =>
      obtain ⟨r, it'⟩ := q
      simp only [TileIt.run, hn, tileScan, List.take_succ_cons, List.take_zero, List.map_cons, List.map_nil,
        List.length_cons, List.cons_append, List.cons.injEq, Option.some.injEq] at h1
      obtain ⟨rfl, -⟩ := h1
      refine .cons (s' := it') (by unfold tileSource; rw [hn, hty]; rfl)
        (ih it' ((TileIt.next_ty hn).trans hty) fun n => ?_)
      have h2 := h (n + 1)
      simp only [TileIt.run, hn, tileScan, List.take_succ_cons, List.map_cons, List.length_cons, List.cons_append,
        List.cons.injEq, true_and] at h2
      rw [h2, tileScan]
      congr 2
      omega

theorem tileSample_length (o : FloatOps) (s : Scale) {z : TileCompressedImage} {v : Int} (sc : Scaling)
    (hb : z.zBitpix ≠ .i64) : (o.tileSample s z.zBitpix (pixelOf z.zBitpix sc v)).length = sampleSize z.zBitpix := by
  unfold pixelOf
  cases h : z.zBitpix <;> simp only [IsFloat, reduceCtorEq, or_self, or_true, true_or, if_true, if_false]
  · exact leBytes_length _ _
  · exact leBytes_length _ _
  · exact leBytes_length _ _
  · exact absurd h hb
  · split <;> exact leBytes_length _ _
  · split <;> exact leBytes_length _ _

theorem getTiles_ty {p : Profile} {f : Fits} {x : Hdu BinTable} {z : TileCompressedImage} {it : TileIt}
    (h : f.getTiles p x z = .ok it) : it.ty = z.zBitpix ∧ z.zBitpix ≠ .i64 := by
  unfold Fits.getTiles at h
  obtain ⟨t, -, h⟩ := Res.bind_eq_ok.1 h
  unfold TileIt.new at h
  obtain ⟨n, -, h1⟩ := Res.bind_eq_ok.1 h
  obtain ⟨sz, -, h2⟩ := Res.bind_eq_ok.1 h1
  split at h2
  · cases h2
  · obtain ⟨kw, hk, h3⟩ := Res.bind_eq_ok.1 h2
    injection h3 with h3
    subst h3
    refine ⟨rfl, fun hb => ?_⟩
    rw [hb] at hk
    cases hk

/-! ## C59 -/

/-- **C59**, the full statement, which the code does not meet: let `img` be the pixels of the image, in order, and let
the tiles of the compressed image hold them at the places given by the standard.  Then channel `c` of pixel `i` of the
buffer is the sample for `img (c * width * height + i)`, for a colour image, and for `img i` otherwise. -/
def C59_statement : Prop :=
  ∀ (p : Profile) (n : Nat) (rd : Reader) (d : Decoder) (x : Hdu BinTable) (z : TileCompressedImage) (it : TileIt)
    (gz : Gunzip) (fuel : Nat) (tile : Nat → List Int) (sc : Nat → Scaling) (img : Nat → TilePixel)
    (s : Scale) (o : FloatOps) (buf : List UInt8),
    Decoder.new p n rd = some (.ok d) → d.hdu = .tiles x → x.header.xtension.zImage = some z →
    d.fits.getTiles p x z = .ok it → Legal x.header.xtension rd.data x.dataOffset →
    Complete x.header.xtension rd.data x.dataOffset → Columns x.header.xtension →
    TileTable x.header z (rd.data.drop x.dataOffset) sc → Extends gz →
    x.header.xtension.naxis1 < fuel → 2 * Spec.product z.zTilen + 1 ≤ fuel →
    Tiles x.header.xtension z (rd.data.drop x.dataOffset) gz tile → (∀ t ∈ z.zNaxisn, 0 < t) →
    (∀ r < x.header.xtension.naxis2,
      (tile r).map (pixelOf z.zBitpix (sc r)) = (tileIndices z.zNaxisn z.zTilen r).map img) →
    Scale.ofMap x.header.values = .ok s →
    buf.length = d.width * d.height * channels d.colorType * channelBytes d.colorType →
    ∃ out, d.readImage p gz fuel o buf = some (.ok out) ∧ out.length = buf.length ∧
      ∀ i < d.width * d.height, ∀ c < channels d.colorType,
        sampleAt (channelBytes d.colorType) out (i * channels d.colorType + c) =
          o.tileSample s z.zBitpix (img (valueIndex d.rgb (d.width * d.height) i c))

theorem valueIndex_lt {p : Profile} {n : Nat} {rd : Reader} {d : Decoder} {x : Hdu BinTable} {z : TileCompressedImage}
    (hd : Decoder.new p n rd = some (.ok d)) (hx : d.hdu = .tiles x) (hz : x.header.xtension.zImage = some z) {i c : Nat}
    (hi : i < d.width * d.height) (hc : c < channels d.colorType) :
    valueIndex d.rgb (d.width * d.height) i c < Spec.product z.zNaxisn := by
  obtain ⟨k, f, hk, ho⟩ := decoder_new_ok hd
  obtain ⟨ns, h1, h2, h3, h4, rfl, rfl⟩ := ofKind_ok ho
  rw [hx] at h1
  obtain ⟨z', hz', rfl, hbp⟩ := h1
  obtain rfl : z = z' := Option.some.inj (hz.symm.trans hz')
  rw [colorType_eq, ← hbp] at hc
  rw [h2.product]
  unfold valueIndex planes
  cases hr : d.rgb with
  | false => simpa using hi
  | true =>
    rw [if_pos rfl, if_pos rfl]
    have hc3 : c < 3 := by
      rw [hr] at hc
      cases hb : z.zBitpix <;> rw [hb] at hc <;> exact hc
    have : (c + 1) * (d.width * d.height) ≤ 3 * (d.width * d.height) := Nat.mul_le_mul_right _ hc3
    rw [Nat.succ_mul] at this
    omega

theorem rowTiles_pos {ns ts : List Nat} (h : RowTiles ns ts) (hp : ∀ n ∈ ns, 0 < n) : ∀ t ∈ ts, 0 < t := by
  induction h with
  | @run n t ns ts ht h1 hl =>
    intro u hu
    rcases List.mem_cons.1 hu with rfl | hu
    · exact ht
    · rw [h1 u hu]; exact Nat.one_pos
  | @full n ns ts _ ih =>
    intro u hu
    rcases List.mem_cons.1 hu with rfl | hu
    · exact hp u (List.mem_cons_self ..)
    · exact ih (fun m hm => hp m (List.mem_cons_of_mem _ hm)) u hu

/-- **C59, exactly**, for tiles of any shape that divides the image: the decoder shows the pixels in the order in which the
tiles hold them. -/
theorem C59_exact {p : Profile} {n : Nat} {rd : Reader} {d : Decoder} {x : Hdu BinTable} {z : TileCompressedImage}
    {it : TileIt} {gz : Gunzip} {fuel : Nat} {tile : Nat → List Int} {sc : Nat → Scaling}
    {img : Nat → TilePixel} {s : Scale} (o : FloatOps) {buf : List UInt8}
    (hd : Decoder.new p n rd = some (.ok d)) (hx : d.hdu = .tiles x) (hz : x.header.xtension.zImage = some z)
    (hit : d.fits.getTiles p x z = .ok it) (hl : Legal x.header.xtension rd.data x.dataOffset)
    (hc : Complete x.header.xtension rd.data x.dataOffset) (one : Aligned x.header.xtension z)
    (ht : TileTable x.header z (rd.data.drop x.dataOffset) sc) (hg : Extends gz)
    (hf : x.header.xtension.naxis1 < fuel) (hf' : 2 * Spec.product z.zTilen + 1 ≤ fuel)
    (hi : Tiles x.header.xtension z (rd.data.drop x.dataOffset) gz tile) (hpos : ∀ t ∈ z.zNaxisn, 0 < t)
    (himg : ∀ r < x.header.xtension.naxis2,
      (tile r).map (pixelOf z.zBitpix (sc r)) = (tileIndices z.zNaxisn z.zTilen r).map img)
    (hsc : Scale.ofMap x.header.values = .ok s)
    (hb : buf.length = d.width * d.height * channels d.colorType * channelBytes d.colorType)
    (whole : ∀ r < x.header.xtension.naxis2, tilePixels z.zNaxisn z.zTilen r = Spec.product z.zTilen)
    (h8 : z.zBitpix = .u8 → z.zCmpType ≠ .gzip2)
    (hs : ∀ nblock, z.zCmpType = .rice nblock → p = .wrapping ∨ ∀ r < x.header.xtension.naxis2, Smooth (tile r))
    (hpos' : ∀ t ∈ z.zTilen, 0 < t) :
    ∃ out, d.readImage p gz fuel o buf = some (.ok out) ∧ out.length = buf.length ∧
      ∀ i < d.width * d.height, ∀ c < channels d.colorType,
        sampleAt (channelBytes d.colorType) out (i * channels d.colorType + c) =
          o.tileSample s z.zBitpix
            (img ((tileOrder z.zNaxisn z.zTilen)[valueIndex d.rgb (d.width * d.height) i c]?.getD 0)) := by
  obtain ⟨k, f, hk, ho⟩ := decoder_new_ok hd
  obtain ⟨ns, h1, h2, h3, h4, rfl, rfl⟩ := ofKind_ok ho
  obtain ⟨g, h, g1, g2, g3⟩ := findImage_ok n hk
  have hgd : g.rd.data = rd.data := g3
  rw [hx] at h1 g2
  obtain ⟨z', hz', rfl, hbp⟩ := h1
  obtain rfl : z = z' := Option.some.inj (hz.symm.trans hz')
  have hh : h = .binTable x := by
    cases h with
    | primary y => exact absurd g2 (by simp [Shows])
    | image y => exact absurd g2 (by simp [Shows])
    | binTable y => rw [ImageKind.tiles.inj g2]
    | asciiTable y => exact False.elim g2
  subst hh
  have hrun := fun m => C44_partial (gz := gz) (fuel := fuel) (tile := tile) (sc := sc)
    (TilesOpened.mk g1 hz hit) (by rw [hgd]; exact hl) (by rw [hgd]; exact hc) one (by rw [hgd]; exact ht) hg hf hf'
    (by rw [hgd]; exact hi) whole h8 hs m
  obtain ⟨hty, h64⟩ := getTiles_ty hit
  -- the pixels in the order of the tiles
  have hpx : imagePixels x.header.xtension z tile sc = (tileOrder z.zNaxisn z.zTilen).map img := by
    unfold imagePixels tileOrder
    rw [flatMap_congr_mem fun r hr => himg r (List.mem_range.1 hr), hi.rows, ← List.map_flatMap]
  have hlen := tileOrder_length hi.axes hpos hpos'
  rw [colorType_eq, ← hbp] at hb ⊢
  obtain ⟨out, it', w1, w2, w3⟩ := writeAs_spec (tileSource_exhausted p gz fuel o s) (ty := z.zBitpix) (rgb := d.rgb) hb
    (tileSource_yields o s (imagePixels x.header.xtension z tile sc) it hty hrun) (by
      intro v hv
      obtain ⟨q, hq, rfl⟩ := List.mem_map.1 hv
      unfold imagePixels at hq
      obtain ⟨r, -, hq⟩ := List.mem_flatMap.1 hq
      obtain ⟨w, -, rfl⟩ := List.mem_map.1 hq
      exact tileSample_length o s _ h64)
  refine ⟨out, ?_, w2, fun i hi' c hc' => ?_⟩
  · unfold Decoder.readImage
    rw [hx]
    dsimp only
    rw [hsc, hz]
    dsimp only
    rw [hit]
    dsimp only
    rw [hty, w1]
    rfl
  · have hlt := valueIndex_lt hd hx hz hi' (by rw [colorType_eq, ← hbp]; exact hc')
    rw [← hlen] at hlt
    rw [w3 i hi' c hc', hpx, List.getElem?_map, List.getElem?_map, List.getElem?_eq_getElem hlt]
    rfl

/-- **C59, partial.**  Missing: tiles that are not runs of rows of the image, and what is missing in C44. -/
theorem C59_partial {p : Profile} {n : Nat} {rd : Reader} {d : Decoder} {x : Hdu BinTable} {z : TileCompressedImage}
    {it : TileIt} {gz : Gunzip} {fuel : Nat} {tile : Nat → List Int} {sc : Nat → Scaling}
    {img : Nat → TilePixel} {s : Scale} (o : FloatOps) {buf : List UInt8}
    (hd : Decoder.new p n rd = some (.ok d)) (hx : d.hdu = .tiles x) (hz : x.header.xtension.zImage = some z)
    (hit : d.fits.getTiles p x z = .ok it) (hl : Legal x.header.xtension rd.data x.dataOffset)
    (hc : Complete x.header.xtension rd.data x.dataOffset) (one : Aligned x.header.xtension z)
    (ht : TileTable x.header z (rd.data.drop x.dataOffset) sc) (hg : Extends gz)
    (hf : x.header.xtension.naxis1 < fuel) (hf' : 2 * Spec.product z.zTilen + 1 ≤ fuel)
    (hi : Tiles x.header.xtension z (rd.data.drop x.dataOffset) gz tile) (hpos : ∀ t ∈ z.zNaxisn, 0 < t)
    (himg : ∀ r < x.header.xtension.naxis2,
      (tile r).map (pixelOf z.zBitpix (sc r)) = (tileIndices z.zNaxisn z.zTilen r).map img)
    (hsc : Scale.ofMap x.header.values = .ok s)
    (hb : buf.length = d.width * d.height * channels d.colorType * channelBytes d.colorType)
    (whole : ∀ r < x.header.xtension.naxis2, tilePixels z.zNaxisn z.zTilen r = Spec.product z.zTilen)
    (h8 : z.zBitpix = .u8 → z.zCmpType ≠ .gzip2)
    (hs : ∀ nblock, z.zCmpType = .rice nblock → p = .wrapping ∨ ∀ r < x.header.xtension.naxis2, Smooth (tile r))
    (hrow : RowTiles z.zNaxisn z.zTilen) :
    ∃ out, d.readImage p gz fuel o buf = some (.ok out) ∧ out.length = buf.length ∧
      ∀ i < d.width * d.height, ∀ c < channels d.colorType,
        sampleAt (channelBytes d.colorType) out (i * channels d.colorType + c) =
          o.tileSample s z.zBitpix (img (valueIndex d.rgb (d.width * d.height) i c)) := by
  obtain ⟨out, h1, h2, h3⟩ := C59_exact o hd hx hz hit hl hc one ht hg hf hf' hi hpos himg hsc hb whole h8 hs (rowTiles_pos hrow hpos)
  refine ⟨out, h1, h2, fun i hi' c hc' => ?_⟩
  have e : tileOrder z.zNaxisn z.zTilen = List.range (Spec.product z.zNaxisn) := rowTiles_order hrow hpos
  rw [h3 i hi' c hc', e, List.getElem?_range (valueIndex_lt hd hx hz hi' hc')]
  rfl

/-- **C59**, the shapes of tiles for which the image is shown as it is: those of which every tile is a run of the image. -/
theorem C59_order {ns ts : List Nat} (hl : ns.length = ts.length) (hn : ∀ n ∈ ns, 0 < n) (ht : ∀ t ∈ ts, 0 < t) :
    (tileOrder ns ts).Perm (List.range (Spec.product ns)) ∧
      (tileOrder ns ts = List.range (Spec.product ns) ↔ InOrder ns ts) :=
  ⟨tileOrder_perm hl hn ht, tileOrder_iff hl hn ht⟩

/-- Square tiles are not shown in order. -/
example : tileOrder [4, 4] [2, 2] = [0, 1, 4, 5, 2, 3, 6, 7, 8, 9, 12, 13, 10, 11, 14, 15] ∧ ¬ InOrder [4, 4] [2, 2] := by
  refine ⟨by decide, ?_⟩
  rw [← (C59_order (by decide) (by decide) (by decide)).2]
  decide

/-- Tiles of the full width are, whatever their height, as are tiles that are pieces of rows. -/
example : InOrder [4, 5, 6] [4, 2, 1] ∧ InOrder [5, 4] [2, 1] :=
  ⟨.inl ⟨by decide, .inr (by decide)⟩, .inr (by decide)⟩

/-! ### Samples -/

/-- The decoder of this file is for this table of tiles, and satisfies a condition. -/
def decodesTiles (p : Profile) (data : List UInt8) (x : BinTable) (z : TileCompressedImage) (ok : Decoder → Bool) : Bool :=
  match Decoder.new p 3 ⟨data, 0⟩ with
  | some (.ok d) =>
    match d.hdu with
    | .tiles h =>
      decide (h.header.xtension = x ∧ h.dataOffset = 5760 ∧ Scale.ofMap h.header.values = .ok {}) &&
        (match d.fits.getTiles p h z with
        | .ok _ => ok d
        | _ => false)
    | _ => false
  | _ => false

theorem decodes_tiles {p : Profile} {data : List UInt8} {x : BinTable} {z : TileCompressedImage} {ok : Decoder → Bool}
    (h : decodesTiles p data x z ok = true) :
    ∃ d hd it, Decoder.new p 3 ⟨data, 0⟩ = some (.ok d) ∧ d.hdu = .tiles hd ∧ hd.header.xtension = x ∧
      hd.dataOffset = 5760 ∧ Scale.ofMap hd.header.values = .ok {} ∧ d.fits.getTiles p hd z = .ok it ∧ ok d = true := by
  unfold decodesTiles at h
  split at h
  · rename_i d hn
    split at h
    · rename_i hd hk
      obtain ⟨h1, h2⟩ := Bool.and_eq_true_iff.1 h
      obtain ⟨h1, h3, h4⟩ := of_decide_eq_true h1
      split at h2
      · rename_i it hit
        exact ⟨d, hd, it, hn, hk, h1, h3, h4, hit, h2⟩
      · cases h2
    · cases h
  · cases h

/-- An image of 2 × 2 integers in tiles of 1 × 2, compressed with RICE in blocks of two: the columns are 7, 7 and 5, 5. -/
def columnsFile : List UInt8 :=
  tableFile ["NAXIS1  =                    8", "NAXIS2  =                    2", "PCOUNT  =                   10",
    "TFIELDS =                    1", "TFORM1  = '1PB'", "TTYPE1  = 'COMPRESSED_DATA'",
    "ZIMAGE  =                    T", "ZCMPTYPE= 'RICE_1'", "ZBITPIX =                   16",
    "ZNAXIS  =                    2", "ZNAXIS1 =                    2", "ZNAXIS2 =                    2",
    "ZTILE1  =                    1", "ZTILE2  =                    2", "ZNAME1  = 'BLOCKSIZE'",
    "ZVAL1   =                    2"]
    [0, 0, 0, 5, 0, 0, 0, 0, 0, 0, 0, 5, 0, 0, 0, 5, 0, 0, 0, 7, 0, 0, 0, 0, 5, 0]

def columnsImage : TileCompressedImage :=
  { zCmpType := .rice 2, zBitpix := .i16, zNaxisn := [2, 2], zTilen := [1, 2], zQuantiz := none, zDither0 := none
    dataCompressedIdx := 0 }

def columnsTable : BinTable :=
  { bitpix := .u8, naxis1 := 8, naxis2 := 2, tfields := 1, theap := 16, tforms := [.P .B]
    ttypes := [some "COMPRESSED_DATA".toList], pcount := 10, gcount := 1, zImage := some columnsImage }

set_option maxRecDepth 20000 in
theorem columns_decoded : decodesTiles .wrapping columnsFile columnsTable columnsImage (fun d =>
    decide (d.width = 2 ∧ d.height = 2 ∧ d.rgb = false ∧ d.bitpix = .i16 ∧
      d.readImage .wrapping (.of fun _ => []) 9 sampleOps (List.replicate 8 9) =
        some (.ok [7, 0, 7, 0, 5, 0, 5, 0]))) = true := by
  decide +kernel

set_option maxRecDepth 20000 in
theorem floatTiles_decoded (p : Profile) : decodesTiles p floatTilesFile floatTilesTable floatTilesImage (fun d =>
    decide (d.width = 4 ∧ d.height = 1 ∧ d.rgb = false ∧ d.bitpix = .f32)) = true := by
  cases p <;> decide +kernel

/-- Decoding the image of four floats: the samples are those of its pixels, the last one blank. -/
example (p : Profile) (o : FloatOps) (buf : List UInt8) (hb : buf.length = 48) : ∃ d out,
    Decoder.new p 3 ⟨floatTilesFile, 0⟩ = some (.ok d) ∧ d.readImage p (.of fun _ => []) 29 o buf = some (.ok out) ∧
    sampleAt 4 out 6 = leBytes 4 (o.tile (.linear 8 (.double 0x4000000000000000) (.double 0x3FF0000000000000))) ∧
    sampleAt 4 out 11 = leBytes 4 (o.tile .nan) := by
  obtain ⟨d, h, it, g1, g2, h1, h2, g5, g6, g7⟩ := decodes_tiles (floatTiles_decoded p)
  obtain ⟨e1, e2, e3, e4⟩ := of_decide_eq_true g7
  have hct : d.colorType = .rgb32F := by rw [colorType_eq, e3, e4]; rfl
  obtain ⟨out, o1, -, o3⟩ := C59_partial o (fuel := 29) (gz := .of fun _ => []) (tile := floatTile) (sc := floatScaling)
    (img := fun i => match i with
      | 2 => .linear 8 (.double 0x4000000000000000) (.double 0x3FF0000000000000)
      | 3 => .nan
      | _ => .linear 7 (.double 0x3FF0000000000000) (.double 0))
    (buf := buf) g1 g2 (by rw [h1]; rfl) g6 (by rw [h1, h2]; exact floatTiles_legal.1)
    (by rw [h1, h2]; exact floatTiles_legal.2) (by rw [h1]; exact floatTiles_one.aligned _)
    (by rw [h2]; exact floatTiles_table h1) (fun _ _ => List.prefix_refl _) (by rw [h1]; decide) (by decide)
    (by rw [h1, h2]; exact floatTiles_tiles) (by decide) (by rw [h1]; decide) g5
    (by rw [e1, e2, hct, hb]; rfl) (by rw [h1]; decide) (by intro h; cases h)
    (fun nblock _ => .inr fun r _ => by unfold floatTile; split <;> simp [Smooth])
    (.run (by decide) (by decide) rfl)
  rw [e1, e2, e3, hct] at o3
  exact ⟨d, out, g1, o1, o3 2 (by decide) 0 (by decide), o3 3 (by decide) 2 (by decide)⟩

/-- Of an image of two columns, which are its tiles, the second pixel that is shown is that under the first one. -/
example : ∃ d out, Decoder.new .wrapping 3 ⟨columnsFile, 0⟩ = some (.ok d) ∧
    d.readImage .wrapping (.of fun _ => []) 9 sampleOps (List.replicate 8 9) = some (.ok out) ∧
    ∀ i < 4, sampleAt 2 out i =
      sampleOps.tileSample {} .i16 ((fun i : Nat => if i % 2 = 0 then TilePixel.int 7 else .int 5) ([0, 2, 1, 3][i]?.getD 0)) := by
  obtain ⟨d, h, it, g1, g2, h1, h2, g5, g6, g7⟩ := decodes_tiles columns_decoded
  obtain ⟨e1, e2, e3, e4, e5⟩ := of_decide_eq_true g7
  have hct : d.colorType = .l16 := by rw [colorType_eq, e3, e4]; rfl
  have hunit : columnsFile.drop 5760 =
      [0, 0, 0, 5, 0, 0, 0, 0, 0, 0, 0, 5, 0, 0, 0, 5, 0, 0, 0, 7, 0, 0, 0, 0, 5, 0] := by decide +kernel
  obtain ⟨out, o1, -, o3⟩ := C59_exact (fuel := 9) (gz := .of fun _ => []) (tile := fun r => if r = 0 then [7, 7] else [5, 5])
    (sc := fun _ => ⟨.double 0, .double 0, none⟩) (img := fun i => if i % 2 = 0 then .int 7 else .int 5) sampleOps
    (buf := List.replicate 8 9) g1 g2 (z := columnsImage) (by rw [h1]; rfl) g6
    (by rw [h1, h2]; exact legal_sample (by decide) (by decide) (by decide) (by decide) (by decide +kernel))
    (by rw [h1, h2]; decide +kernel)
    (by rw [h1]; refine Spec.OneValue.aligned ?_ _; intro ty rep h; simp [columnsTable] at h)
    (by
      refine ⟨by rw [h1]; exact .inl rfl, ?_, by decide, by decide, fun hf => absurd hf (by decide), rfl⟩
      rw [h1, h2]
      change ∀ r < 2, columnsTable.theap + (descriptor columnsTable (columnsFile.drop 5760) r 0).2 +
        (descriptor columnsTable (columnsFile.drop 5760) r 0).1 ≤ (columnsFile.drop 5760).length
      rw [hunit]
      decide)
    (fun _ _ => List.prefix_refl _) (by rw [h1]; decide) (by decide)
    (by
      rw [h1, h2]
      refine ⟨by decide, rfl, by decide, ?_, ?_, ?_⟩
      · intro r hr v hv
        split at hv <;> simp at hv <;> subst hv <;> simp [InType, columnsImage]
      · intro r hr
        have hr : r = 0 ∨ r = 1 := by change r < 2 at hr; omega
        change Spec.Holds _ _ _ (heapArray columnsTable (columnsFile.drop 5760) r 0)
        rw [hunit]
        rcases hr with rfl | rfl
        · exact rice_pair 7 (.inl rfl)
        · exact rice_pair 5 (.inr rfl)
      · intro nblock h
        cases h
        decide)
    (by decide) (by rw [h1]; decide) g5 (by rw [e1, e2, hct]; rfl) (by rw [h1]; decide) (by intro h; cases h)
    (fun _ _ => .inl rfl) (by decide)
  refine ⟨d, out, g1, o1, fun i hi => ?_⟩
  have := o3 i (by rw [e1, e2]; exact hi) 0 (by rw [hct]; decide)
  rw [e1, e2, e3, hct, show channels .l16 = 1 from rfl, Nat.mul_one, Nat.add_zero, show valueIndex false (2 * 2) i 0 = i from rfl,
    show tileOrder columnsImage.zNaxisn columnsImage.zTilen = [0, 2, 1, 3] from by decide] at this
  exact this

/-- **C59** fails: the two columns of an image, which are its tiles, are shown as rows. -/
theorem C59_fails : ¬ C59_statement := by
  intro hall
  obtain ⟨d, h, it, g1, g2, h1, h2, g5, g6, g7⟩ := decodes_tiles columns_decoded
  obtain ⟨e1, e2, e3, e4, e5⟩ := of_decide_eq_true g7
  have hct : d.colorType = .l16 := by rw [colorType_eq, e3, e4]; rfl
  have hunit : columnsFile.drop 5760 =
      [0, 0, 0, 5, 0, 0, 0, 0, 0, 0, 0, 5, 0, 0, 0, 5, 0, 0, 0, 7, 0, 0, 0, 0, 5, 0] := by decide +kernel
  obtain ⟨out, o1, -, o3⟩ := hall .wrapping 3 _ d h columnsImage it (.of fun _ => []) 9
    (fun r => if r = 0 then [7, 7] else [5, 5]) (fun _ => ⟨.double 0, .double 0, none⟩)
    (fun i => if i % 2 = 0 then .int 7 else .int 5) {} sampleOps (List.replicate 8 9) g1 g2 (by rw [h1]; rfl) g6
    (by rw [h1, h2]; exact legal_sample (by decide) (by decide) (by decide) (by decide) (by decide +kernel))
    (by rw [h1, h2]; decide +kernel)
    (by
      rw [h1]
      intro ty rep h
      simp [columnsTable] at h)
    (by
      refine ⟨by rw [h1]; exact .inl rfl, ?_, by decide, by decide, fun hf => absurd hf (by decide), rfl⟩
      rw [h1, h2]
      change ∀ r < 2, columnsTable.theap + (descriptor columnsTable (columnsFile.drop 5760) r 0).2 +
        (descriptor columnsTable (columnsFile.drop 5760) r 0).1 ≤ (columnsFile.drop 5760).length
      rw [hunit]
      decide)
    (fun _ _ => List.prefix_refl _) (by rw [h1]; decide) (by decide)
    (by
      rw [h1, h2]
      refine ⟨by decide, rfl, by decide, ?_, ?_, ?_⟩
      · intro r hr v hv
        split at hv <;> simp at hv <;> subst hv <;> simp [InType, columnsImage]
      · intro r hr
        have hr : r = 0 ∨ r = 1 := by change r < 2 at hr; omega
        change Spec.Holds _ _ _ (heapArray columnsTable (columnsFile.drop 5760) r 0)
        rw [hunit]
        rcases hr with rfl | rfl
        · exact rice_pair 7 (.inl rfl)
        · exact rice_pair 5 (.inr rfl)
      · intro nblock h
        cases h
        decide)
    (by decide) (by rw [h1]; decide) g5 (by rw [e1, e2, hct]; rfl)
  rw [e5] at o1
  injection o1 with o1
  injection o1 with o1
  subst o1
  have := o3 1 (by rw [e1, e2]; decide) 0 (by rw [hct]; decide)
  rw [e1, e2, e3, hct] at this
  exact absurd this (by decide +kernel)

end Fitsrs

import Verif.Lemmas.Writer
import Verif.Props.C44_C45
/-
Lemmas about tile-compressed images as they are written.
-/

namespace Fitsrs
open Spec

section
variable {w : WrittenTiles} {g : Heading} {p : Profile} {gz : Gunzip} {fuel : Nat}

/-- The compressed bytes of a tile, in the table. -/
theorem compressed_at (hr : w.table.RowsOk) (hd : w.Described g) {x : BinTable} (hx : w.table.Shown g x)
    {unit after : List UInt8} (hu : unit = w.table.data ++ after) {r : Nat} (h1 : r < w.table.rows.length)
    (hne : w.compressed r ≠ []) :
    IsArray x w.column ∧ x.theap + (descriptor x unit r w.column).2 + (descriptor x unit r w.column).1 ≤ unit.length ∧
      heapArray x unit r w.column = w.compressed r := by
  obtain ⟨e1, -, e3, -, -, e6, -⟩ := hx
  obtain ⟨wide, hcol⟩ := hd.array
  obtain ⟨h2, hcol⟩ := List.getElem?_eq_some_iff.1 hcol
  have h3 : w.column < w.table.rows[r].length := by rw [(hr _ (List.getElem_mem h1)).1]; exact h2
  obtain ⟨off, vs, g1, g2, g3, g4, g5⟩ := array_at hr hu h1 h2 h3 hcol
  have hform : x.tforms[w.column]? = some (WrittenColumn.array wide .B).form := by
    rw [e1, forms_get h2, hcol]
  have hdesc : descriptor x unit r w.column = (vs.length, off) := by
    unfold descriptor
    dsimp only
    rw [hform, e1, e3]
    cases wide with
    | false => exact Prod.ext g3 g4
    | true => exact Prod.ext g3 g4
  have hcomp : w.compressed r = vs.flatMap cellBytes := by
    unfold WrittenTiles.compressed
    rw [List.getD_eq_getElem?_getD, List.getD_eq_getElem?_getD, List.getElem?_eq_getElem h1]
    dsimp only [Option.getD]
    rw [List.getElem?_eq_getElem h3]
    dsimp only
    rw [g1]
    rfl
  have hvs : vs ≠ [] := by
    rintro rfl
    exact hne hcomp
  obtain ⟨k1, k2⟩ := g5 hvs
  have hlen : (vs.flatMap cellBytes).length = vs.length := by
    rw [cells_length g2]
    exact Nat.mul_one _
  refine ⟨?_, ?_, ?_⟩
  · cases wide with
    | false => exact .inl hform
    | true => exact .inr hform
  · rw [hdesc, e6, hu, List.length_append]
    have : elemBytes .B = 1 := rfl
    rw [this] at k2
    dsimp only
    omega
  · unfold heapArray
    rw [hdesc, e6, hcomp, ← hlen]
    exact k1.bytesAt

/-- The values of the named columns. -/
theorem named_written (hr : w.table.RowsOk) {x : BinTable} (hx : w.table.Shown g x)
    {unit after : List UInt8} (hu : unit = w.table.data ++ after) {name : Str} {r : Nat} {v : Cell}
    (hv : v ≠ .logical false) (h : w.Holds g name r v) : NamedValue x unit name r v := by
  obtain ⟨e1, e2, e3, -⟩ := hx
  obtain ⟨c, n1, n2, row, hrow, hc⟩ := h
  obtain ⟨h1, rfl⟩ := List.getElem?_eq_some_iff.1 hrow
  obtain ⟨h3, hc⟩ := List.getElem?_eq_some_iff.1 hc
  have hlen := (hr _ (List.getElem_mem h1)).1
  have h2 : c < w.table.columns.length := by omega
  have hok := (hr _ (List.getElem_mem h1)).2 c h2 h3
  have hat := field_at hr (unit := unit) (after := w.table.gap ++ w.table.heap ++ after)
    (by rw [hu]; simp [WrittenTable.data]) h1 h3
  refine ⟨c, ?_, ?_, ?_⟩
  · rw [e1]
    unfold WrittenTable.forms
    rw [List.length_map]
    exact h2
  · unfold Selects
    rw [e2]
    exact ⟨n1, n2⟩
  · unfold cellValues
    dsimp only
    rw [show x.tforms[c]? = some w.table.columns[c].form by rw [e1]; exact forms_get h2]
    rw [hc] at hok hat
    cases hcol : w.table.columns[c] with
    | array wd ty => rw [hcol] at hok; exact hok.elim
    | plain ty rep =>
      rw [hcol] at hok
      show elements unit ty c _ (Spec.count ty rep) = _
      rw [← hok.1, e1, e3]
      exact elements_written hat (fun y hy => ⟨hok.2 y hy, by
        rw [List.mem_singleton.1 hy]
        exact hv⟩)

theorem IsScalar.not_false {v : Cell} {s : Scalar} (h : IsScalar v s) : v ≠ .logical false := by
  rintro rfl
  exact h

theorem IsInteger.not_false {v : Cell} {b : Int} (h : IsInteger v b) : v ≠ .logical false := by
  rintro rfl
  exact h

/-- The scalings. -/
theorem scaling_written (hr : w.table.RowsOk) {x : Header BinTable} (hx : w.table.Shown g x.xtension)
    (hm : ∀ k, x.values.get k = g.lookup k) {unit after : List UInt8} (hu : unit = w.table.data ++ after) {r : Nat}
    {s : Scaling} (h : w.Scaled g r s) : HasScaling x unit r s := by
  have e2 := hx.2.1
  obtain ⟨⟨v1, h1, h1'⟩, ⟨v2, h2, h2'⟩, h3, h4⟩ := h
  refine ⟨⟨v1, named_written hr hx hu (IsScalar.not_false h1') h1, h1'⟩,
    ⟨v2, named_written hr hx hu (IsScalar.not_false h2') h2, h2'⟩, fun hc => ?_, fun hc b => ?_⟩
  · rw [e2] at hc
    obtain ⟨v, b, k1, k2, k3⟩ := h3 hc
    exact ⟨v, b, named_written hr hx hu (IsInteger.not_false k2) k1, k2, k3⟩
  · rw [e2] at hc
    rw [h4 hc b]
    unfold HasInt Heading.Says
    rw [hm]

theorem aligned_written {w : WrittenTiles} {x : BinTable} {z : TileCompressedImage} (hx : x.tforms = w.table.forms)
    (hz : z.dataCompressedIdx = w.column) (hb : z.zBitpix = w.bitpix)
    (h : ∀ (c : Nat) ty rep, w.table.columns[c]? = some (.plain ty rep) →
      ty ≠ .X ∧ 0 < rep ∧ (c < w.column ∨ IsFloat w.bitpix → count ty rep = 1)) : Aligned x z := by
  have key : ∀ (c : Nat) ty rep, x.tforms[c]? = some (.plain ty rep) → w.table.columns[c]? = some (.plain ty rep) := by
    intro c ty rep hc
    rw [hx] at hc
    unfold WrittenTable.forms at hc
    rw [List.getElem?_map] at hc
    obtain ⟨col, h1, h2⟩ := Option.map_eq_some_iff.1 hc
    rw [h1]
    cases col with
    | plain ty' rep' =>
      injection h2 with e1 e2
      subst e1 e2
      rfl
    | array wide ty' => cases wide <;> cases h2
  refine ⟨?_, ?_⟩
  · intro ty rep hm
    obtain ⟨c, hc⟩ := List.getElem?_of_mem hm
    obtain ⟨g1, g2, -⟩ := h c ty rep (key c ty rep hc)
    exact ⟨g2, fun e => absurd e g1⟩
  · intro c hu b hbc ty rep hc
    refine (h b ty rep (key b ty rep hc)).2.2 ?_
    rcases hu with rfl | ⟨hf, -⟩
    · exact .inl (by rw [← hz]; exact hbc)
    · exact .inr (by rw [← hb]; exact hf)

/-- The tiles of a written compressed image. -/
theorem tiles_written {x : Hdu BinTable} {data : List UInt8}
    (hx : (Body.tiles w).Shown g (.binTable x)) (hm : ∀ k, x.header.values.get k = g.lookup k)
    (hd : (Body.tiles w).Described g) (hb : (Body.tiles w).ReadableBy p gz fuel) {after : List UInt8}
    (hu : data.drop x.dataOffset = w.table.data ++ after) :
    ∃ z, x.header.xtension.zImage = some z ∧ z.zBitpix = w.bitpix ∧ Aligned x.header.xtension z ∧
      TileTable x.header z (data.drop x.dataOffset) w.scaling ∧
      Tiles x.header.xtension z (data.drop x.dataOffset) gz w.tile ∧
      x.header.xtension.naxis1 < fuel ∧ 2 * Spec.product z.zTilen + 1 ≤ fuel ∧
      (∀ r < x.header.xtension.naxis2, tilePixels z.zNaxisn z.zTilen r = Spec.product z.zTilen) ∧
      (z.zBitpix = .u8 → z.zCmpType ≠ .gzip2) ∧
      ∀ nblock, z.zCmpType = .rice nblock → p = .wrapping ∨ ∀ r < x.header.xtension.naxis2, Smooth (w.tile r) := by
  obtain ⟨hs, z, hz, z1, z2, z3, z4, z5, z6⟩ : _ ∧ _ := hx
  obtain ⟨⟨-, -, -, -, -, hrows⟩, hd⟩ : _ ∧ _ := hd
  obtain ⟨b1, b2, b3, b4, b5, b6, b7, b8, b9⟩ : _ ∧ _ := hb
  have e2 := hs.2.1
  have e3 := hs.2.2.1
  have e4 := hs.2.2.2.1
  have hone : Aligned x.header.xtension z := aligned_written hs.1 z5 z2 b2
  have hcomp : ∀ r < w.table.rows.length, _ := fun r hr => compressed_at hrows hd hs hu hr (b3 r hr)
  have hpos : ∀ t ∈ z.zTilen, 0 < t := by rw [z4]; exact hd.positive
  have hsmall : 4 * Spec.product z.zTilen < 2 ^ 63 := by rw [z4]; exact b4
  have htt : TileTable x.header z (data.drop x.dataOffset) w.scaling :=
    { array := by
        obtain ⟨wide, hcol⟩ := hd.array
        obtain ⟨h2, hcol⟩ := List.getElem?_eq_some_iff.1 hcol
        have hform : x.header.xtension.tforms[w.column]? = some (WrittenColumn.array wide .B).form := by
          rw [hs.1, forms_get h2, hcol]
        rw [z5]
        cases wide with
        | false => exact .inl hform
        | true => exact .inr hform
      heap := by
        intro r hr
        rw [e4] at hr
        rw [z5]
        exact (hcomp r hr).2.1
      axes := hpos
      small := hsmall
      scaled := by
        intro hf r hr
        rw [e4] at hr
        rw [z2] at hf
        exact scaling_written hrows hs hm hu (hd.scaled hf r hr)
      plain := by rw [z6]; rfl }
  have hti : Tiles x.header.xtension z (data.drop x.dataOffset) gz w.tile :=
    { rows := by rw [e4, z3, z4]; exact hd.rows
      axes := by rw [z3, z4]; exact hd.ztiles.symm
      size := by rw [e4, z3, z4]; exact hd.tiles
      range := by rw [e4, z2]; exact hd.range
      holds := by
        intro r hr
        rw [e4] at hr
        rw [z1, z5, (hcomp r hr).2.2]
        exact b1 r hr
      blocks := by
        intro n hn
        rw [z1] at hn
        rw [z4]
        exact (b9 n hn).1 }
  exact ⟨z, hz, z2, hone, htt, hti, by rw [e3]; exact b5, by rw [z4]; exact b6, by rw [e4, z3, z4]; exact b7,
    by rw [z2, z1]; exact b8, fun n hn => by
      rw [z1] at hn
      rw [e4]
      exact (b9 n hn).2⟩

/-- A compressed image that can be read. -/
theorem tiles_open {f f' : Fits} {x : Hdu BinTable} (hn : f.next p = (some (.ok (.binTable x)), f'))
    (hx : (Body.tiles w).Shown g (.binTable x)) (hm : ∀ k, x.header.values.get k = g.lookup k)
    (hd : (Body.tiles w).Described g) (hb : (Body.tiles w).ReadableBy p gz fuel) (hg : Extends gz)
    (hl : Legal x.header.xtension f.rd.data x.dataOffset) {after : List UInt8}
    (hu : f.rd.data.drop x.dataOffset = w.table.data ++ after)
    (hc : Complete x.header.xtension f.rd.data x.dataOffset) :
    ∃ it z, x.header.xtension.zImage = some z ∧ f'.getTiles p x z = .ok it ∧
      ∃ (T : Tab) (S : Tiling T gz fuel it), T.Ok ∧ T.p = p ∧ T.x = x.header.xtension ∧ T.data = f.rd.data ∧
        T.start = x.dataOffset ∧ T.cols = List.range T.x.tforms.length ∧
        T.start + T.x.naxis1 * T.x.naxis2 ≤ T.data.length ∧
        (∀ r < T.x.naxis2, (rowValues T.heap T.x T.unit T.cols r).length < fuel) ∧
        S.m = T.x.naxis2 ∧ S.Left w.pixels it := by
  have hx0 := hx
  have hd0 := hd
  have hb0 := hb
  obtain ⟨hs, z, hz, z1, z2, z3, z4, z5, z6⟩ : _ ∧ _ := hx
  obtain ⟨-, hd⟩ : _ ∧ _ := hd
  obtain ⟨b1, b2, b3, b4, b5, b6, b7, b8, b9⟩ : _ ∧ _ := hb
  have e2 := hs.2.1
  have e3 := hs.2.2.1
  have e4 := hs.2.2.2.1
  have hpos : ∀ t ∈ z.zTilen, 0 < t := by rw [z4]; exact hd.positive
  have hsmall : 4 * Spec.product z.zTilen < 2 ^ 63 := by rw [z4]; exact b4
  obtain ⟨g1, g2, g3, -⟩ := next_ok_state hn
  replace g2 : f'.rd.pos = x.dataOffset := g2
  replace g3 : f'.posStart = x.dataOffset := g3
  obtain ⟨it, hit⟩ : ∃ it, f'.getTiles p x z = .ok it := by
    obtain ⟨os, o1, o2⟩ := new_ok (p := p) (rd := f'.rd) hl.width hl.small (by rw [g2]; exact hl.size)
    unfold Fits.getTiles
    rw [g3, ← g2, o2, Res.bind_ok]
    unfold TileIt.new
    rw [product_ok (by unfold two64; omega) hpos, Nat.one_mul, Res.bind_ok, umul_ok (by unfold two64; omega), Res.bind_ok,
      if_neg (by omega)]
    have hkw : IsFloat w.bitpix → ∃ k, FloatKw.new x.header z = .ok k := by
      intro hf
      obtain ⟨n1, n2⟩ := hd.scaleNames hf
      unfold FloatKw.new
      rw [e2]
      cases h1 : findFieldByTtype (g.names w.table.columns.length) "ZSCALE".toList with
      | none => exact absurd n1 (findField_none.1 h1)
      | some i =>
        cases h2 : findFieldByTtype (g.names w.table.columns.length) "ZZERO".toList with
        | none => exact absurd n2 (findField_none.1 h2)
        | some j => exact ⟨_, rfl⟩
    have h64 := hd.bitpix64
    rw [z2]
    unfold IsFloat at hkw
    cases hbp : w.bitpix with
    | u8 => exact ⟨_, rfl⟩
    | i16 => exact ⟨_, rfl⟩
    | i32 => exact ⟨_, rfl⟩
    | i64 => exact absurd hbp h64
    | f32 =>
      obtain ⟨k, hk⟩ := hkw (.inl hbp)
      rw [hk]
      exact ⟨_, rfl⟩
    | f64 =>
      obtain ⟨k, hk⟩ := hkw (.inr hbp)
      rw [hk]
      exact ⟨_, rfl⟩
  refine ⟨it, z, hz, hit, ?_⟩
  obtain ⟨z', hz', -, hone, htt, hti, c1, c2, c3, c4, c5⟩ := tiles_written (p := p) (gz := gz) (fuel := fuel) hx0 hm hd0 hb0 hu
  obtain rfl : z = z' := Option.some.inj (hz.symm.trans hz')
  have := image_tiling (gz := gz) (fuel := fuel) ⟨hn, hz, hit⟩ hl hc hone htt hg c1 c2 hti c3 c4 c5
  unfold imagePixels at this
  rw [e4, z2] at this
  exact this

end

end Fitsrs

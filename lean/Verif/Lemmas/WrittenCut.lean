import Verif.Spec.WriterCut
import Verif.Props.C44
import Verif.Props.C71_C72
/-
Lemmas about compressed images with cut tiles as they are written.
-/

namespace Fitsrs
open Spec

section
variable {w : WrittenTiles} {g : Heading} {gz : Gunzip} {fuel : Nat}

/-- The tiles of a written compressed image. -/
theorem tiles_written_cut {x : Hdu BinTable} {data : List UInt8}
    (hx : (Body.tiles w).Shown g (.binTable x)) (hm : ∀ k, x.header.values.get k = g.lookup k)
    (hd : (Body.tiles w).Described g) (hb : (Body.tiles w).CutBy gz fuel) {after : List UInt8}
    (hu : data.drop x.dataOffset = w.table.data ++ after) :
    ∃ z, x.header.xtension.zImage = some z ∧ z.zBitpix = w.bitpix ∧ z.zTilen = w.tileAxes ∧ z.zCmpType = w.cmp ∧
      Aligned x.header.xtension z ∧
      TileTable x.header z (data.drop x.dataOffset) w.scaling ∧
      Tiles x.header.xtension z (data.drop x.dataOffset) gz w.tile ∧
      x.header.xtension.naxis1 < fuel ∧ 2 * Spec.product z.zTilen + 1 ≤ fuel ∧
      (z.zBitpix = .u8 → z.zCmpType ≠ .gzip2) ∧
      (z.zCmpType = .gzip1 ∨ z.zCmpType = .gzip2 → ∀ r < x.header.xtension.naxis2,
        (gz (tileBytes x.header.xtension (data.drop x.dataOffset) r z.dataCompressedIdx)).length = 4 * (w.tile r).length) := by
  obtain ⟨hs, z, hz, z1, z2, z3, z4, z5, z6⟩ : _ ∧ _ := hx
  obtain ⟨⟨-, -, -, -, -, hrows⟩, hd⟩ : _ ∧ _ := hd
  obtain ⟨b1, b2, b3, b4, b5, b6, b8, b9, b10⟩ : _ ∧ _ := hb
  have e2 := hs.2.1
  have e3 := hs.2.2.1
  have e4 := hs.2.2.2.1
  have hone : Aligned x.header.xtension z := aligned_written hs.1 z5 z2 b2
  have hcomp : ∀ r < w.table.rows.length, _ := fun r hr => compressed_at hrows hd hs hu hr (b3 r hr)
  have hpos : ∀ t ∈ z.zTilen, 0 < t := by rw [z4]; exact hd.positive
  have hsmall : 4 * Spec.product z.zTilen < 2 ^ 63 := by rw [z4]; exact b4
  have htt : TileTable x.header z (data.drop x.dataOffset) w.scaling :=
    { array := by
        obtain ⟨wide, hcol⟩ := hd.array
        obtain ⟨h2, hcol⟩ := List.getElem?_eq_some_iff.1 hcol
        have hform : x.header.xtension.tforms[w.column]? = some (WrittenColumn.array wide .B).form := by
          rw [hs.1, forms_get h2, hcol]
        rw [z5]
        cases wide with
        | false => exact .inl hform
        | true => exact .inr hform
      heap := by
        intro r hr
        rw [e4] at hr
        rw [z5]
        exact (hcomp r hr).2.1
      axes := hpos
      small := hsmall
      scaled := by
        intro hf r hr
        rw [e4] at hr
        rw [z2] at hf
        exact scaling_written hrows hs hm hu (hd.scaled hf r hr)
      plain := by rw [z6]; rfl }
  have hti : Tiles x.header.xtension z (data.drop x.dataOffset) gz w.tile :=
    { rows := by rw [e4, z3, z4]; exact hd.rows
      axes := by rw [z3, z4]; exact hd.ztiles.symm
      size := by rw [e4, z3, z4]; exact hd.tiles
      range := by rw [e4, z2]; exact hd.range
      holds := by
        intro r hr
        rw [e4] at hr
        rw [z1, z5, (hcomp r hr).2.2]
        exact b1 r hr
      blocks := by
        intro n hn
        rw [z1] at hn
        rw [z4]
        exact b9 n hn }
  refine ⟨z, hz, z2, z4, z1, hone, htt, hti, by rw [e3]; exact b5, by rw [z4]; exact b6, by rw [z2, z1]; exact b8, ?_⟩
  intro hc r hr
  rw [e4] at hr
  rw [z1] at hc
  unfold tileBytes
  rw [z5, (hcomp r hr).2.2]
  exact b10 hc r hr _

end

/-- A call before a tile that cannot be decompressed leaves the reader in the file. -/
theorem Tiling.next_stop_place {T : Tab} {gz : Gunzip} {fuel : Nat} {it0 : TileIt} (S : Tiling T gz fuel it0) (hT : T.Ok)
    (hc : T.cols = List.range T.x.tforms.length)
    (hmain : T.start + T.x.naxis1 * T.x.naxis2 ≤ T.data.length) (hsmall : T.data.length < 2 ^ 63)
    (hf : ∀ r < T.x.naxis2, (rowValues T.heap T.x T.unit T.cols r).length < fuel) {k : Nat} {it : TileIt}
    (hk : k < T.x.naxis2) (h : S.Before k it) {e : Err} (hd : TileIt.decompress T.p gz fuel it0.cmp S.n (4 * S.n)
      (T.data.drop (T.start + T.x.theap + S.off k)) = some (.err e)) :
    ∃ it', it.next T.p gz fuel = some (.ok none, it') ∧ it'.rows.data.rd.data = T.data ∧
      it'.rows.data.rd.pos < 2 ^ 63 := by
  have e : T.rowAt k = rowValues T.heap T.x T.unit T.cols k := if_pos hk
  obtain ⟨t', h1, h2⟩ := collect_row (acc := []) hT hmain hk h.state (fuel := fuel) (by rw [e]; exact hf k hk)
  rw [List.nil_append] at h1
  have hn : it.rows.next T.p fuel = some (.ok (some (T.rowAt k)), ⟨t', k + 1⟩) := by
    unfold TableRows.next
    rw [h.row, h1]
  obtain ⟨hrd, hctx⟩ := state_pos hT hc h2
  have hmul : (k + 1) * T.x.naxis1 ≤ T.x.naxis1 * T.x.naxis2 := by
    rw [Nat.mul_comm]; exact Nat.mul_le_mul_left _ hk
  have hsz := hT.readable.size
  have hin := S.inside k hk
  have hs : (Reader.mk T.data (T.start + (k + 1) * T.x.naxis1)).seekRelative
      ((T.x.theap : Int) + S.off k - ((k + 1) * T.x.naxis1 : Nat)) =
      (.ok (), ⟨T.data, T.start + T.x.theap + S.off k⟩) := by
    exact seekRelative_nat (T.start + T.x.theap + S.off k) (by dsimp only; omega) (by unfold two64; omega)
  unfold TileIt.next
  rw [if_pos h.remaining]
  unfold TileIt.load
  rw [hn]
  dsimp only
  unfold TileIt.openTile
  dsimp only
  rw [h.idx, S.offset k hk, h.zTile, S.prod]
  dsimp only
  rw [h.kw, S.kw k hk]
  dsimp only
  rw [hctx, tileOffset_ok (by omega) (by omega)]
  dsimp only
  unfold TileIt.fill
  dsimp only
  rw [hrd, hs]
  dsimp only
  rw [h.cmp, h.buf, hd]
  refine ⟨_, rfl, rfl, ?_⟩
  dsimp only
  omega

/-- The states `R i` of an opened data unit after `i` calls of `next`, as far as `limit` allows, the `i`-th of which gives `item i`. -/
structure Spec.ReadingTo (p : Profile) (gz : Gunzip) (fuel : Nat) (data : List UInt8)
    (g : Outcome) (R : Nat → OpenUnit → Prop) : Prop where
  step : ∀ i o, R i o → g.limit (i + 1) → ∃ o', Session.nextItem p gz fuel o = some (.ok (g.item i), o') ∧ R (i + 1) o'
  place : ∀ i o, R i o → o.rd.data = data ∧ o.rd.pos < 2 ^ 63

theorem Spec.Reading.to {p : Profile} {gz : Gunzip} {fuel : Nat} {data : List UInt8} {start n : Nat} {item : Nat → Seen}
    {R : Nat → OpenUnit → Prop} (h : Reading p gz fuel data start n item R) (hl : start + n < 2 ^ 63) :
    ReadingTo p gz fuel data ⟨item, fun _ => True⟩ R :=
  ⟨fun i o hi _ => h.step i o hi, fun i o hi => ⟨(h.place i o hi).1, Nat.lt_of_le_of_lt (h.place i o hi).2.2 hl⟩⟩

theorem session_nexts_to {p : Profile} {gz : Gunzip} {fuel : Nat} {data : List UInt8}
    {g : Outcome} {R : Nat → OpenUnit → Prop} (hR : ReadingTo p gz fuel data g R) (k i : Nat) {s : Session}
    {o : OpenUnit} (h : s.opened = some o) (hi : R i o) (hl : ∀ j ≤ i + k, g.limit j) :
    ∃ (s' : Session) (o' : OpenUnit), s'.opened = some o' ∧ R (i + k) o' ∧ s'.fits = s.fits ∧ s'.hdus = s.hdus ∧
      ∀ cs, s.run p gz fuel (List.replicate k .next ++ cs) =
        (List.range k).map (fun j => some (.ok (g.item (i + j)))) ++ s'.run p gz fuel cs := by
  induction k generalizing i s o with
  | zero => exact ⟨s, o, h, hi, rfl, rfl, fun cs => rfl⟩
  | succ k ih =>
    obtain ⟨o1, e, h1⟩ := hR.step i o hi (hl _ (by omega))
    obtain ⟨s', o', g1, g2, g3, g4, g5⟩ := ih (i + 1) (s := s.put o1) rfl h1 (fun j hj => hl j (by omega))
    refine ⟨s', o', g1, by rw [show i + (k + 1) = i + 1 + k by omega]; exact g2, g3, g4, fun cs => ?_⟩
    rw [List.replicate_succ, List.cons_append, session_next h e, g5, List.range_succ_eq_map, List.map_cons, List.map_map,
      List.cons_append]
    congr 1
    congr 1
    apply List.map_congr_left
    intro j _
    show some (Res.ok (g.item (i + 1 + j))) = some (.ok (g.item (i + (j + 1))))
    rw [show i + 1 + j = i + (j + 1) by omega]

/-- A compressed image in a build without overflow checks: its tiles are read as whole ones. -/
theorem tiles_open_cut {w : WrittenTiles} {g : Heading} {gz : Gunzip} {fuel : Nat} {f f' : Fits} {x : Hdu BinTable}
    (hn : f.next .wrapping = (some (.ok (.binTable x)), f'))
    (hx : (Body.tiles w).Shown g (.binTable x)) (hm : ∀ k, x.header.values.get k = g.lookup k)
    (hd : (Body.tiles w).Described g) (hb : (Body.tiles w).CutBy gz fuel) (hg : Extends gz)
    (hl : Legal x.header.xtension f.rd.data x.dataOffset) {after : List UInt8}
    (hu : f.rd.data.drop x.dataOffset = w.table.data ++ after)
    (hc : Complete x.header.xtension f.rd.data x.dataOffset) (hsize : f.rd.data.length < 2 ^ 63) :
    ∃ it z out R, x.header.xtension.zImage = some z ∧ f'.getTiles .wrapping x z = .ok it ∧ (Body.tiles w).Gives out ∧
      R 0 (.tiles it) ∧ ReadingTo .wrapping gz fuel f.rd.data out R := by
  have hx0 := hx
  have hd0 := hd
  have hb0 := hb
  obtain ⟨hs, z, hz, z1, z2, z3, z4, z5, z6⟩ : _ ∧ _ := hx
  obtain ⟨-, hd⟩ : _ ∧ _ := hd
  obtain ⟨b1, b2, b3, b4, b5, b6, b8, b9, b10⟩ : _ ∧ _ := hb
  have e2 := hs.2.1
  have e3 := hs.2.2.1
  have e4 := hs.2.2.2.1
  have hpos : ∀ t ∈ z.zTilen, 0 < t := by rw [z4]; exact hd.positive
  have hsmall : 4 * Spec.product z.zTilen < 2 ^ 63 := by rw [z4]; exact b4
  obtain ⟨g1, g2, g3, -⟩ := next_ok_state hn
  replace g2 : f'.rd.pos = x.dataOffset := g2
  replace g3 : f'.posStart = x.dataOffset := g3
  obtain ⟨it, hit⟩ : ∃ it, f'.getTiles .wrapping x z = .ok it := by
    obtain ⟨os, o1, o2⟩ := new_ok (p := .wrapping) (rd := f'.rd) hl.width hl.small (by rw [g2]; exact hl.size)
    unfold Fits.getTiles
    rw [g3, ← g2, o2, Res.bind_ok]
    unfold TileIt.new
    rw [product_ok (by unfold two64; omega) hpos, Nat.one_mul, Res.bind_ok, umul_ok (by unfold two64; omega), Res.bind_ok,
      if_neg (by omega)]
    have hkw : IsFloat w.bitpix → ∃ k, FloatKw.new x.header z = .ok k := by
      intro hf
      obtain ⟨n1, n2⟩ := hd.scaleNames hf
      unfold FloatKw.new
      rw [e2]
      cases h1 : findFieldByTtype (g.names w.table.columns.length) "ZSCALE".toList with
      | none => exact absurd n1 (findField_none.1 h1)
      | some i =>
        cases h2 : findFieldByTtype (g.names w.table.columns.length) "ZZERO".toList with
        | none => exact absurd n2 (findField_none.1 h2)
        | some j => exact ⟨_, rfl⟩
    have h64 := hd.bitpix64
    rw [z2]
    unfold IsFloat at hkw
    cases hbp : w.bitpix with
    | u8 => exact ⟨_, rfl⟩
    | i16 => exact ⟨_, rfl⟩
    | i32 => exact ⟨_, rfl⟩
    | i64 => exact absurd hbp h64
    | f32 =>
      obtain ⟨k, hk⟩ := hkw (.inl hbp)
      rw [hk]
      exact ⟨_, rfl⟩
    | f64 =>
      obtain ⟨k, hk⟩ := hkw (.inr hbp)
      rw [hk]
      exact ⟨_, rfl⟩
  obtain ⟨z', hz', -, -, -, one, ht, hi, c1, hf', h8, hgz⟩ := tiles_written_cut (gz := gz) (fuel := fuel) hx0 hm hd0 hb0 hu
  obtain rfl : z = z' := Option.some.inj (hz.symm.trans hz')
  have ho : TilesOpened .wrapping f f' x z it := ⟨hn, hz, hit⟩
  have key : ∀ r < x.header.xtension.naxis2, _ := fun r hr =>
    decompress_cut (p := .wrapping) (fuel := fuel) (n := Spec.product z.zTilen) (ty := z.zBitpix)
      (rest := (f.rd.data.drop x.dataOffset).drop (x.header.xtension.theap +
        (descriptor x.header.xtension (f.rd.data.drop x.dataOffset) r z.dataCompressedIdx).2 +
        (descriptor x.header.xtension (f.rd.data.drop x.dataOffset) r z.dataCompressedIdx).1)) hg (hi.holds r hr)
      (hi.range r hr) h8 (by rw [hi.size r hr]; exact tilePixels_le hi.axes r) (fun h => hgz h r hr)
      (fun nblock hb => ⟨hi.blocks nblock hb, hf'⟩) (.inl rfl)
  obtain ⟨m, m1, m2, m3⟩ := first_row (fun r => ∃ e, TileIt.decompress .wrapping gz fuel z.zCmpType (Spec.product z.zTilen)
    (4 * Spec.product z.zTilen)
    (tileBytes x.header.xtension (f.rd.data.drop x.dataOffset) r z.dataCompressedIdx) = some (.err e)) x.header.xtension.naxis2
  have hgood : ∀ r, ∃ raw : List Int, r < m → raw.length = Spec.product z.zTilen ∧ w.tile r <+: raw ∧
      (z.zCmpType = .gzip1 ∨ z.zCmpType = .gzip2 → (w.tile r).length = Spec.product z.zTilen) ∧
      ∃ buf, TileIt.decompress .wrapping gz fuel z.zCmpType (Spec.product z.zTilen) (4 * Spec.product z.zTilen)
        (tileBytes x.header.xtension (f.rd.data.drop x.dataOffset) r z.dataCompressedIdx) = some (.ok buf) ∧
      buf.length = 4 * Spec.product z.zTilen ∧
      ∀ (i : Nat) (v : Int), raw[i]? = some v → TileIt.rawValue z.zBitpix z.zCmpType buf i = .ok v := by
    intro r
    by_cases hr : r < m
    · rcases key r (by omega) with ⟨e, he, -⟩ | ⟨buf, raw, h1, h2, h3, h4, h5, h6⟩
      · exact absurd ⟨e, he⟩ (m2 r hr)
      · exact ⟨raw, fun _ => ⟨h3, h5, h6, buf, h1, h2, h4⟩⟩
    · exact ⟨[], fun h => absurd h hr⟩
  obtain ⟨raw, hraw⟩ := Classical.axiomOfChoice hgood
  obtain ⟨T, S, hT, t1, t2, t3, t4, t5, t6, hb, hn', hSm, hSraw, hpix, hcmp, -, hoff⟩ :=
    tiling' m1 ho hl one ht (fun r hr => (hraw r hr).1) (fun r hr => (hraw r hr).2.2.2)
  have hcols : T.cols = List.range T.x.tforms.length := by rw [t5, t2]
  have hmain : T.start + T.x.naxis1 * T.x.naxis2 ≤ T.data.length := by rw [t2, t3, t4]; exact hc
  have hrf := row_fuel t2 t5 t6 hl.width c1
  have hrest : S.rest 0 = (List.range m).flatMap fun r => (raw r).map (pixelOf w.bitpix (w.scaling r)) := by
    unfold Tiling.rest Tiling.tile
    rw [List.drop_zero, hSm, hSraw, hpix, z2]
  generalize hvs : ((List.range m).flatMap fun r => (raw r).map (pixelOf w.bitpix (w.scaling r))) = vs at hrest
  have hleft : S.Left vs it := .inl ⟨0, Nat.zero_le _, hb, hrest.symm⟩
  have hlen : vs.length = m * Spec.product w.tileAxes := by
    rw [← hvs]
    have : ∀ k ≤ m, ((List.range k).flatMap fun r => (raw r).map (pixelOf w.bitpix (w.scaling r))).length =
        k * Spec.product w.tileAxes := by
      intro k
      induction k with
      | zero => intro _; simp
      | succ k ih =>
        intro hk
        rw [List.range_succ, List.flatMap_append, List.length_append, ih (by omega), List.flatMap_singleton, List.length_map,
          (hraw k (by omega)).1, Nat.succ_mul, z4]
    exact this m (Nat.le_refl _)
  have hfill : w.Filled m raw :=
    { rows := by rw [← e4]; exact m1
      whole := fun r hr => ⟨by rw [← z4]; exact (hraw r hr).1, (hraw r hr).2.1⟩
      gzip := fun hz r hr => by rw [← z4]; exact (hraw r hr).2.2.1 (by rw [z1]; exact hz)
      stop := fun hm => by
        rw [← e4] at hm
        obtain ⟨e, he⟩ := m3 hm
        rw [← z4]
        rcases key m hm with ⟨e', -, hlt⟩ | ⟨buf, _, h1, -⟩
        · exact hlt
        · exact absurd (h1.symm.trans he) (by intro h; cases h) }
  have hgives := Body.Gives.tiles hfill
  rw [hvs] at hgives
  have hsz := hT.readable.size
  refine ⟨it, z, _, fun i o => ∃ t, o = .tiles t ∧ (S.Left (vs.drop i) t ∨
    (vs.length < i ∧ m < w.table.rows.length ∧ t.rows.data.rd.data = T.data ∧ t.rows.data.rd.pos < 2 ^ 63)),
    hz, hit, hgives, ⟨it, rfl, .inl (by rw [List.drop_zero]; exact hleft)⟩, ?_, ?_⟩
  · rintro i o ⟨t, rfl, h⟩ hlim
    dsimp only at hlim
    have hleft : S.Left (vs.drop i) t := by
      rcases h with h | ⟨h1, h2, -⟩
      · exact h
      · have := hlim h2
        omega
    by_cases hi' : i < vs.length
    · rw [List.drop_eq_getElem_cons hi'] at hleft
      obtain ⟨t', e, h'⟩ := hleft.cons hT hcols hmain hrf
      rw [t1] at e
      refine ⟨.tiles t', ?_, t', rfl, .inl h'⟩
      show (t.next .wrapping gz fuel).map _ = some (Res.ok (Seen.tilePixel vs[i]?), _)
      rw [e, List.getElem?_eq_getElem hi']
      rfl
    · have h0 : vs.drop i = [] := List.drop_eq_nil_of_le (by omega)
      rw [h0] at hleft
      by_cases hm : m < w.table.rows.length
      · rw [← e4] at hm
        obtain ⟨e, he⟩ := m3 hm
        obtain ⟨t', h1, h2, h3⟩ := S.next_stop_place hT hcols hmain (by rw [t3]; exact hsize) hrf (by rw [hSm, t2]; exact hm) hleft.nil (e := e) (by
          rw [hSm, hn', t1, hcmp, t2, t3, t4, hoff, drop_heap]
          exact he)
        rw [t1] at h1
        rw [e4] at hm
        refine ⟨.tiles t', ?_, t', rfl, .inr ⟨by omega, hm, h2, h3⟩⟩
        show (t.next .wrapping gz fuel).map _ = some (Res.ok (Seen.tilePixel vs[i]?), _)
        rw [h1, List.getElem?_eq_none (by omega)]
        rfl
      · have hm' : S.m = T.x.naxis2 := by rw [hSm, t2]; omega
        obtain ⟨t', h1, h2⟩ := hleft.step hT hcols hmain hrf (by omega) hm'
        rw [t1] at h1
        refine ⟨.tiles t', ?_, t', rfl, .inl (by rw [List.drop_eq_nil_of_le (by omega)]; exact h2)⟩
        show (t.next .wrapping gz fuel).map _ = some (Res.ok (Seen.tilePixel vs[i]?), _)
        rw [h1, List.getElem?_eq_none (by omega)]
        rfl
  · rintro i o ⟨t, rfl, h⟩
    rcases h with h | ⟨-, -, h1, h2⟩
    · obtain ⟨h1, h2, h3⟩ := h.place hT hcols
      exact ⟨h1.trans t3, by show t.rows.data.rd.pos < _; omega⟩
    · exact ⟨h1.trans t3, h2⟩

end Fitsrs

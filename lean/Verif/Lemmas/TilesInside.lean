import Verif.Lemmas.InputInside
/-
Compressed images whose data unit is complete: the reader stays in the data unit, and no call fails.
-/

namespace Fitsrs
open Spec TableData

/-- A compressed image that is wholly in the data unit of `n` bytes and that the library can decompress (as in C44). -/
structure TilesInside (p : Profile) (gz : Gunzip) (fuel : Nat) (x : Hdu BinTable) (z : TileCompressedImage) (data : List UInt8)
    (n : Nat) : Prop where
  legal : Legal x.header.xtension data x.dataOffset
  main : x.header.xtension.naxis1 * x.header.xtension.naxis2 ≤ n
  aligned : Aligned x.header.xtension z
  rowSteps : x.header.xtension.naxis1 < fuel
  tileSteps : 2 * Spec.product z.zTilen + 1 ≤ fuel
  whole : ∀ r < x.header.xtension.naxis2, tilePixels z.zNaxisn z.zTilen r = Spec.product z.zTilen
  notBytes : z.zBitpix = .u8 → z.zCmpType ≠ .gzip2
  tiles : ∃ sc tile, TileTable x.header z (data.drop x.dataOffset) sc ∧
    Tiles x.header.xtension z (data.drop x.dataOffset) gz tile ∧
    ∀ nblock, z.zCmpType = .rice nblock → p = .wrapping ∨ ∀ r < x.header.xtension.naxis2, Smooth (tile r)

/-- An HDU whose data unit is wholly in the file and can be read. -/
structure TameAll (p : Profile) (gz : Gunzip) (fuel : Nat) (data : List UInt8) (h : HDU) : Prop where
  fits : nextHeader p h < 2 ^ 63
  complete : ∀ n, h.dataSize p = .ok n → h.dataOffset + n ≤ data.length
  table : ∀ n x, h.dataSize p = .ok n → h = .binTable x → x.header.xtension.zImage = none →
    TableInside false x.header.xtension data x.dataOffset n
  tiles : ∀ n x z, h.dataSize p = .ok n → h = .binTable x → x.header.xtension.zImage = some z →
    TilesInside p gz fuel x z data n

theorem Tame.all {p : Profile} {gz : Gunzip} {fuel : Nat} {data : List UInt8} {h : HDU} (ht : Tame false p data h) :
    TameAll p gz fuel data h :=
  ⟨ht.fits, ht.complete, fun n x h1 h2 _ => ht.table n x h1 h2, fun n x z h1 h2 h3 => by
    rw [(ht.table n x h1 h2).notImage] at h3
    cases h3⟩

/-- The iterator of a compressed image, while it gives the pixels. -/
def TileStays (p : Profile) (gz : Gunzip) (fuel : Nat) (data : List UInt8) (s n : Nat) (it : TileIt) : Prop :=
  ∃ (it0 : TileIt) (T : Tab) (S : Tiling T gz fuel it0) (vs : List TilePixel), T.Ok ∧ T.p = p ∧ T.data = data ∧ T.start = s ∧
    T.cols = List.range T.x.tforms.length ∧ s + T.x.naxis1 * T.x.naxis2 ≤ data.length ∧ T.x.naxis1 * T.x.naxis2 ≤ n ∧
    T.Bounded n ∧ (∀ r < T.x.naxis2, (rowValues T.heap T.x T.unit T.cols r).length < fuel) ∧ 0 < fuel ∧
    S.m = T.x.naxis2 ∧ S.Left vs it

/-- What is opened, while its reader stays in the data unit. -/
def StaysAll (p : Profile) (gz : Gunzip) (fuel : Nat) (data : List UInt8) (s n : Nat) : OpenUnit → Prop
  | .tiles it => TileStays p gz fuel data s n it
  | o => Stays false p data s n o

section
variable {p : Profile} {gz : Gunzip} {fuel : Nat} {data : List UInt8} {s n : Nat}

theorem StaysAll.of {o : OpenUnit} (h : Stays false p data s n o) : StaysAll p gz fuel data s n o := by
  cases o with
  | tiles it => exact False.elim h
  | _ => exact h

/-- The table under the iterator. -/
theorem TileStays.table {it : TileIt} (h : TileStays p gz fuel data s n it) : TableStays false p data s n it.rows.data := by
  obtain ⟨it0, T, S, vs, h1, h2, h3, h4, h5, h6, h7, h8, h9, h10, h11, hl⟩ := h
  have key : ∃ k, T.State k (T.rowAt k) it.rows.data := by
    rcases hl with ⟨k, -, hb, -⟩ | ⟨k, j, -, hm, -⟩
    · exact ⟨k, hb.state⟩
    · exact ⟨k + 1, hm.state⟩
  obtain ⟨k, hk⟩ := key
  exact ⟨T, h1, h2, h3, h4, h6, h7, h8, (fun h => by cases h), _, k, _, hk, rfl⟩

theorem TileStays.next {it it' : TileIt} {r : Res (Option TilePixel)} (h : TileStays p gz fuel data s n it)
    (e : it.next p gz fuel = some (r, it')) : TileStays p gz fuel data s n it' := by
  obtain ⟨it0, T, S, vs, h1, rfl, rfl, rfl, h5, h6, h7, h8, h9, h10, h11, hl⟩ := h
  obtain ⟨it'', e', hl'⟩ := hl.step h1 h5 h6 h9 h10 h11
  rw [e] at e'
  cases e'
  exact ⟨it0, T, S, _, h1, rfl, rfl, rfl, h5, h6, h7, h8, h9, h10, h11, hl'⟩

/-- The rows that the iterator reads. -/
theorem TileStays.rows {L : Nat} {it : TileIt} (h : TileStays p gz fuel data s n it) (hd : data.length < L) (hn : s + n < L) :
    ((it.withRd ⟨[], 0⟩).rows.nextP p fuel).fails it.rows.data.rd = false ∧
      ((it.withRd ⟨[], 0⟩).rows.nextP p fuel).Below L it.rows.data.rd := by
  obtain ⟨h1, h2⟩ := h.table.collectP hd hn ⟨[], 0⟩ fuel it.rows.row []
  unfold TableRows.nextP
  exact ⟨by rw [Prog.map_fails]; exact h1, Prog.map_below _ _ h2⟩

/-- No call fails, and all the positions are in the range of the readers. -/
theorem TileStays.within {it : TileIt} (h : TileStays p gz fuel data s n it) (hd : data.length < 2 ^ 63) (hn : s + n < 2 ^ 63) :
    TileWithin (2 ^ 63) p fuel it ∧ it.stops p gz fuel = false := by
  obtain ⟨hf, hb⟩ := h.rows hd hn
  obtain ⟨it0, T, S, vs, hT, rfl, rfl, rfl, hc, hmain, h7, h8, hrf, hfuel, h11, hl⟩ := h
  rcases hl with ⟨k, hk, hbe, -⟩ | ⟨k, j, hj, hm, -⟩
  · by_cases hlt : k < S.m
    · have hkn : k < T.x.naxis2 := Nat.lt_of_lt_of_le hlt S.mle
      have e : T.rowAt k = rowValues T.heap T.x T.unit T.cols k := if_pos hkn
      obtain ⟨t', g1, g2⟩ := collect_row (acc := []) hT hmain hkn hbe.state (fuel := fuel) (by rw [e]; exact hrf k hkn)
      rw [List.nil_append] at g1
      have hnx : it.rows.next T.p fuel = some (.ok (some (T.rowAt k)), ⟨t', k + 1⟩) := by
        unfold TableRows.next
        rw [hbe.row, g1]
      obtain ⟨hrd, hctx⟩ := Tiling.state_pos hT hc g2
      have hmul : (k + 1) * T.x.naxis1 ≤ T.x.naxis1 * T.x.naxis2 := by
        rw [Nat.mul_comm]; exact Nat.mul_le_mul_left _ hkn
      have hsz := hT.readable.size
      have hin := S.inside k hkn
      have hs : (Reader.mk T.data (T.start + (k + 1) * T.x.naxis1)).seekRelative
          ((T.x.theap : Int) + S.off k - ((k + 1) * T.x.naxis1 : Nat)) =
          (.ok (), ⟨T.data, T.start + T.x.theap + S.off k⟩) := by
        exact seekRelative_nat (T.start + T.x.theap + S.off k) (by dsimp only; omega) (by unfold two64; omega)
      refine ⟨fun _ => ⟨hb, fun vs rows e1 it' off e2 => ?_⟩, ?_⟩
      · rw [hnx] at e1
        cases e1
        unfold TileIt.prepare at e2
        dsimp only at e2
        rw [hbe.idx, S.offset k hkn, hbe.zTile, S.prod] at e2
        dsimp only at e2
        rw [hbe.kw, S.kw k hkn] at e2
        dsimp only at e2
        rw [hctx, Tiling.tileOffset_ok (by omega) (by omega)] at e2
        cases e2
        dsimp only
        rw [hrd, hs]
        exact ⟨by dsimp only; omega, by dsimp only; omega⟩
      · obtain ⟨it', hload, -⟩ := S.load_ok hT hc hmain hrf hlt hbe
        unfold TileIt.load at hload
        rw [hnx] at hload
        unfold TileIt.stops
        rw [if_pos hbe.remaining, hnx]
        dsimp only at hload ⊢
        rw [hload]
    · have hk' : k = T.x.naxis2 := by omega
      subst hk'
      have e : T.rowAt T.x.naxis2 = [] := if_neg (Nat.lt_irrefl _)
      have hst := hbe.state
      rw [e] at hst
      have hnx : it.rows.next T.p fuel = some (.ok none, it.rows) := by
        unfold TableRows.next
        rw [hbe.row, collect_end hst hfuel]
        dsimp only
        rw [← hbe.row]
      refine ⟨fun _ => ⟨hb, fun vs rows e1 => ?_⟩, ?_⟩
      · rw [hnx] at e1
        cases e1
      · unfold TileIt.stops
        rw [if_pos hbe.remaining, hnx]
        exact hf
  · have hr : it.remaining ≠ 0 := by rw [hm.remaining]; omega
    refine ⟨fun h0 => absurd h0 hr, ?_⟩
    unfold TileIt.stops
    rw [if_neg hr]

theorem StaysAll.rd {o : OpenUnit} (h : StaysAll p gz fuel data s n o) :
    o.rd.data = data ∧ s ≤ o.rd.pos ∧ o.rd.pos ≤ s + n := by
  cases o with
  | tiles it =>
    obtain ⟨it0, T, S, vs, h1, rfl, rfl, rfl, h5, h6, h7, h8, h9, h10, h11, hl⟩ := h
    obtain ⟨g1, g2, g3⟩ := hl.place h1 h5
    exact ⟨g1, g2, show it.rows.data.rd.pos ≤ _ by omega⟩
  | image d => exact Stays.rd (seek := false) (p := p) (o := .image d) h
  | bytes d => exact Stays.rd (seek := false) (p := p) (o := .bytes d) h
  | table d => exact Stays.rd (seek := false) (p := p) (o := .table d) h
  | rows d => exact Stays.rd (seek := false) (p := p) (o := .rows d) h

theorem StaysAll.next {o u : OpenUnit} {r : Res Seen} (h : StaysAll p gz fuel data s n o)
    (e : Session.nextItem p gz fuel o = some (r, u)) : StaysAll p gz fuel data s n u := by
  cases o with
  | tiles it =>
    unfold Session.nextItem at e
    dsimp only at e
    obtain ⟨⟨r', it'⟩, e1, e2⟩ := Option.map_eq_some_iff.1 e
    cases e2
    exact TileStays.next h e1
  | image d => exact .of (Stays.next (seek := false) (p := p) (o := .image d) h e)
  | bytes d => exact .of (Stays.next (seek := false) (p := p) (o := .bytes d) h e)
  | table d => exact .of (Stays.next (seek := false) (p := p) (o := .table d) h e)
  | rows d => exact .of (Stays.next (seek := false) (p := p) (o := .rows d) h e)

theorem StaysAll.on {c : Call} {o u : OpenUnit} {r : Res Seen} (hk : c.keepsInside false = true)
    (h : StaysAll p gz fuel data s n o) (e : Session.onOpened p c o = (r, some u)) : StaysAll p gz fuel data s n u := by
  cases o with
  | tiles it =>
    have ht := TileStays.table h
    cases c with
    | rowIter => cases e; exact ht
    | tableData => cases e; exact ht
    | _ => cases e; exact h
  | image d => exact .of (Stays.on (seek := false) (p := p) (o := .image d) hk h e)
  | bytes d => exact .of (Stays.on (seek := false) (p := p) (o := .bytes d) hk h e)
  | table d => exact .of (Stays.on (seek := false) (p := p) (o := .table d) hk h e)
  | rows d => exact .of (Stays.on (seek := false) (p := p) (o := .rows d) hk h e)

/-- Tables read without their arrays stay before the heap. -/
theorem bounded_raw {T : Tab} (hl : Legal T.x T.data T.start) (hc : T.cols = List.range T.x.tforms.length) (hh : T.heap = false)
    (hm : T.x.naxis1 * T.x.naxis2 ≤ n) : T.Bounded n := by
  intro r hr c hcm i hi k t hat
  rw [hc] at hcm
  have hcm := List.mem_range.1 hcm
  unfold Tab.At at hat
  unfold cellValues at hi
  have hf : T.x.tforms[c]? = some T.x.tforms[c] := List.getElem?_eq_getElem hcm
  have hcell := hl.cell hr hf
  rw [hf] at hat hi
  generalize T.x.tforms[c] = f at *
  cases f with
  | plain ty rep =>
    dsimp only at hi hat
    rw [elements_length] at hi
    rw [colBytes_plain] at hcell
    have := Nat.mul_le_mul_right (elemBytes ty) (Nat.le_of_lt hi)
    subst hat
    dsimp only [Tab.main, Tab.cellStart]
    omega
  | P ty =>
    dsimp only at hat
    split at hat
    · subst hat
      dsimp only [Tab.main, Tab.cellStart]
      omega
    · rw [hh] at hat
      cases hat.1
  | Q ty =>
    dsimp only at hat
    split at hat
    · subst hat
      dsimp only [Tab.main, Tab.cellStart]
      omega
    · rw [hh] at hat
      cases hat.1

/-- Opening the data unit of such an HDU. -/
theorem TameAll.opens {f f' : Fits} {h : HDU} {o : OpenUnit} (hg : Extends gz) (ht : TameAll p gz fuel f'.rd.data h)
    (hn : f.next p = (some (.ok h), f')) (e : f'.getData p h = .ok o) :
    StaysAll p gz fuel f'.rd.data f'.posStart f'.numBytes o := by
  obtain ⟨h1, h2, h3, h4, -⟩ := next_ok_state hn
  by_cases hz : ∃ x z, h = .binTable x ∧ x.header.xtension.zImage = some z
  · obtain ⟨x, z, rfl, hz⟩ := hz
    have hin := ht.tiles _ x z h4 rfl hz
    have hcomp := ht.complete _ h4
    unfold Fits.getData at e
    dsimp only at e
    rw [hz] at e
    obtain ⟨it, hit, rfl⟩ := Res.map_eq_ok.1 e
    have hdo : x.dataOffset = f'.posStart := h3.symm
    rw [h1] at hin hcomp ⊢
    obtain ⟨sc, tile, g1, g2, g3⟩ := hin.tiles
    have hm := hin.main
    replace hcomp : x.dataOffset + f'.numBytes ≤ f.rd.data.length := hcomp
    obtain ⟨T, S, hT, t1, t2, t3, t4, t5, t6, t7, tm, t8, t9⟩ := image_tiling' ⟨hn, hz, hit⟩ hin.legal
      (show x.dataOffset + _ ≤ _ by omega) hin.aligned g1 hg hin.rowSteps hin.tileSteps g2 hin.whole hin.notBytes g3
    refine ⟨it, T, S, _, hT, t1, t3, t4.trans hdo, t5, ?_, by rw [t2]; exact hm, ?_, t7, ?_, tm, t8⟩
    · rw [← hdo, t2]; omega
    · exact bounded_raw (by rw [t2, t3, t4]; exact hin.legal) t5 t9 (by rw [t2]; exact hm)
    · have := hin.rowSteps
      omega
  · refine .of (Tame.opens (seek := false) hn ⟨ht.fits, ht.complete, fun n x k1 k2 => ?_⟩ e)
    cases hzz : x.header.xtension.zImage with
    | none => exact ht.table n x k1 k2 hzz
    | some z => exact absurd ⟨x, z, k2, hzz⟩ hz

end

end Fitsrs

import Verif.Props.C44_C45
import Verif.Lemmas.RicePrefix
/-
C44, exactly: images with tiles cut at the edge.
-/

namespace Fitsrs
open Spec TileIt

theorem prefix_getElem {α : Type} {a b : List α} (h : ∀ (i : Nat) v, a[i]? = some v → b[i]? = some v) : a <+: b := by
  induction a generalizing b with
  | nil => exact List.nil_prefix
  | cons x a ih =>
    cases b with
    | nil => have := h 0 x rfl; cases this
    | cons y b =>
      have := h 0 x rfl
      cases this
      exact List.cons_prefix_cons.2 ⟨rfl, ih fun i v hi => h (i + 1) v hi⟩

/-- What the iterator takes from a buffer. -/
theorem exists_raw {ty : Bitpix} {cmp : ZCmpType} {buf : List UInt8} {n : Nat} (h : buf.length = 4 * n)
    (hc : cmp ≠ .plio1 ∧ cmp ≠ .hcompress1) :
    ∃ raw : List Int, raw.length = n ∧ (∀ (i : Nat) (v : Int), raw[i]? = some v → rawValue ty cmp buf i = .ok v) ∧
      ∀ (i : Nat) (v : Int), i < n → rawValue ty cmp buf i = .ok v → raw[i]? = some v := by
  refine ⟨(List.range n).map fun i => match rawValue ty cmp buf i with | .ok v => v | _ => 0, by simp, ?_, ?_⟩
  · intro i v hi
    rw [List.getElem?_map] at hi
    by_cases hin : i < n
    · rw [List.getElem?_range hin] at hi
      obtain ⟨w, hw⟩ := rawValue_some (ty := ty) h hin hc
      dsimp only [Option.map] at hi
      rw [hw] at hi
      cases hi
      exact hw
    · rw [List.getElem?_eq_none (by simpa using hin)] at hi
      cases hi
  · intro i v hin hv
    rw [List.getElem?_map, List.getElem?_range hin]
    dsimp only [Option.map]
    rw [hv]

theorem flatMap4_append {α : Type} (f : α → List UInt8) {a b : List α} (h : a <+: b) : a.flatMap f <+: b.flatMap f := by
  obtain ⟨c, rfl⟩ := h
  rw [List.flatMap_append]
  exact List.prefix_append _ _

/-- A tile with at most `n` pixels, from which `n` are taken: it is refused, or its pixels come first.  Bytes compressed by
gzip are refused exactly if there are fewer. -/
theorem decompress_cut {p : Profile} {gz : Gunzip} {fuel n : Nat} {cmp : ZCmpType} {px : List Int}
    {bytes rest : List UInt8} {ty : Bitpix} (hg : Extends gz) (h : Spec.Holds gz cmp px bytes)
    (hty : ∀ v ∈ px, InType ty v) (h8 : ty = .u8 → cmp ≠ .gzip2) (hn : px.length ≤ n)
    (hgz : cmp = .gzip1 ∨ cmp = .gzip2 → (gz (bytes ++ rest)).length = 4 * px.length)
    (hr : ∀ nblock, cmp = .rice nblock → n + nblock ≤ 2 ^ 31 ∧ 2 * n + 1 ≤ fuel)
    (hp : p = .wrapping ∨ decompress p gz fuel cmp n (4 * n) (bytes ++ rest) ≠ some .panic) :
    (∃ e, decompress p gz fuel cmp n (4 * n) (bytes ++ rest) = some (.err e) ∧ px.length < n) ∨
    ∃ buf raw, decompress p gz fuel cmp n (4 * n) (bytes ++ rest) = some (.ok buf) ∧ buf.length = 4 * n ∧ raw.length = n ∧
      (∀ (i : Nat) (v : Int), raw[i]? = some v → rawValue ty cmp buf i = .ok v) ∧ px <+: raw ∧
      (cmp = .gzip1 ∨ cmp = .gzip2 → px.length = n) := by
  by_cases hc : cmp = .gzip1 ∨ cmp = .gzip2
  · by_cases hl : px.length < n
    · left
      refine ⟨.io .unexpectedEof, ?_, hl⟩
      have := hgz hc
      rcases hc with rfl | rfl <;> unfold decompress <;> dsimp only <;> rw [if_neg (by omega)]
    · right
      have he : px.length = n := by omega
      subst he
      obtain ⟨buf, h1, h2, h3⟩ := decompress_holds (p := p) (fuel := fuel) (rest := rest) hg h hty h8
        (fun nblock hb => by rcases hc with rfl | rfl <;> cases hb)
      exact ⟨buf, px, h1, h2, rfl, h3, List.prefix_refl _, fun _ => rfl⟩
  cases cmp with
  | gzip1 => exact absurd (.inl rfl) hc
  | gzip2 => exact absurd (.inr rfl) hc
  | plio1 => exact False.elim h
  | hcompress1 => exact False.elim h
  | rice nblock =>
    obtain ⟨r1, r2⟩ := hr nblock rfl
    have hin : ∀ v ∈ px, InI32 v := by
      intro v hv
      have := hty v hv
      unfold InI32
      cases ty <;> unfold InType at this <;> first | omega | exact this
    have h' : IsRice nblock px (bytes ++ rest) := by
      obtain ⟨first, bits, pad, h1, h2, h3⟩ := (show IsRice nblock px bytes from h)
      refine ⟨first, bits, pad ++ byteBits rest, h1, h2, ?_⟩
      unfold byteBits at h3 ⊢
      rw [List.flatMap_append, h3]
      simp only [List.append_assoc]
    have hnb : 0 < nblock := by
      obtain ⟨first, bits, pad, h1, h2, h3⟩ := h'
      exact blocks_pos h2 (by intro e; rw [e] at h1; cases h1)
    obtain ⟨r, g1, g2, g3⟩ := C41_release nblock n (bytes ++ rest) fuel hnb r1 r2
    have hw : Rice.tile p fuel nblock n (bytes ++ rest) = some r := by
      cases p with
      | wrapping => exact g1
      | checked =>
        rcases Rice.tile_le fuel nblock n (bytes ++ rest) with e | e
        · exfalso
          rcases hp with hp | hp
          · cases hp
          · apply hp
            unfold decompress
            dsimp only
            rw [e]
            rfl
        · rw [e, g1]
    have hd : decompress p gz fuel (.rice nblock) n (4 * n) (bytes ++ rest) = some (r.map (·.flatMap littleEndian)) := by
      unfold decompress
      dsimp only
      rw [hw]
      rfl
    cases r with
    | panic => exact absurd rfl g2
    | err e =>
      left
      refine ⟨e, hd, ?_⟩
      rcases Nat.lt_or_ge px.length n with hl | hl
      · exact hl
      · exfalso
        have he : px.length = n := by omega
        subst he
        have := tile_ok (p := .wrapping) hin r1 (.inl rfl) h' r2
        rw [g1] at this
        cases this
    | ok out =>
      right
      obtain ⟨o1, o2⟩ := g3 out rfl
      have hpre := Rice.tile_prefix hin r1 hn h' hw
      have hbl : (out.flatMap littleEndian).length = 4 * n := by
        rw [flatMap4_length (fun _ => rfl), o1]
      obtain ⟨raw, q1, q2, q3⟩ := exists_raw (ty := ty) (cmp := .rice nblock) hbl ⟨(by intro h; cases h), (by intro h; cases h)⟩
      refine ⟨_, raw, hd, hbl, q1, q2, prefix_getElem fun i v hi => ?_, fun hc => by rcases hc with hc | hc <;> cases hc⟩
      have hlt : i < px.length := (List.getElem?_eq_some_iff.1 hi).1
      refine q3 i v (by omega) ?_
      have ho : out[i]? = some v := by
        obtain ⟨c, rfl⟩ := hpre
        rw [List.getElem?_append_left hlt]
        exact hi
      exact rawValue_rice ho (hty v (List.mem_of_getElem? hi))

theorem tilePixels_le {ns ts : List Nat} (h : ns.length = ts.length) (r : Nat) : tilePixels ns ts r ≤ Spec.product ts := by
  induction ns generalizing ts r with
  | nil =>
    cases ts with
    | nil => exact Nat.le_refl _
    | cons t ts => cases h
  | cons n ns ih =>
    cases ts with
    | nil => cases h
    | cons t ts =>
      have e : Spec.product (t :: ts) = t * Spec.product ts := by unfold Spec.product; rw [List.foldr_cons]
      rw [e, tilePixels]
      exact Nat.mul_le_mul (Nat.min_le_left _ _) (ih (by simpa using h) _)

/-- The rows of a table before the first one that satisfies `P`. -/
theorem first_row (P : Nat → Prop) (n : Nat) : ∃ m ≤ n, (∀ r < m, ¬ P r) ∧ (m < n → P m) := by
  induction n with
  | zero => exact ⟨0, Nat.le_refl _, fun r h => absurd h (Nat.not_lt_zero _), fun h => absurd h (Nat.lt_irrefl _)⟩
  | succ n ih =>
    obtain ⟨m, h1, h2, h3⟩ := ih
    by_cases hm : m < n
    · exact ⟨m, by omega, h2, fun _ => h3 hm⟩
    · have : m = n := by omega
      subst this
      by_cases hp : P m
      · exact ⟨m, by omega, h2, fun _ => hp⟩
      · refine ⟨m + 1, Nat.le_refl _, fun r hr => ?_, fun h => absurd h (Nat.lt_irrefl _)⟩
        rcases Nat.lt_or_ge r m with h | h
        · exact h2 r h
        · have : r = m := by omega
          exact this ▸ hp

/-- **C44, exactly**, for tables with one value in each column before one that is used: each tile is taken to have as many pixels as the whole ones.
The pixels of the tiles are given in the order of the rows, those of a cut tile being followed by others; the iteration ends
at the first cut tile that is refused, if there is one, and then at the first `None`.  Tiles compressed by gzip are refused as soon as
they are cut. -/
theorem C44_exact {p : Profile} {f f' : Fits} {x : Hdu BinTable} {z : TileCompressedImage} {it : TileIt}
    {gz : Gunzip} {fuel : Nat} {tile : Nat → List Int} {sc : Nat → Scaling}
    (ho : TilesOpened p f f' x z it) (hl : Legal x.header.xtension f.rd.data x.dataOffset)
    (hc : Complete x.header.xtension f.rd.data x.dataOffset) (one : Aligned x.header.xtension z)
    (ht : TileTable x.header z (f.rd.data.drop x.dataOffset) sc) (hg : Extends gz)
    (hf : x.header.xtension.naxis1 < fuel) (hf' : 2 * Spec.product z.zTilen + 1 ≤ fuel)
    (hi : Tiles x.header.xtension z (f.rd.data.drop x.dataOffset) gz tile)
    (h8 : z.zBitpix = .u8 → z.zCmpType ≠ .gzip2)
    (hgz : z.zCmpType = .gzip1 ∨ z.zCmpType = .gzip2 → ∀ r < x.header.xtension.naxis2,
      (gz (tileBytes x.header.xtension (f.rd.data.drop x.dataOffset) r z.dataCompressedIdx)).length = 4 * (tile r).length)
    (hp : p = .wrapping ∨ ∀ r < x.header.xtension.naxis2,
      decompress p gz fuel z.zCmpType (Spec.product z.zTilen) (4 * Spec.product z.zTilen)
        (tileBytes x.header.xtension (f.rd.data.drop x.dataOffset) r z.dataCompressedIdx) ≠ some .panic) :
    ∃ m ≤ x.header.xtension.naxis2, ∃ raw : Nat → List Int,
      (∀ r < m, (raw r).length = Spec.product z.zTilen ∧ tile r <+: raw r ∧
        (z.zCmpType = .gzip1 ∨ z.zCmpType = .gzip2 → (tile r).length = Spec.product z.zTilen)) ∧
      (m < x.header.xtension.naxis2 → (tile m).length < Spec.product z.zTilen) ∧
      ∀ n, (m < x.header.xtension.naxis2 → n ≤ m * Spec.product z.zTilen + 1) →
        it.run p gz fuel n = tileScan ((List.range m).flatMap fun r => (raw r).map (pixelOf z.zBitpix (sc r))) n := by
  have key : ∀ r < x.header.xtension.naxis2, _ := fun r hr =>
    decompress_cut (p := p) (fuel := fuel) (n := Spec.product z.zTilen) (ty := z.zBitpix)
      (rest := (f.rd.data.drop x.dataOffset).drop (x.header.xtension.theap +
        (descriptor x.header.xtension (f.rd.data.drop x.dataOffset) r z.dataCompressedIdx).2 +
        (descriptor x.header.xtension (f.rd.data.drop x.dataOffset) r z.dataCompressedIdx).1)) hg (hi.holds r hr)
      (hi.range r hr) h8 (by rw [hi.size r hr]; exact tilePixels_le hi.axes r) (fun h => hgz h r hr)
      (fun nblock hb => ⟨hi.blocks nblock hb, hf'⟩) (hp.imp id fun h => h r hr)
  obtain ⟨m, m1, m2, m3⟩ := first_row (fun r => ∃ e, decompress p gz fuel z.zCmpType (Spec.product z.zTilen)
    (4 * Spec.product z.zTilen)
    (tileBytes x.header.xtension (f.rd.data.drop x.dataOffset) r z.dataCompressedIdx) = some (.err e)) x.header.xtension.naxis2
  have hgood : ∀ r, ∃ raw : List Int, r < m → raw.length = Spec.product z.zTilen ∧ tile r <+: raw ∧
      (z.zCmpType = .gzip1 ∨ z.zCmpType = .gzip2 → (tile r).length = Spec.product z.zTilen) ∧
      ∃ buf, decompress p gz fuel z.zCmpType (Spec.product z.zTilen) (4 * Spec.product z.zTilen)
        (tileBytes x.header.xtension (f.rd.data.drop x.dataOffset) r z.dataCompressedIdx) = some (.ok buf) ∧
      buf.length = 4 * Spec.product z.zTilen ∧
      ∀ (i : Nat) (v : Int), raw[i]? = some v → rawValue z.zBitpix z.zCmpType buf i = .ok v := by
    intro r
    by_cases hr : r < m
    · rcases key r (by omega) with ⟨e, he, -⟩ | ⟨buf, raw, h1, h2, h3, h4, h5, h6⟩
      · exact absurd ⟨e, he⟩ (m2 r hr)
      · exact ⟨raw, fun _ => ⟨h3, h5, h6, buf, h1, h2, h4⟩⟩
    · exact ⟨[], fun h => absurd h hr⟩
  obtain ⟨raw, hraw⟩ := Classical.axiomOfChoice hgood
  obtain ⟨T, S, hT, t1, t2, t3, t4, t5, t6, hb, hn, hSm, hSraw, hpix, hcmp, -, hoff⟩ :=
    tiling' m1 ho hl one ht (fun r hr => (hraw r hr).1) (fun r hr => (hraw r hr).2.2.2)
  have hcols : T.cols = List.range T.x.tforms.length := by rw [t5, t2]
  have hmain : T.start + T.x.naxis1 * T.x.naxis2 ≤ T.data.length := by rw [t2, t3, t4]; exact hc
  have hrf := row_fuel t2 t5 t6 hl.width hf
  have hrest : S.rest 0 = (List.range m).flatMap fun r => (raw r).map (pixelOf z.zBitpix (sc r)) := by
    unfold Tiling.rest Tiling.tile
    rw [List.drop_zero, hSm, hSraw, hpix]
  have hleft : S.Left ((List.range m).flatMap fun r => (raw r).map (pixelOf z.zBitpix (sc r))) it :=
    .inl ⟨0, Nat.zero_le _, hb, hrest.symm⟩
  refine ⟨m, m1, raw, fun r hr => ⟨(hraw r hr).1, (hraw r hr).2.1, (hraw r hr).2.2.1⟩, fun hm => ?_, fun n hn' => ?_⟩
  · obtain ⟨e, he⟩ := m3 hm
    rcases key m hm with ⟨e', -, hlt⟩ | ⟨buf, _, h1, -⟩
    · exact hlt
    · exact absurd (h1.symm.trans he) (by intro h; cases h)
  · by_cases hm : m < x.header.xtension.naxis2
    · obtain ⟨e, he⟩ := m3 hm
      have hlen : ((List.range m).flatMap fun r => (raw r).map (pixelOf z.zBitpix (sc r))).length = m * Spec.product z.zTilen := by
        clear hleft hrest hn' m2 m3 hSm m1 hm he
        have : ∀ k ≤ m, ((List.range k).flatMap fun r => (raw r).map (pixelOf z.zBitpix (sc r))).length =
            k * Spec.product z.zTilen := by
          intro k
          induction k with
          | zero => intro _; simp
          | succ k ih =>
            intro hk
            rw [List.range_succ, List.flatMap_append, List.length_append, ih (by omega), List.flatMap_singleton, List.length_map,
              (hraw k (by omega)).1, Nat.succ_mul]
        exact this m (Nat.le_refl _)
      have := hleft.run_stop hT hcols hmain hrf (by rw [hSm, t2]; exact hm) (e := e) (by
        rw [hSm, hn, t1, hcmp, t2, t3, t4, hoff, drop_heap]
        exact he) n (by rw [hlen]; exact hn' hm)
      rw [t1] at this
      exact this
    · have hm' : S.m = T.x.naxis2 := by rw [hSm, t2]; omega
      have := hleft.run hT hcols hmain hrf (by omega) hm' n
      rw [t1] at this
      exact this

theorem run_take {p : Profile} {gz : Gunzip} {fuel : Nat} (n : Nat) (it : TileIt) :
    it.run p gz fuel n = (it.run p gz fuel (n + 1)).take n := by
  induction n generalizing it with
  | zero => simp [TileIt.run]
  | succ n ih =>
    rw [TileIt.run, TileIt.run.eq_def p gz fuel (n + 1 + 1)]
    dsimp only
    cases it.next p gz fuel with
    | none => simp
    | some q =>
      dsimp only
      rw [ih, List.take_succ_cons]

/-- The tiles of the image of three pixels of `C44_fails`. -/
def edgeTile (r : Nat) : List Int := if r = 0 then [7, 7] else [5]

theorem edge_holds : Legal edgeTable edgeFile 5760 ∧ Complete edgeTable edgeFile 5760 ∧ OneValue edgeTable ∧
    Tiles edgeTable edgeImage (edgeFile.drop 5760) (.of fun _ => []) edgeTile := by
  have hunit : edgeFile.drop 5760 =
      [0, 0, 0, 5, 0, 0, 0, 0, 0, 0, 0, 5, 0, 0, 0, 5, 0, 0, 0, 7, 0, 0, 0, 0, 5, 0] := by decide +kernel
  refine ⟨legal_sample (by decide) (by decide) (by decide) (by decide) (by decide +kernel), by decide +kernel, ?_,
    by decide, rfl, by decide, ?_, ?_, ?_⟩
  · intro ty rep h
    simp [edgeTable] at h
  · intro r hr v hv
    show InI32 v
    unfold InI32
    unfold edgeTile at hv
    split at hv <;> simp at hv <;> omega
  · intro r hr
    have hr : r = 0 ∨ r = 1 := by change r < 2 at hr; omega
    rw [hunit]
    rcases hr with rfl | rfl
    · exact rice_pair 7 (.inl rfl)
    · refine ⟨5, blockBits .low [0] ++ [], [false, false, false], rfl, ?_, by decide +kernel⟩
      refine Blocks.block (block := [5]) (rest := []) .low (by simp) (Or.inr ⟨by decide, rfl⟩) ?_ .nil
      show ∀ d ∈ diffs 5 [5], d = 0
      decide
  · intro nblock h
    cases h
    decide

/-- In that image the second tile, which is cut, gives a pixel too many. -/
example : ∃ f' h it, ∃ raw : List Int, TilesOpened .wrapping (afterPrimary edgeFile) f' h edgeImage it ∧ raw.length = 2 ∧
    [5] <+: raw ∧ ∀ n, it.run .wrapping (.of fun _ => []) 9 n = tileScan ([.int 7, .int 7] ++ raw.map TilePixel.int) n := by
  obtain ⟨f', h, it, ho, h1, h2, h3⟩ := tiles_opened sample_edge rfl
  obtain ⟨hl, hc, one, hi⟩ := edge_holds
  have hunit : edgeFile.drop 5760 =
      [0, 0, 0, 5, 0, 0, 0, 0, 0, 0, 0, 5, 0, 0, 0, 5, 0, 0, 0, 7, 0, 0, 0, 0, 5, 0] := by decide +kernel
  obtain ⟨m, m1, raw, m2, m3, m4⟩ := C44_exact (p := .wrapping) (gz := .of fun _ => []) (fuel := 9) (tile := edgeTile)
    (sc := fun _ => ⟨.double 0, .double 0, none⟩) ho (by rw [h1, h2]; exact hl) (by rw [h1, h2]; exact hc) (by rw [h1]; exact one.aligned _)
    (by
      refine ⟨by rw [h1]; exact .inl rfl, ?_, by decide, by decide, fun hf => absurd hf (by decide), rfl⟩
      rw [h1, h2]
      show ∀ r < 2, _ + _ + _ ≤ (edgeFile.drop 5760).length
      change ∀ r < 2, edgeTable.theap + (descriptor edgeTable (edgeFile.drop 5760) r 0).2 +
        (descriptor edgeTable (edgeFile.drop 5760) r 0).1 ≤ (edgeFile.drop 5760).length
      rw [hunit]
      decide)
    (fun _ _ => List.prefix_refl _) (by rw [h1]; decide) (by decide) (by rw [h1, h2]; exact hi) (by intro h; cases h)
    (fun h => by rcases h with h | h <;> cases h) (.inl rfl)
  rw [h1] at m1 m3 m4
  have hm : m = 2 := by
    have hp : Spec.product edgeImage.zTilen = 2 := by decide
    rw [hp] at m3 m4
    have e1 : edgeTable.naxis2 = 2 := rfl
    rw [e1] at m1 m3 m4
    rcases (by omega : m = 0 ∨ m = 1 ∨ m = 2) with rfl | rfl | rfl
    · exact absurd (m3 (by decide)) (by decide)
    · exfalso
      have := m4 3 (by omega)
      rw [run_take, of_decide_eq_true h3, show List.range 1 = [0] from rfl, List.flatMap_cons, List.flatMap_nil] at this
      have h0 := (m2 0 (by decide)).1
      rw [hp] at h0
      have := congrArg (·[2]?) this
      revert this
      generalize raw 0 = l at h0
      match l, h0 with
      | [a, b], _ =>
        intro h
        have h : (some (some (Res.ok (some (TilePixel.int 5)))) : Option (Option (Res (Option TilePixel)))) = some (some (.ok none)) := h
        cases h
    · rfl
  subst hm
  have r0 := m2 0 (by decide)
  have r1 := m2 1 (by decide)
  refine ⟨f', h, it, raw 1, ho, r1.1, r1.2.1, fun n => ?_⟩
  rw [m4 n (fun h => absurd h (by decide))]
  have e0 : raw 0 = [7, 7] := (r0.2.1.eq_of_length (by rw [r0.1]; rfl)).symm
  show tileScan ((List.range 2).flatMap _) n = _
  rw [show List.range 2 = [0, 1] from rfl, List.flatMap_cons, List.flatMap_cons, e0]
  simp only [List.flatMap_nil, List.append_nil]
  rfl

end Fitsrs

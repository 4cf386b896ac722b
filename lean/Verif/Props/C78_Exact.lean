import Verif.Props.C78
import Verif.Props.C44
/-
C78, exactly, for GZIP: what is made of tiles of any width.
-/

namespace Fitsrs
open Spec TileIt

theorem byteAt_take {bytes : List UInt8} {k i : Nat} (h : k ≤ bytes.length) (hi : i < k) :
    byteAt (bytes.take k) i = .ok (bytes.getD i 0) := by
  unfold byteAt
  rw [List.getElem?_take, if_pos hi, List.getD_eq_getElem?_getD, List.getElem?_eq_getElem (by omega)]
  rfl

theorem rawValue_readAs {ty : Bitpix} {cmp : ZCmpType} (hc : cmp = .gzip1 ∨ cmp = .gzip2) {bytes : List UInt8} {n i : Nat}
    (h : 4 * n ≤ bytes.length) (hi : i < n) :
    rawValue ty cmp (bytes.take (4 * n)) i = .ok (readAs ty cmp n bytes i) := by
  have hl : (bytes.take (4 * n)).length = 4 * n := by rw [List.length_take]; omega
  have hq : 4 * n / 4 = n := by omega
  have one : ∀ k0, k0 < 4 * n → bytesNat (bytes.take (4 * n)) [k0] 0 = .ok (bytes.getD k0 0).toNat := by
    intro k0 h0
    simp only [bytesNat, byteAt_take h h0, Res.bind_ok]
    congr 1
    omega
  have two : ∀ k0 k1, k0 < 4 * n → k1 < 4 * n → (bytesNat (bytes.take (4 * n)) [k0, k1] 0).map (toSigned 16) =
      .ok (if (bytes.getD k0 0).toNat < 128 then 256 * ((bytes.getD k0 0).toNat : Int) + (bytes.getD k1 0).toNat
        else 256 * ((bytes.getD k0 0).toNat : Int) + (bytes.getD k1 0).toNat - 65536) := by
    intro k0 k1 h0 h1
    simp only [bytesNat, byteAt_take h h0, byteAt_take h h1, Res.bind_ok]
    show Res.ok _ = _
    congr 1
    have g0 := (bytes.getD k0 0).toNat_lt
    have g1 := (bytes.getD k1 0).toNat_lt
    generalize (bytes.getD k0 0).toNat = a at g0 ⊢
    generalize (bytes.getD k1 0).toNat = b at g1 ⊢
    unfold toSigned
    split <;> split <;> omega
  have four : ∀ k0 k1 k2 k3, k0 < 4 * n → k1 < 4 * n → k2 < 4 * n → k3 < 4 * n →
      (bytesNat (bytes.take (4 * n)) [k0, k1, k2, k3] 0).map (toSigned 32) =
      .ok (if (bytes.getD k0 0).toNat < 128 then ((16777216 * (bytes.getD k0 0).toNat + 65536 * (bytes.getD k1 0).toNat +
          256 * (bytes.getD k2 0).toNat + (bytes.getD k3 0).toNat : Nat) : Int)
        else ((16777216 * (bytes.getD k0 0).toNat + 65536 * (bytes.getD k1 0).toNat +
          256 * (bytes.getD k2 0).toNat + (bytes.getD k3 0).toNat : Nat) : Int) - 4294967296) := by
    intro k0 k1 k2 k3 h0 h1 h2 h3
    simp only [bytesNat, byteAt_take h h0, byteAt_take h h1, byteAt_take h h2, byteAt_take h h3, Res.bind_ok]
    show Res.ok _ = _
    congr 1
    have g0 := (bytes.getD k0 0).toNat_lt
    have g1 := (bytes.getD k1 0).toNat_lt
    have g2 := (bytes.getD k2 0).toNat_lt
    have g3 := (bytes.getD k3 0).toNat_lt
    generalize (bytes.getD k0 0).toNat = a at g0 ⊢
    generalize (bytes.getD k1 0).toNat = b at g1 ⊢
    generalize (bytes.getD k2 0).toNat = c at g2 ⊢
    generalize (bytes.getD k3 0).toNat = d at g3 ⊢
    unfold toSigned
    split <;> split <;> omega
  rcases hc with rfl | rfl
  · cases ty
    case u8 =>
      show Res.map (fun m : Nat => (m : Int)) (bytesNat (bytes.take (4 * n)) [4 * i + 3] 0) = _
      rw [one _ (by omega)]
      rfl
    case i16 => exact two _ _ (by omega) (by omega)
    all_goals exact four _ _ _ _ (by omega) (by omega) (by omega) (by omega)
  · cases ty
    case u8 =>
      show Res.map (fun m : Nat => (m : Int)) (bytesNat (bytes.take (4 * n)) [4 * i + 3] 0) = _
      rw [one _ (by omega)]
      rfl
    case i16 =>
      show (bytesNat (bytes.take (4 * n)) [2 * ((bytes.take (4 * n)).length / 4) + i, 3 * ((bytes.take (4 * n)).length / 4) + i] 0).map (toSigned 16) = _
      rw [hl, hq, two _ _ (by omega) (by omega), Nat.mul_comm 2 n, Nat.mul_comm 3 n]
      rfl
    all_goals
      show (bytesNat (bytes.take (4 * n)) [i, i + (bytes.take (4 * n)).length / 4, i + 2 * ((bytes.take (4 * n)).length / 4),
        i + 3 * ((bytes.take (4 * n)).length / 4)] 0).map (toSigned 32) = _
      rw [hl, hq, four _ _ _ _ (by omega) (by omega) (by omega) (by omega)]
      show _ = Res.ok (if (bytes.getD (n * 0 + i) 0).toNat < 128 then ((16777216 * (bytes.getD (n * 0 + i) 0).toNat +
          65536 * (bytes.getD (n * 1 + i) 0).toNat + 256 * (bytes.getD (n * 2 + i) 0).toNat + (bytes.getD (n * 3 + i) 0).toNat : Nat) : Int)
        else ((16777216 * (bytes.getD (n * 0 + i) 0).toNat + 65536 * (bytes.getD (n * 1 + i) 0).toNat +
          256 * (bytes.getD (n * 2 + i) 0).toNat + (bytes.getD (n * 3 + i) 0).toNat : Nat) : Int) - 4294967296)
      rw [show n * 0 + i = i by omega, show n * 1 + i = i + n by omega, show n * 2 + i = i + 2 * n by omega,
        show n * 3 + i = i + 3 * n by omega]

/-- **C78, exactly, for GZIP**: whatever the tiles hold, and whatever their width, as many numbers of four bytes are taken from
each as whole tiles have pixels, and what is left of the last bytes of each number is given.  The iteration ends at
the first tile that decompresses to fewer bytes, if there is one. -/
theorem C78_exact_gzip {p : Profile} {f f' : Fits} {x : Hdu BinTable} {z : TileCompressedImage} {it : TileIt}
    {gz : Gunzip} {fuel : Nat} {sc : Nat → Scaling}
    (ho : TilesOpened p f f' x z it) (hl : Legal x.header.xtension f.rd.data x.dataOffset)
    (hc : Complete x.header.xtension f.rd.data x.dataOffset) (one : Aligned x.header.xtension z)
    (ht : TileTable x.header z (f.rd.data.drop x.dataOffset) sc) (hf : x.header.xtension.naxis1 < fuel)
    (hz : z.zCmpType = .gzip1 ∨ z.zCmpType = .gzip2) :
    ∃ m ≤ x.header.xtension.naxis2,
      (∀ r < m, 4 * Spec.product z.zTilen ≤
        (gz (tileBytes x.header.xtension (f.rd.data.drop x.dataOffset) r z.dataCompressedIdx)).length) ∧
      (m < x.header.xtension.naxis2 →
        (gz (tileBytes x.header.xtension (f.rd.data.drop x.dataOffset) m z.dataCompressedIdx)).length < 4 * Spec.product z.zTilen) ∧
      ∀ n, (m < x.header.xtension.naxis2 → n ≤ m * Spec.product z.zTilen + 1) →
        it.run p gz fuel n = tileScan ((List.range m).flatMap fun r => (List.range (Spec.product z.zTilen)).map fun i =>
          pixelOf z.zBitpix (sc r) (readAs z.zBitpix z.zCmpType (Spec.product z.zTilen)
            (gz (tileBytes x.header.xtension (f.rd.data.drop x.dataOffset) r z.dataCompressedIdx)) i)) n := by
  obtain ⟨m, m1, m2, m3⟩ := first_row (fun r => (gz (tileBytes x.header.xtension (f.rd.data.drop x.dataOffset) r
    z.dataCompressedIdx)).length < 4 * Spec.product z.zTilen) x.header.xtension.naxis2
  have hlong : ∀ r < m, 4 * Spec.product z.zTilen ≤
      (gz (tileBytes x.header.xtension (f.rd.data.drop x.dataOffset) r z.dataCompressedIdx)).length :=
    fun r hr => Nat.le_of_not_lt (m2 r hr)
  have hdec : ∀ r < m, ∃ buf, TileIt.decompress p gz fuel z.zCmpType (Spec.product z.zTilen) (4 * Spec.product z.zTilen)
        (tileBytes x.header.xtension (f.rd.data.drop x.dataOffset) r z.dataCompressedIdx) = some (.ok buf) ∧
      buf.length = 4 * Spec.product z.zTilen ∧
      ∀ (i : Nat) (v : Int), ((List.range (Spec.product z.zTilen)).map (readAs z.zBitpix z.zCmpType (Spec.product z.zTilen)
        (gz (tileBytes x.header.xtension (f.rd.data.drop x.dataOffset) r z.dataCompressedIdx))))[i]? = some v →
        TileIt.rawValue z.zBitpix z.zCmpType buf i = .ok v := by
    intro r hr
    have hlr := hlong r hr
    refine ⟨(gz (tileBytes x.header.xtension (f.rd.data.drop x.dataOffset) r z.dataCompressedIdx)).take
      (4 * Spec.product z.zTilen), ?_, by rw [List.length_take]; omega, fun i v hi => ?_⟩
    · unfold decompress
      rcases hz with hz | hz <;> rw [hz] <;> dsimp only <;> rw [if_pos hlr]
    · have hin : i < Spec.product z.zTilen := by
        have := (List.getElem?_eq_some_iff.1 hi).1
        rwa [List.length_map, List.length_range] at this
      rw [List.getElem?_map, List.getElem?_range hin] at hi
      cases hi
      exact rawValue_readAs hz hlr hin
  obtain ⟨T, S, hT, t1, t2, t3, t4, t5, t6, hb, hn, hSm, hSraw, hpix, hcmp, -, hoff⟩ :=
    tiling' m1 ho hl one ht (fun r hr => by rw [List.length_map, List.length_range]) hdec
  have hcols : T.cols = List.range T.x.tforms.length := by rw [t5, t2]
  have hmain : T.start + T.x.naxis1 * T.x.naxis2 ≤ T.data.length := by rw [t2, t3, t4]; exact hc
  have hrf := row_fuel t2 t5 t6 hl.width hf
  have hrest : S.rest 0 = (List.range m).flatMap fun r => (List.range (Spec.product z.zTilen)).map fun i =>
      pixelOf z.zBitpix (sc r) (readAs z.zBitpix z.zCmpType (Spec.product z.zTilen)
        (gz (tileBytes x.header.xtension (f.rd.data.drop x.dataOffset) r z.dataCompressedIdx)) i) := by
    unfold Tiling.rest Tiling.tile
    rw [List.drop_zero, hSm, hSraw, hpix]
    simp only [List.map_map]
    rfl
  have hleft : S.Left _ it := .inl ⟨0, Nat.zero_le _, hb, hrest.symm⟩
  refine ⟨m, m1, hlong, m3, fun n hn' => ?_⟩
  by_cases hm : m < x.header.xtension.naxis2
  · have hlen : ((List.range m).flatMap fun r => (List.range (Spec.product z.zTilen)).map fun i =>
        pixelOf z.zBitpix (sc r) (readAs z.zBitpix z.zCmpType (Spec.product z.zTilen)
          (gz (tileBytes x.header.xtension (f.rd.data.drop x.dataOffset) r z.dataCompressedIdx)) i)).length =
        m * Spec.product z.zTilen := by
      simp only [List.length_flatMap, List.length_map, List.length_range, List.map_const', List.sum_replicate_nat]
    have he : TileIt.decompress p gz fuel z.zCmpType (Spec.product z.zTilen) (4 * Spec.product z.zTilen)
        (tileBytes x.header.xtension (f.rd.data.drop x.dataOffset) m z.dataCompressedIdx) = some (.err (.io .unexpectedEof)) := by
      have hlt := m3 hm
      unfold decompress
      rcases hz with hz | hz <;> rw [hz] <;> dsimp only <;> rw [if_neg (by omega)]
    have := hleft.run_stop hT hcols hmain hrf (by rw [hSm, t2]; exact hm) (e := .io .unexpectedEof) (by
      rw [hSm, hn, t1, hcmp, t2, t3, t4, hoff, drop_heap]
      exact he) n (by rw [hlen]; exact hn' hm)
    rw [t1] at this
    exact this
  · have hm' : S.m = T.x.naxis2 := by rw [hSm, t2]; omega
    have := hleft.run hT hcols hmain hrf (by omega) hm' n
    rw [t1] at this
    exact this

/-- In particular, if the first tile holds numbers of fewer than four bytes, the iteration ends at once. -/
theorem C78_exact_narrow {p : Profile} {f f' : Fits} {x : Hdu BinTable} {z : TileCompressedImage} {it : TileIt}
    {gz : Gunzip} {fuel : Nat} {sc : Nat → Scaling}
    (ho : TilesOpened p f f' x z it) (hl : Legal x.header.xtension f.rd.data x.dataOffset)
    (hc : Complete x.header.xtension f.rd.data x.dataOffset) (one : Aligned x.header.xtension z)
    (ht : TileTable x.header z (f.rd.data.drop x.dataOffset) sc) (hf : x.header.xtension.naxis1 < fuel)
    (hz : z.zCmpType = .gzip1 ∨ z.zCmpType = .gzip2) (hpos : 0 < Spec.product z.zTilen) {w : Nat} (hw : w < 4)
    (hfirst : (gz (tileBytes x.header.xtension (f.rd.data.drop x.dataOffset) 0 z.dataCompressedIdx)).length =
      w * Spec.product z.zTilen) :
    it.run p gz fuel 1 = [some (.ok none)] := by
  obtain ⟨m, m1, m2, m3, m4⟩ := C78_exact_gzip (gz := gz) ho hl hc one ht hf hz
  have hlt : w * Spec.product z.zTilen < 4 * Spec.product z.zTilen := Nat.mul_lt_mul_of_pos_right hw hpos
  have hm : m = 0 := by
    cases m with
    | zero => rfl
    | succ m =>
      have := m2 0 (by omega)
      omega
  subst hm
  rw [m4 1 (fun _ => by omega)]
  rfl

theorem shorts_table {h : Hdu BinTable} (h1 : h.header.xtension = shortsTileTable) :
    TileTable h.header shortsTileImage (shortsTileFile.drop 5760) (fun _ => ⟨.double 0, .double 0, none⟩) := by
  refine ⟨by rw [h1]; exact .inl rfl, ?_, by decide, by decide, fun hf => absurd hf (by decide), rfl⟩
  rw [h1]
  change ∀ r < 1, shortsTileTable.theap + (descriptor shortsTileTable (shortsTileFile.drop 5760) r 0).2 +
    (descriptor shortsTileTable (shortsTileFile.drop 5760) r 0).1 ≤ (shortsTileFile.drop 5760).length
  decide +kernel

theorem shorts_one : OneValue shortsTileTable := by
  intro ty rep h
  simp [shortsTileTable] at h

/-- The image of `C78_fails_gzip`: two shorts of two bytes are not given; of four bytes they are. -/
example : ∃ f' h it, TilesOpened .wrapping (afterPrimary shortsTileFile) f' h shortsTileImage it ∧
    it.run .wrapping (.of (List.take 4)) 9 1 = [some (.ok none)] ∧
    ∀ n, it.run .wrapping (.of fun _ => [0, 0, 1, 2, 0xFF, 0xFF, 0xFF, 0xFE]) 9 n = tileScan [.int 258, .int (-2)] n := by
  obtain ⟨f', h, it, ho, h1, h2, -⟩ := tiles_opened sample_shortsTile rfl
  have hl : Legal h.header.xtension (afterPrimary shortsTileFile).rd.data h.dataOffset := by
    rw [h1, h2]; exact legal_sample (by decide) (by decide) (by decide) (by decide) (by decide +kernel)
  have hc : Complete h.header.xtension (afterPrimary shortsTileFile).rd.data h.dataOffset := by rw [h1, h2]; decide +kernel
  have one : Aligned h.header.xtension shortsTileImage := by rw [h1]; exact shorts_one.aligned _
  have ht : TileTable h.header shortsTileImage ((afterPrimary shortsTileFile).rd.data.drop h.dataOffset)
      (fun _ => ⟨.double 0, .double 0, none⟩) := by rw [h2]; exact shorts_table h1
  refine ⟨f', h, it, ho, C78_exact_narrow (w := 2) ho hl hc one ht (by rw [h1]; decide) (.inl rfl) (by decide) (by decide) ?_,
    fun n => ?_⟩
  · rw [h1, h2]
    decide +kernel
  · obtain ⟨m, m1, m2, m3, m4⟩ := C78_exact_gzip (gz := .of fun _ => [0, 0, 1, 2, 0xFF, 0xFF, 0xFF, 0xFE]) (fuel := 9)
      ho hl hc one ht (by rw [h1]; decide) (.inl rfl)
    have hrows : h.header.xtension.naxis2 = 1 := by rw [h1]; rfl
    rw [hrows] at m1 m3 m4
    have hm : m = 1 := by
      refine Nat.le_antisymm m1 (Nat.le_of_not_lt fun hlt => ?_)
      exact absurd (show 8 < 4 * Spec.product shortsTileImage.zTilen from m3 hlt) (by decide)
    subst hm
    rw [m4 n (fun h => absurd h (by decide))]
    generalize tileBytes h.header.xtension (List.drop h.dataOffset (afterPrimary shortsTileFile).rd.data) = b
    show tileScan ([0].flatMap fun r => [0, 1].map fun i => pixelOf .i16 ⟨.double 0, .double 0, none⟩
      (readAs .i16 .gzip1 2 [0, 0, 1, 2, 0xFF, 0xFF, 0xFF, 0xFE] i)) n = _
    congr 1

end Fitsrs

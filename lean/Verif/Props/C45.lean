import Verif.Props.C44_C45

/-!
# C45: which columns may come before that of the compressed data
-/

namespace Fitsrs

open Spec

/-- The value looked up for the compressed data lies in an earlier column of plain values, if one of these has several. -/
theorem arrayOffset_early {x : BinTable} {unit : List UInt8} {r c : Nat} (hc : c < x.tforms.length)
    (hp : ∀ b < c, ∃ ty rep, x.tforms[b]? = some (.plain ty rep) ∧ 0 < count ty rep)
    (hm : ∃ b < c, ∃ ty rep, x.tforms[b]? = some (.plain ty rep) ∧ 1 < count ty rep) :
    TileIt.arrayOffset (rowValues false x unit (List.range x.tforms.length) r) c = .panic := by
  have cell : ∀ b < c, ∀ ty rep, x.tforms[b]? = some (.plain ty rep) →
      (cellValues false x unit r b).length = count ty rep := by
    intro b _ ty rep h
    unfold cellValues
    dsimp only
    rw [h]
    exact elements_length
  -- the values of the columns before
  have key : ∀ m ≤ c, m ≤ ((List.range m).flatMap (cellValues false x unit r)).length ∧
      ((∃ b < m, ∃ ty rep, x.tforms[b]? = some (.plain ty rep) ∧ 1 < count ty rep) →
        m < ((List.range m).flatMap (cellValues false x unit r)).length) := by
    intro m
    induction m with
    | zero => exact fun _ => ⟨Nat.zero_le _, fun ⟨b, h, _⟩ => by omega⟩
    | succ m ih =>
      intro hm
      obtain ⟨i1, i2⟩ := ih (by omega)
      obtain ⟨ty, rep, h1, h2⟩ := hp m (by omega)
      have h3 := cell m (by omega) ty rep h1
      rw [List.range_succ, List.flatMap_append, List.length_append]
      simp only [List.flatMap_cons, List.flatMap_nil, List.append_nil]
      refine ⟨by omega, ?_⟩
      rintro ⟨b, hb, ty', rep', g1, g2⟩
      by_cases hbm : b = m
      · subst hbm
        rw [h1] at g1
        cases g1
        omega
      · have := i2 ⟨b, by omega, ty', rep', g1, g2⟩
        omega
  have hlen := (key c (Nat.le_refl _)).2 hm
  have hmem : ∃ v, (rowValues false x unit (List.range x.tforms.length) r)[c]? = some v ∧
      v ∈ (List.range c).flatMap (cellValues false x unit r) := by
    obtain ⟨k, hk⟩ : ∃ k, x.tforms.length = c + k := ⟨x.tforms.length - c, by omega⟩
    unfold rowValues
    rw [hk, List.range_add, List.flatMap_append, List.getElem?_append_left (by omega)]
    exact ⟨_, List.getElem?_eq_getElem (by omega), List.getElem_mem _⟩
  obtain ⟨v, hv, hmem⟩ := hmem
  obtain ⟨b, hb, hvb⟩ := List.mem_flatMap.1 hmem
  obtain ⟨ty, rep, h1, -⟩ := hp b (List.mem_range.1 hb)
  unfold cellValues at hvb
  dsimp only at hvb
  rw [h1] at hvb
  unfold elements at hvb
  obtain ⟨i, -, rfl⟩ := List.mem_map.1 hvb
  unfold TileIt.arrayOffset
  rw [hv]

/-- If only plain values come before the column of the compressed data, and one of their columns has several values, the
first call of `next` panics. -/
theorem C45_panics {p : Profile} {f f' : Fits} {x : Hdu BinTable} {z : TileCompressedImage} {it : TileIt}
    {gz : Gunzip} {fuel : Nat} (ho : TilesOpened p f f' x z it)
    (hl : Legal x.header.xtension f.rd.data x.dataOffset) (hc : Complete x.header.xtension f.rd.data x.dataOffset)
    (cells : ∀ ty rep, TForm.plain ty rep ∈ x.header.xtension.tforms → 0 < rep ∧ (ty = .X → rep % 8 ≠ 0))
    (hz : 4 * Spec.product z.zTilen < 2 ^ 63) (hpos : ∀ t ∈ z.zTilen, 0 < t)
    (hf : x.header.xtension.naxis1 < fuel) (hrows : 0 < x.header.xtension.naxis2)
    (hd : z.dataCompressedIdx < x.header.xtension.tforms.length)
    (hp : ∀ b < z.dataCompressedIdx, ∃ ty rep, x.header.xtension.tforms[b]? = some (.plain ty rep))
    (hm : ∃ b < z.dataCompressedIdx, ∃ ty rep, x.header.xtension.tforms[b]? = some (.plain ty rep) ∧ 1 < count ty rep) :
    ∃ it', it.next p gz fuel = some (.panic, it') := by
  obtain ⟨T, hT, t1, t2, t3, t4, t5, t6, hs, hrow, -, hzt, -, hidx, hrem, -⟩ := ho.main hl cells hz hpos
  have hmain : T.start + T.x.naxis1 * T.x.naxis2 ≤ T.data.length := by rw [t2, t3, t4]; exact hc
  have hk : 0 < T.x.naxis2 := by rw [t2]; exact hrows
  have e : T.rowAt 0 = rowValues T.heap T.x T.unit T.cols 0 := if_pos hk
  obtain ⟨t', h1, -⟩ := collect_row (acc := []) hT hmain hk hs (fuel := fuel)
    (by rw [e]; exact row_fuel t2 t5 t6 hl.width hf 0 hk)
  rw [List.nil_append] at h1
  have hn : it.rows.next p fuel = some (.ok (some (T.rowAt 0)), ⟨t', 1⟩) := by
    unfold TableRows.next
    rw [hrow, ← t1, h1]
  have hoff := arrayOffset_early (unit := T.unit) (r := 0) hd
    (fun b hb => by
      obtain ⟨ty, rep, h⟩ := hp b hb
      have h0 := (cells ty rep (List.mem_of_getElem? h)).1
      refine ⟨ty, rep, h, ?_⟩
      unfold count
      split <;> omega) hm
  rw [e, t2, t5, t6] at hn
  unfold TileIt.next
  rw [if_pos hrem]
  unfold TileIt.load
  rw [hn]
  dsimp only
  unfold TileIt.openTile
  dsimp only
  rw [hidx, hoff]
  exact ⟨_, rfl⟩

/-- **C45, exactly**, for integer pixels and tables where only plain values come before the column of the compressed data:
if each of these columns has one value, the buffer holds what the decoder makes of the bytes of the row in hand, and
otherwise the first call of `next` panics. -/
theorem C45_exact {p : Profile} {f f' : Fits} {x : Hdu BinTable} {z : TileCompressedImage} {it : TileIt}
    {gz : Gunzip} {fuel : Nat} {sc : Nat → Scaling} (ho : TilesOpened p f f' x z it)
    (hl : Legal x.header.xtension f.rd.data x.dataOffset) (hc : Complete x.header.xtension f.rd.data x.dataOffset)
    (cells : ∀ ty rep, TForm.plain ty rep ∈ x.header.xtension.tforms → 0 < rep ∧ (ty = .X → rep % 8 ≠ 0))
    (ht : TileTable x.header z (f.rd.data.drop x.dataOffset) sc) (hint : ¬ IsFloat z.zBitpix)
    (hf : x.header.xtension.naxis1 < fuel) (hrows : 0 < x.header.xtension.naxis2)
    (hp : ∀ b < z.dataCompressedIdx, ∃ ty rep, x.header.xtension.tforms[b]? = some (.plain ty rep))
    (hdec : ∀ r < x.header.xtension.naxis2, ∃ buf,
      TileIt.decompress p gz fuel z.zCmpType (Spec.product z.zTilen) (4 * Spec.product z.zTilen)
        (tileBytes x.header.xtension (f.rd.data.drop x.dataOffset) r z.dataCompressedIdx) = some (.ok buf) ∧
      buf.length = 4 * Spec.product z.zTilen) :
    ((∀ b < z.dataCompressedIdx, ∀ ty rep, x.header.xtension.tforms[b]? = some (.plain ty rep) → count ty rep = 1) →
      ∀ r < x.header.xtension.naxis2, ∀ j < Spec.product z.zTilen, ∃ it',
        it.after p gz fuel (r * Spec.product z.zTilen + j + 1) = some it' ∧
        TileIt.decompress p gz fuel z.zCmpType (Spec.product z.zTilen) (4 * Spec.product z.zTilen)
          (tileBytes x.header.xtension (f.rd.data.drop x.dataOffset) r z.dataCompressedIdx) = some (.ok it'.buf) ∧
        it'.rows.data.rd = ⟨f.rd.data, x.dataOffset + (r + 1) * x.header.xtension.naxis1⟩) ∧
    ((∃ b < z.dataCompressedIdx, ∃ ty rep, x.header.xtension.tforms[b]? = some (.plain ty rep) ∧ count ty rep ≠ 1) →
      it.run p gz fuel 1 = [some .panic]) := by
  refine ⟨fun h r hr j hj => ?_, ?_⟩
  · refine C45_partial ho hl hc ⟨cells, ?_⟩ ht hf hdec hr hj
    intro c hu b hb ty rep hg
    rcases hu with rfl | ⟨hfl, -⟩
    · exact h b hb ty rep hg
    · exact absurd hfl hint
  · rintro ⟨b, hb, ty, rep, h1, h2⟩
    have hd : z.dataCompressedIdx < x.header.xtension.tforms.length := by
      rcases ht.array with h | h <;> exact (List.getElem?_eq_some_iff.1 h).1
    have h0 := (cells ty rep (List.mem_of_getElem? h1)).1
    have hne : count ty rep ≠ 0 := by
      unfold count
      split <;> omega
    obtain ⟨it', h⟩ := C45_panics (gz := gz) ho hl hc cells ht.small ht.axes hf hrows hd hp ⟨b, hb, ty, rep, h1, by omega⟩
    rw [TileIt.run, h]
    rfl

/-- With two bytes before the compressed data, the first call panics, whatever the decoder. -/
example (gz : Gunzip) (fuel : Nat) (hf : 10 < fuel) : ∃ f' h it it',
    TilesOpened .wrapping (afterPrimary pairFile) f' h pairImage it ∧ it.next .wrapping gz fuel = some (.panic, it') := by
  obtain ⟨f', h, it, ho, h1, h2, -⟩ := tiles_opened sample_pair rfl
  obtain ⟨it', h3⟩ := C45_panics (gz := gz) (fuel := fuel) ho
    (by rw [h1, h2]; exact legal_sample (by decide) (by decide) (by decide) (by decide) (by decide +kernel))
    (by rw [h1, h2]; decide +kernel)
    (by
      rw [h1]
      intro ty rep h
      simp [pairTable] at h
      rcases h with ⟨rfl, rfl⟩
      exact ⟨by decide, by decide⟩) (by decide) (by decide) (by rw [h1]; exact hf) (by rw [h1]; decide)
    (by rw [h1]; decide)
    (by
      rw [h1]
      intro b hb
      have hb : b = 0 := by change b < 1 at hb; omega
      subst hb
      exact ⟨_, _, rfl⟩)
    ⟨0, by decide, _, _, by rw [h1]; rfl, by decide⟩
  exact ⟨f', h, it, it', ho, h3⟩

end Fitsrs

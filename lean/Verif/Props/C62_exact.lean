import Verif.Props.C36
import Verif.Props.C62
/-
C62, exactly: the bytes of a binary table of which something has been read.
-/

namespace Fitsrs
open Spec TableData

/-- Where the reader stands. -/
theorem Tab.State.offset {T : Tab} (hT : T.Ok) (hh : T.heap = true) {r : Nat} {cur : List DataValue} {t : TableData}
    (h : T.State r cur t) : t.rd = ⟨T.data, T.start + placeOffset T.x T.unit (r, cur)⟩ ∧ t.mainSize = T.x.naxis1 * T.x.naxis2 := by
  rcases h with ⟨rfl, rfl, k, i, -, rfl⟩ | ⟨hr, k, c, i, hk, hi, hat, hcur⟩
  · refine ⟨?_, rfl⟩
    show Reader.mk T.data (T.start + T.x.naxis1 * T.x.naxis2) = ⟨T.data, T.start + T.x.naxis2 * T.x.naxis1⟩
    rw [Nat.mul_comm]
  · obtain ⟨tf, hf⟩ := hT.form (mem_cols hk)
    have hel : ∀ {ty o n}, cellValues T.heap T.x T.unit r c = elements T.unit ty c o n →
        ∃ v l, cur = .cell c i v :: l := by
      intro ty o n e
      rw [e] at hi hcur
      rw [List.drop_eq_getElem_cons hi, List.cons_append, elements_get] at hcur
      exact ⟨_, _, hcur⟩
    unfold Tab.At at hat
    cases tf with
    | plain ty rep =>
      simp only [hf] at hat
      obtain ⟨v, l, rfl⟩ := hel (ty := ty) (by unfold cellValues; simp only [hf]; rfl)
      subst hat
      refine ⟨?_, rfl⟩
      unfold placeOffset valueOffset
      simp only [hf]
      rfl
    | P ty =>
      simp only [hf] at hat
      obtain ⟨v, l, rfl⟩ := hel (ty := ty) (by unfold cellValues arrayValues; simp only [hf, hh, if_true]; rfl)
      unfold placeOffset valueOffset descriptor
      simp only [hf]
      by_cases h0 : i = 0
      · rw [if_pos h0] at hat ⊢
        subst hat
        exact ⟨rfl, rfl⟩
      · rw [if_neg h0] at hat ⊢
        rw [hat.2]
        exact ⟨rfl, rfl⟩
    | Q ty =>
      simp only [hf] at hat
      obtain ⟨v, l, rfl⟩ := hel (ty := ty) (by unfold cellValues arrayValues; simp only [hf, hh, if_true]; rfl)
      unfold placeOffset valueOffset descriptor
      simp only [hf]
      by_cases h0 : i = 0
      · rw [if_pos h0] at hat ⊢
        subst hat
        exact ⟨rfl, rfl⟩
      · rw [if_neg h0] at hat ⊢
        rw [hat.2]
        exact ⟨rfl, rfl⟩

/-- **C62, exactly**, for binary tables: after any calls of `next` and `seek_to_row`, `bytes` gives the bytes from the next value on,
as many as the main table has, as far as they are in the file, and then `None`. -/
theorem C62_exact {p : Profile} {f f' : Fits} {x : Hdu BinTable} {t : TableData} (ho : Opened p f f' x t)
    (hl : Legal x.header.xtension f.rd.data x.dataOffset) (hc : Complete x.header.xtension f.rd.data x.dataOffset)
    (hi : CellsIn x.header.xtension f.rd.data x.dataOffset (List.range x.header.xtension.tforms.length))
    {rows : List (List DataValue)}
    (hrows : rows = rowsOf x.header.xtension (f.rd.data.drop x.dataOffset) (List.range x.header.xtension.tforms.length))
    (ops : List TableOp) (hs : PlainColumns x.header.xtension ∨ SeeksOutside x.header.xtension rows rows.flatten ops) (n : Nat) :
    (t.afterOps p ops).bytes.run n = bytesThenNone ((f.rd.data.drop (x.dataOffset + placeOffset x.header.xtension
      (f.rd.data.drop x.dataOffset) (placeAfter rows (0, rows[0]?.getD []) ops))).take
        (x.header.xtension.naxis1 * x.header.xtension.naxis2)) n := by
  obtain ⟨T, hT, h1, h2, h3, h4, h5, h6, hst, -⟩ := ho.left hl hi
  have hmain : T.start + T.x.naxis1 * T.x.naxis2 ≤ T.data.length := by rw [h2, h3, h4]; exact hc
  have hr : rows = (List.range T.x.naxis2).map (rowValues T.heap T.x T.unit T.cols) := by
    unfold Tab.unit
    rw [hrows, h2, h3, h4, h5, h6]
    rfl
  rw [rowAt_get hr] at hst
  have hst' := state_after hT hmain hr ops (s := (0, rows[0]?.getD [])) hst (by
    rcases hs with hs | hs
    · exact .inl (hs.plain h2 (by rw [h5]; exact fun c hm => List.mem_range.1 hm))
    · refine .inr ?_
      dsimp only
      rw [← rowAt_get hr, ← T.rest_eq, h2]
      unfold Tab.rest
      rw [List.drop_zero, List.flatMap_def, ← hr]
      exact hs)
  obtain ⟨e1, e2⟩ := hst'.offset hT h6
  rw [ByteStream.run_rest]
  unfold TableData.bytes
  rw [← h1, e1, e2]
  unfold Tab.unit
  rw [h2, h3, h4]
  rfl

set_option maxRecDepth 20000 in
/-- After two values of the second row: the last three bytes, after which the file ends. -/
example (p : Profile) : ∃ f' h t, Opened p (afterPrimary mixedFile) f' h t ∧
    (t.afterOps p [.next, .seek 1, .next, .next]).bytes.run 5 = [some 68, some 69, some 70, none, none] := by
  obtain ⟨f', h, ho, h1, h2⟩ := opened_mixed p
  refine ⟨f', h, _, ho, ?_⟩
  rw [C62_exact ho (by rw [h1, h2]; exact legal_mixed) (by rw [h1, h2]; decide +kernel)
    (by rw [h1, h2]; exact cells_mixed _ _ (by decide)) rfl _ (.inl (by rw [h1]; exact plain_mixed)), h1, h2]
  decide +kernel

set_option maxRecDepth 20000 in
/-- Inside an array, the bytes are those of the heap. -/
example (p : Profile) : ∃ f' h t, Opened p (afterPrimary arrayFile) f' h t ∧
    (t.afterOps p [.next]).bytes.run 2 = [some 0, some 6] := by
  obtain ⟨f', h, ho, h1, h2⟩ := opened_array p
  refine ⟨f', h, _, ho, ?_⟩
  rw [C62_exact ho (by rw [h1, h2]; exact legal_array) (by rw [h1, h2]; decide +kernel)
    (by rw [h1, h2]; exact cells_array) rfl _ (.inr (by simp [SeeksOutside])), h1, h2]
  decide +kernel

end Fitsrs

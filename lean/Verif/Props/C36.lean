import Verif.Props.C35_C36
import Verif.Spec.Place
/-
C36, exactly: iterating by rows after some values have been read or a row has been sought.
-/

namespace Fitsrs
open Spec TableData

theorem rowScan_cons (row : List DataValue) (rows : List (List DataValue)) (n : Nat) :
    rowScan (row :: rows) (n + 1) = some (.ok (some row)) :: rowScan rows n := by
  unfold rowScan
  rw [List.take_succ_cons, List.map_cons, List.cons_append, List.length_cons, Nat.add_sub_add_right]

theorem rowAt_get {T : Tab} {rows : List (List DataValue)}
    (hrows : rows = (List.range T.x.naxis2).map (rowValues T.heap T.x T.unit T.cols)) (r : Nat) :
    T.rowAt r = rows[r]?.getD [] := by
  subst hrows
  unfold Tab.rowAt
  rw [List.getElem?_map]
  by_cases h : r < T.x.naxis2
  · rw [if_pos h, List.getElem?_range h]
    rfl
  · rw [if_neg h, List.getElem?_eq_none (by simpa using h)]
    rfl

/-- Rows, from a state. -/
theorem rows_from {T : Tab} (hT : T.Ok) (hmain : T.start + T.x.naxis1 * T.x.naxis2 ≤ T.data.length) {fuel : Nat}
    {rows : List (List DataValue)} (hrows : rows = (List.range T.x.naxis2).map (rowValues T.heap T.x T.unit T.cols))
    (hf : ∀ row ∈ rows, row.length < fuel) (h0 : 0 < fuel) (n : Nat) {j r : Nat} {cur : List DataValue}
    {t : TableData} (h : T.State r cur t) (hc : cur.length < fuel) (hj : j ≤ r) :
    (TableRows.mk t j).run T.p fuel n = rowScan (List.replicate (r - j) [] ++
      if r < T.x.naxis2 then cur :: rows.drop (r + 1) else []) n := by
  have hf' : ∀ r < T.x.naxis2, (rowValues T.heap T.x T.unit T.cols r).length < fuel := by
    intro r hr
    refine hf _ ?_
    rw [hrows]
    exact List.mem_map.2 ⟨r, List.mem_range.2 hr, rfl⟩
  induction n generalizing j with
  | zero => simp [TableRows.run, rowScan]
  | succ n ih =>
    rw [TableRows.run]
    unfold TableRows.next
    dsimp only
    by_cases hjr : j = r
    · subst hjr
      rw [Nat.sub_self, List.replicate_zero, List.nil_append]
      by_cases hr : j < T.x.naxis2
      · obtain ⟨t', h1, h2⟩ := collect_row (acc := []) hT hmain hr h (fuel := fuel) hc
        rw [h1]
        dsimp only
        rw [rows_run hT hmain hf' h0 n h2, if_pos hr, rowScan_cons, List.nil_append, ← hrows]
      · have hr' : j = T.x.naxis2 := by have := h.le; omega
        rw [if_neg hr]
        subst hr'
        have hcur : cur = [] := by
          rcases h with ⟨-, h, -⟩ | ⟨h, -⟩
          · exact h
          · omega
        subst hcur
        rw [collect_end h h0]
        dsimp only
        have := ih (j := T.x.naxis2) (Nat.le_refl _)
        rw [this, Nat.sub_self, if_neg (by omega)]
        simp [rowScan, List.replicate_succ]
    · obtain ⟨fuel, rfl⟩ : ∃ m, fuel = m + 1 := ⟨fuel - 1, by omega⟩
      rw [TableRows.collect, if_neg (by rw [h.row]; omega)]
      dsimp only
      rw [ih (j := j + 1) (by omega), show r - j = (r - (j + 1)) + 1 by omega, List.replicate_succ, List.cons_append,
        rowScan_cons]

/-- The state after some operations. -/
theorem state_after {T : Tab} (hT : T.Ok) (hmain : T.start + T.x.naxis1 * T.x.naxis2 ≤ T.data.length)
    {rows : List (List DataValue)} (hrows : rows = (List.range T.x.naxis2).map (rowValues T.heap T.x T.unit T.cols))
    (ops : List TableOp) {s : Place} {t : TableData} (h : T.State s.1 s.2 t)
    (hp : T.Plain ∨ SeeksOutside T.x rows (s.2 ++ T.rest (s.1 + 1)) ops) :
    T.State (placeAfter rows s ops).1 (placeAfter rows s ops).2 (t.afterOps T.p ops) := by
  have hlen : rows.length = T.x.naxis2 := by rw [hrows]; simp
  induction ops generalizing s t with
  | nil => exact h
  | cons o ops ih =>
    obtain ⟨r, cur⟩ := s
    dsimp only at h hp
    cases o with
    | next =>
      show T.State (placeAfter rows (placeStep rows (r, cur) .next) ops).1 _ ((t.next T.p).2.afterOps T.p ops)
      cases cur with
      | nil =>
        have hfin : T.Fin t := by
          by_cases hr : r < T.x.naxis2
          · exact absurd rfl (h.cur_ne hr)
          · rcases h with ⟨-, -, h⟩ | ⟨h, -⟩
            · exact h
            · omega
        rw [next_fin hfin]
        refine ih (s := (r, [])) h (hp.imp id fun hq => ?_)
        have hr : r = T.x.naxis2 := by
          by_cases hr : r < T.x.naxis2
          · exact absurd rfl (h.cur_ne hr)
          · have := h.le; omega
        dsimp only
        rw [T.rest_end (by omega)] at hq ⊢
        exact hq
      | cons v cur =>
        obtain ⟨t', h1, h2⟩ := h.step hT hmain
        rw [h1]
        rcases h2 with ⟨hne, h2⟩ | ⟨rfl, h2⟩
        · obtain ⟨w, cur, rfl⟩ := List.exists_cons_of_ne_nil hne
          exact ih (s := (r, w :: cur)) h2 (hp.imp id id)
        · rw [rowAt_get hrows] at h2
          refine ih (s := (r + 1, rows[r + 1]?.getD [])) h2 (hp.imp id fun hq => ?_)
          dsimp only
          rw [← rowAt_get hrows, ← T.rest_eq]
          exact hq
    | seek r' =>
      show T.State (placeAfter rows (placeStep rows (r, cur) (.seek r')) ops).1
        (placeAfter rows (placeStep rows (r, cur) (.seek r')) ops).2 ((t.seekToRow T.p r').2.afterOps T.p ops)
      by_cases hr : r' < rows.length
      · obtain ⟨k, i, bo, rfl, hbo⟩ : ∃ k i bo, t = T.main r k i bo ∧ bo ≤ T.x.naxis1 * T.x.naxis2 := by
          rcases hp with hp | hp
          · exact h.form hT hp
          · unfold SeeksOutside at hp
            rw [if_pos hr] at hp
            exact h.form_outside hT hp.1
        have hp' : T.Plain ∨ SeeksOutside T.x rows (rows.drop r').flatten ops := hp.imp id (fun h => by
          unfold SeeksOutside at h
          rw [if_pos hr] at h
          exact h.2)
        have e : placeStep rows (r, cur) (.seek r') = (r', rows[r']?.getD []) := if_pos hr
        rw [e]
        rw [hlen] at hr
        have h0 : 0 < T.cols.length := List.length_pos_iff.2 hT.readable.nonempty
        rw [seekToRow_main hT hr h0 hbo]
        refine ih (s := (r', rows[r']?.getD [])) ?_ (hp'.imp id fun hq => ?_)
        · rw [← rowAt_get hrows]
          exact Tab.Left.start hT hr h0
        · dsimp only
          rw [← rowAt_get hrows, ← T.rest_eq]
          unfold Tab.rest
          rw [hrows, ← List.map_drop, ← List.flatMap_def] at hq
          rw [hrows]
          exact hq
      · have e : placeStep rows (r, cur) (.seek r') = (r, cur) := if_neg hr
        rw [e]
        obtain ⟨e, he⟩ := seekToRow_err (p := T.p) (t := t) (r := r') (by rw [h.ctx]; omega)
        rw [he]
        refine ih (s := (r, cur)) h (hp.imp id (fun h => by
          unfold SeeksOutside at h
          rw [if_neg hr] at h
          exact h))

/-- The values of the current row are fewer than those of a whole row. -/
theorem placeAfter_short {rows : List (List DataValue)} {fuel : Nat} (hf : ∀ row ∈ rows, row.length < fuel) (h0 : 0 < fuel)
    (ops : List TableOp) {s : Place} (h : s.2.length < fuel) : (placeAfter rows s ops).2.length < fuel := by
  have hg : ∀ r : Nat, (rows[r]?.getD []).length < fuel := by
    intro r
    by_cases hr : r < rows.length
    · rw [List.getElem?_eq_getElem hr]
      exact hf _ (List.getElem_mem hr)
    · rw [List.getElem?_eq_none (by omega)]
      exact h0
  induction ops generalizing s with
  | nil => exact h
  | cons o ops ih =>
    refine ih ?_
    obtain ⟨r, cur⟩ := s
    cases o with
    | next =>
      match cur, h with
      | [], h => exact h
      | [_], _ => exact hg _
      | _ :: v :: vs, h =>
        show (v :: vs).length < fuel
        simp only [List.length_cons] at h ⊢
        omega
    | seek r' =>
      unfold placeStep
      dsimp only
      by_cases hr : r' < rows.length
      · rw [if_pos hr]
        exact hg _
      · rw [if_neg hr]
        exact h

/-- **C36, exactly.** Iterating a table by rows after any calls of `next` and `seek_to_row` gives an empty row for each row before
the one where the table stands, then the values that are left of this row, then the rows after it, and then `None`. -/
theorem C36_exact {p : Profile} {f f' : Fits} {x : Hdu BinTable} {t : TableData} (ho : Opened p f f' x t)
    (hl : Legal x.header.xtension f.rd.data x.dataOffset) (hc : Complete x.header.xtension f.rd.data x.dataOffset)
    (hi : CellsIn x.header.xtension f.rd.data x.dataOffset (List.range x.header.xtension.tforms.length))
    {rows : List (List DataValue)}
    (hrows : rows = rowsOf x.header.xtension (f.rd.data.drop x.dataOffset) (List.range x.header.xtension.tforms.length))
    (ops : List TableOp) (hs : PlainColumns x.header.xtension ∨ SeeksOutside x.header.xtension rows rows.flatten ops)
    {fuel : Nat} (hf : ∀ row ∈ rows, row.length < fuel) (h0 : 0 < fuel) (n : Nat) :
    (TableRows.new (t.afterOps p ops)).run p fuel n =
      rowScan (rowsFrom rows (placeAfter rows (0, rows[0]?.getD []) ops)) n := by
  obtain ⟨T, hT, h1, h2, h3, h4, h5, h6, hst, -⟩ := ho.left hl hi
  have hmain : T.start + T.x.naxis1 * T.x.naxis2 ≤ T.data.length := by rw [h2, h3, h4]; exact hc
  have hr : rows = (List.range T.x.naxis2).map (rowValues T.heap T.x T.unit T.cols) := by
    unfold Tab.unit
    rw [hrows, h2, h3, h4, h5, h6]
    rfl
  have hlen : rows.length = T.x.naxis2 := by rw [hr]; simp
  rw [rowAt_get hr] at hst
  have hst' := state_after hT hmain hr ops (s := (0, rows[0]?.getD [])) hst (by
    rcases hs with hs | hs
    · exact .inl (hs.plain h2 (by rw [h5]; exact fun c hm => List.mem_range.1 hm))
    · refine .inr ?_
      dsimp only
      rw [← rowAt_get hr, ← T.rest_eq, h2]
      unfold Tab.rest
      rw [List.drop_zero, List.flatMap_def, ← hr]
      exact hs)
  have hg : (rows[0]?.getD []).length < fuel := by
    have := placeAfter_short hf h0 [.seek 0] (s := (0, [])) h0
    by_cases hz : 0 < rows.length
    · rw [show placeAfter rows (0, []) [.seek 0] = (0, rows[0]?.getD []) from if_pos hz] at this
      exact this
    · rw [List.getElem?_eq_none (by omega)]
      exact h0
  have := rows_from hT hmain hr hf h0 n hst' (placeAfter_short hf h0 ops hg) (Nat.zero_le _)
  rw [h1, Nat.sub_zero, ← hlen] at this
  exact this

/-- **C36, after a seek.** Iterating by rows after `seek_to_row(r)` gives `r` empty rows, then the rows from row `r` on. -/
theorem C36_seek {p : Profile} {f f' : Fits} {x : Hdu BinTable} {t : TableData} (ho : Opened p f f' x t)
    (hl : Legal x.header.xtension f.rd.data x.dataOffset) (hc : Complete x.header.xtension f.rd.data x.dataOffset)
    (hp : PlainColumns x.header.xtension) {rows : List (List DataValue)}
    (hrows : rows = rowsOf x.header.xtension (f.rd.data.drop x.dataOffset) (List.range x.header.xtension.tforms.length))
    {r : Nat} (hr : r < rows.length) {fuel : Nat} (hf : ∀ row ∈ rows, row.length < fuel) (h0 : 0 < fuel) (n : Nat) :
    (TableRows.new (t.seekToRow p r).2).run p fuel n = rowScan (List.replicate r [] ++ rows.drop r) n := by
  have := C36_exact ho hl hc (cellsIn_plain (fun c hm => hp.cells (List.mem_range.1 hm))) hrows [.seek r] (.inl hp) hf h0 n
  rw [show placeAfter rows (0, rows[0]?.getD []) [.seek r] = (r, rows[r]?.getD []) from if_pos hr] at this
  unfold rowsFrom at this
  dsimp only at this
  rw [if_pos hr, List.getElem?_eq_getElem hr, Option.getD_some, ← List.drop_eq_getElem_cons hr] at this
  exact this

set_option maxRecDepth 20000 in
/-- After one value of the second row of two. -/
example (p : Profile) : ∃ f' h t, Opened p (afterPrimary mixedFile) f' h t ∧
    ∀ n, (TableRows.new (t.afterOps p [.next, .seek 1, .next, .next, .next])).run p 6 n = rowScan
      [[], [.cell 1 1 (.char 69), .cell 1 2 (.char 70)]] n := by
  obtain ⟨f', h, ho, h1, h2⟩ := opened_mixed p
  refine ⟨f', h, _, ho, fun n => ?_⟩
  rw [C36_exact ho (by rw [h1, h2]; exact legal_mixed) (by rw [h1, h2]; decide +kernel)
    (by rw [h1, h2]; exact cells_mixed _ _ (by decide)) rfl _ (.inl (by rw [h1]; exact plain_mixed))
    (by rw [h1, h2]; decide +kernel) (by decide), h1, h2]
  refine congrArg (rowScan · n) ?_
  decide +kernel

set_option maxRecDepth 20000 in
example (p : Profile) : ∃ f' h t, Opened p (afterPrimary mixedFile) f' h t ∧
    ∀ n, (TableRows.new (t.seekToRow p 1).2).run p 6 n = rowScan
      [[], [.cell 0 0 (.short 256), .cell 0 1 (.short 3), .cell 1 0 (.char 68), .cell 1 1 (.char 69),
        .cell 1 2 (.char 70)]] n := by
  obtain ⟨f', h, ho, h1, h2⟩ := opened_mixed p
  refine ⟨f', h, _, ho, fun n => ?_⟩
  rw [C36_seek ho (by rw [h1, h2]; exact legal_mixed) (by rw [h1, h2]; decide +kernel)
    (by rw [h1]; exact plain_mixed) rfl (by rw [h1, h2]; decide +kernel)
    (by rw [h1, h2]; decide +kernel) (by decide), h1, h2]
  refine congrArg (rowScan · n) ?_
  decide +kernel

end Fitsrs

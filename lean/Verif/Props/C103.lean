import Verif.Spec.RowViews
import Verif.Lemmas.TablePrefix
import Verif.Props.C33_C34
/-
C103 the values of a table and its rows.
-/

namespace Fitsrs
open Spec

/-- The loop over the values of a row. -/
theorem TableRows.collect_reads {p : Profile} {fuel row : Nat} {t t' : TableData} {acc : List DataValue} {r : Res (Option (List DataValue))}
    (h : TableRows.collect p fuel row t acc = some (r, t')) :
    ∃ vs, (∀ k, k < vs.length → (t.after p k).row = row) ∧ t.run p vs.length = allOf vs ∧
      ((r = .ok (some (acc ++ vs)) ∧ t' = t.after p vs.length ∧ t'.row ≠ row) ∨
       ((∀ ws, r ≠ .ok (some ws)) ∧ (t.after p vs.length).row = row ∧ t' = t.after p (vs.length + 1) ∧
         (r = .ok none → ((t.after p vs.length).next p).1 = .ok none))) := by
  induction fuel generalizing t acc with
  | zero => cases h
  | succ fuel ih =>
    unfold TableRows.collect at h
    by_cases hr : t.row = row
    · rw [if_pos hr] at h
      have last : ∀ (hn : ∀ v, (t.next p).1 ≠ .ok (some v)) (ht : t' = (t.next p).2) (hws : ∀ ws, r ≠ .ok (some ws))
          (hnone : r = .ok none → (t.next p).1 = .ok none),
          ∃ vs, (∀ k, k < vs.length → (t.after p k).row = row) ∧ t.run p vs.length = allOf vs ∧
          ((r = .ok (some (acc ++ vs)) ∧ t' = t.after p vs.length ∧ t'.row ≠ row) ∨
           ((∀ ws, r ≠ .ok (some ws)) ∧ (t.after p vs.length).row = row ∧ t' = t.after p (vs.length + 1) ∧
            (r = .ok none → ((t.after p vs.length).next p).1 = .ok none))) :=
        fun _ ht hws hnone => ⟨[], (fun k hk => absurd hk (Nat.not_lt_zero _)), rfl, .inr ⟨hws, hr, ht, hnone⟩⟩
      split at h
      · rename_i v t1 hn
        obtain ⟨vs, h1, h2, h3⟩ := ih h
        have ht1 : (t.next p).2 = t1 := by rw [hn]
        refine ⟨v :: vs, fun k hk => ?_, ?_, ?_⟩
        · cases k with
          | zero => exact hr
          | succ k =>
            show ((t.next p).2.after p k).row = row
            rw [ht1]
            exact h1 k (by rw [List.length_cons] at hk; omega)
        · show (t.next p).1 :: (t.next p).2.run p vs.length = _ :: allOf vs
          rw [ht1, h2, hn]
        · have ha : ∀ n, t.after p (n + 1) = t1.after p n := fun n => by
            show (t.next p).2.after p n = _
            rw [ht1]
          rw [List.length_cons, ha, ha]
          rw [List.append_assoc] at h3
          exact h3
      · rename_i t1 hn
        cases h
        exact last (by rw [hn]; intro v e; cases e) (by rw [hn]) (by intro ws e; cases e) (by rw [hn]; exact fun e => rfl)
      · rename_i e t1 hn
        cases h
        exact last (by rw [hn]; intro v e; cases e) (by rw [hn]) (by intro ws e; cases e) (by intro e; cases e)
      · rename_i t1 hn
        cases h
        exact last (by rw [hn]; intro v e; cases e) (by rw [hn]) (by intro ws e; cases e) (by intro e; cases e)
    · rw [if_neg hr] at h
      cases h
      exact ⟨[], (fun k hk => absurd hk (Nat.not_lt_zero _)), rfl, .inl ⟨by rw [List.append_nil], rfl, hr⟩⟩

/-- A call that gives values gives the next ones of the table. -/
theorem TableView.call_reads {p : Profile} {fuel : Nat} {c : ViewCall} {v v' : TableView} {r : Res ViewAnswer} {vs : List DataValue}
    (h : v.call p fuel c = some (r, v')) (hg : valuesGiven r = some vs) :
    v.table.run p vs.length = allOf vs ∧ v'.table = v.table.after p vs.length := by
  unfold TableView.call at h
  split at h
  · rename_i t
    cases hn : t.next p with
    | mk a t1 =>
      rw [hn] at h
      cases a with
      | ok o =>
        cases h
        cases o with
        | none => cases hg
        | some x =>
          cases hg
          refine ⟨?_, ?_⟩
          · show [(t.next p).1] = _
            rw [hn]; rfl
          · show t1 = (t.next p).2
            rw [hn]
      | err e => cases h; cases hg
      | panic => cases h; cases hg
  · rename_i r0
    cases hn : r0.next p fuel with
    | none => rw [hn] at h; cases h
    | some z =>
      obtain ⟨a, r1⟩ := z
      rw [hn] at h
      cases a with
      | ok o =>
        cases h
        cases o with
        | none => cases hg
        | some ws =>
          cases hg
          unfold TableRows.next at hn
          split at hn
          · cases hn
          · rename_i ws t1 hc
            cases hn
            obtain ⟨us, -, h2, h3⟩ := TableRows.collect_reads hc
            rcases h3 with ⟨h3, h4, -⟩ | ⟨h3, -⟩
            · cases h3
              exact ⟨h2, h4⟩
            · exact absurd rfl (h3 _)
          · rename_i res t1 hne hc
            cases hn
            exact (hne _ rfl).elim
      | err e => cases h; cases hg
      | panic => cases h; cases hg
  · cases h; cases hg; exact ⟨rfl, rfl⟩
  · cases h; cases hg; exact ⟨rfl, rfl⟩
  · cases h; cases hg; exact ⟨rfl, rfl⟩

/-- **C103.** Whatever a program does with the values and the rows of a table, going from one to the other as it likes, the values it gets
are those that the table gives one by one, in order, none of them lost and none given twice, and the table is then where it would be. -/
theorem C103_values {p : Profile} {fuel : Nat} {t : TableData} {cs : List ViewCall} {outs : List (Res ViewAnswer)} {v : TableView}
    (h : (TableView.values t).run p fuel cs = some (outs, v)) {given : List (List DataValue)}
    (hg : outs.map valuesGiven = given.map some) :
    t.run p given.flatten.length = allOf given.flatten ∧ v.table = t.after p given.flatten.length := by
  have key : ∀ (cs : List ViewCall) (w : TableView) (outs : List (Res ViewAnswer)) (given : List (List DataValue)),
      w.run p fuel cs = some (outs, v) → outs.map valuesGiven = given.map some →
      w.table.run p given.flatten.length = allOf given.flatten ∧ v.table = w.table.after p given.flatten.length := by
    intro cs
    induction cs with
    | nil =>
      intro w outs given h hg
      cases h
      cases given with
      | nil => exact ⟨rfl, rfl⟩
      | cons g gs => cases hg
    | cons c cs ih =>
      intro w outs given h hg
      unfold TableView.run at h
      cases hc : w.call p fuel c with
      | none => rw [hc] at h; cases h
      | some z =>
        obtain ⟨r, w1⟩ := z
        rw [hc] at h
        dsimp only at h
        cases hr : w1.run p fuel cs with
        | none => rw [hr] at h; cases h
        | some z =>
          obtain ⟨rs, w2⟩ := z
          rw [hr] at h
          cases h
          cases given with
          | nil => cases hg
          | cons g gs =>
            rw [List.map_cons, List.map_cons] at hg
            injection hg with hg1 hg2
            obtain ⟨h1, h2⟩ := TableView.call_reads hc hg1
            obtain ⟨h3, h4⟩ := ih w1 rs gs hr hg2
            rw [List.flatten_cons, List.length_append, TableData.run_add, TableData.after_add, h1, ← h2, h3]
            exact ⟨(List.map_append ..).symm, h4⟩
  exact key cs (.values t) outs given h hg

/-- **C103, at the end.** When the rows give `None`, the table has given `None`, and only values of the unfinished row were read and not given. -/
theorem C103_end {p : Profile} {fuel : Nat} {r r' : TableRows} (h : r.next p fuel = some (.ok none, r')) :
    ∃ lost, r.tableData.run p (lost.length + 1) = allOf lost ++ [.ok none] ∧
      (∀ k, k ≤ lost.length → (r.tableData.after p k).row = r.getRowIdx) ∧
      r'.tableData = r.tableData.after p (lost.length + 1) ∧ r'.getRowIdx = r.getRowIdx := by
  unfold TableRows.next at h
  split at h
  · cases h
  · cases h
  · rename_i res t1 hne hc
    cases h
    obtain ⟨vs, h1, h2, h3⟩ := TableRows.collect_reads hc
    rcases h3 with ⟨h3, -⟩ | ⟨-, h3, h4, h5⟩
    · cases h3
    · refine ⟨vs, ?_, fun k hk => ?_, h4, rfl⟩
      · show r.data.run p (vs.length + 1) = _
        rw [TableData.run_add, h2]
        show _ ++ [((r.data.after p vs.length).next p).1] = _
        rw [h5 rfl]
      · rcases Nat.lt_or_ge k vs.length with hk' | hk'
        · exact h1 k hk'
        · cases (show k = vs.length by omega)
          exact h3

theorem TableRows.next_row {p : Profile} {fuel : Nat} {r r' : TableRows} {a : Res (Option (List DataValue))}
    (h : r.next p fuel = some (a, r')) :
    (∃ vs, a = .ok (some vs)) ∧ r'.getRowIdx = r.getRowIdx + 1 ∨ (∀ vs, a ≠ .ok (some vs)) ∧ r'.getRowIdx = r.getRowIdx := by
  unfold TableRows.next at h
  split at h
  · cases h
  · cases h; exact .inl ⟨⟨_, rfl⟩, rfl⟩
  · rename_i res t1 hne hc
    cases h
    exact .inr ⟨fun vs e => (hne vs e).elim, rfl⟩

/-- **C103, the index.** `get_row_idx` counts the rows given since `row_iter`. -/
theorem C103_index {p : Profile} {fuel : Nat} {t : TableData} {n : Nat} {outs : List (Res ViewAnswer)} {r : TableRows}
    (h : (TableView.values t).run p fuel (.rowIter :: List.replicate n .next) = some (outs, .rows r)) :
    r.getRowIdx = (outs.filter isRow).length := by
  have key : ∀ (n : Nat) (r0 : TableRows) (outs : List (Res ViewAnswer)),
      (TableView.rows r0).run p fuel (List.replicate n .next) = some (outs, .rows r) →
      r.getRowIdx = r0.getRowIdx + (outs.filter isRow).length := by
    intro n
    induction n with
    | zero => intro r0 outs h; cases h; rfl
    | succ n ih =>
      intro r0 outs h
      rw [List.replicate_succ] at h
      unfold TableView.run at h
      unfold TableView.call at h
      dsimp only at h
      cases hn : r0.next p fuel with
      | none => rw [hn] at h; cases h
      | some z =>
        obtain ⟨a, r1⟩ := z
        have hrow := TableRows.next_row hn
        rw [hn] at h
        cases a with
        | ok o =>
          dsimp only at h
          cases hr : (TableView.rows r1).run p fuel (List.replicate n .next) with
          | none => rw [hr] at h; cases h
          | some z =>
            obtain ⟨rs, w⟩ := z
            rw [hr] at h
            cases h
            have := ih r1 _ hr
            cases o with
            | none =>
              rcases hrow with ⟨⟨vs, e⟩, -⟩ | ⟨-, hrow⟩
              · cases e
              · rw [this, hrow]; rfl
            | some vs =>
              rcases hrow with ⟨-, hrow⟩ | ⟨e, -⟩
              · rw [this, hrow, List.filter_cons_of_pos rfl, List.length_cons]
                omega
              · exact absurd rfl (e vs)
        | err e =>
          dsimp only at h
          cases hr : (TableView.rows r1).run p fuel (List.replicate n .next) with
          | none => rw [hr] at h; cases h
          | some z =>
            obtain ⟨rs, w⟩ := z
            rw [hr] at h
            cases h
            rcases hrow with ⟨⟨vs, e⟩, -⟩ | ⟨-, hrow⟩
            · cases e
            · rw [ih r1 _ hr, hrow]; rfl
        | panic =>
          dsimp only at h
          cases hr : (TableView.rows r1).run p fuel (List.replicate n .next) with
          | none => rw [hr] at h; cases h
          | some z =>
            obtain ⟨rs, w⟩ := z
            rw [hr] at h
            cases h
            rcases hrow with ⟨⟨vs, e⟩, -⟩ | ⟨-, hrow⟩
            · cases e
            · rw [ih r1 _ hr, hrow]; rfl
  unfold TableView.run TableView.call at h
  dsimp only at h
  cases hr : (TableView.rows (TableRows.new t)).run p fuel (List.replicate n .next) with
  | none => rw [hr] at h; cases h
  | some z =>
    obtain ⟨rs, w⟩ := z
    rw [hr] at h
    cases h
    rw [key n _ rs hr, List.filter_cons_of_neg (by decide)]
    show 0 + _ = _
    omega

/-- **C103, `row_iter` in a later row.** An empty row is given first for each of the rows that are finished (D12); nothing is read. -/
theorem C103_later (p : Profile) (fuel : Nat) (t : TableData) :
    (TableView.values t).run p (fuel + 1) (.rowIter :: List.replicate t.row .next) =
      some (.ok .unit :: List.replicate t.row (.ok (.row (some []))), .rows { data := t, row := t.row }) := by
  have key : ∀ (n k : Nat), k + n = t.row → (TableView.rows { data := t, row := k }).run p (fuel + 1) (List.replicate n .next) =
      some (List.replicate n (.ok (.row (some []))), .rows { data := t, row := t.row }) := by
    intro n
    induction n with
    | zero => intro k h; rw [← h]; rfl
    | succ n ih =>
      intro k h
      have hn : TableRows.next p (fuel + 1) { data := t, row := k } = some (.ok (some []), { data := t, row := k + 1 }) := by
        unfold TableRows.next TableRows.collect
        dsimp only
        rw [if_neg (by omega)]
      rw [List.replicate_succ, List.replicate_succ]
      unfold TableView.run TableView.call
      dsimp only
      rw [hn]
      dsimp only
      rw [ih (k + 1) (by omega)]
  unfold TableView.run TableView.call
  dsimp only
  unfold TableRows.new
  rw [key t.row 0 (by omega)]

/-- **C103, by the contents.** In a table as C33 asks, the values given are the first ones of the table by the standard. -/
theorem C103_contents {p : Profile} {f f' : Fits} {x : Hdu BinTable} {t : TableData} (ho : Opened p f f' x t)
    (hl : Legal x.header.xtension f.rd.data x.dataOffset) (hc : Complete x.header.xtension f.rd.data x.dataOffset)
    (hi : CellsIn x.header.xtension f.rd.data x.dataOffset (List.range x.header.xtension.tforms.length))
    {fuel : Nat} {cs : List ViewCall} {outs : List (Res ViewAnswer)} {v : TableView}
    (h : (TableView.values t).run p fuel cs = some (outs, v)) {given : List (List DataValue)}
    (hg : outs.map valuesGiven = given.map some) :
    given.flatten <+: tableValues true x.header.xtension (f.rd.data.drop x.dataOffset)
      (List.range x.header.xtension.tforms.length) := by
  have h1 := (C103_values h hg).1
  rw [C33_scan_partial ho hl hc hi] at h1
  generalize tableValues true x.header.xtension (f.rd.data.drop x.dataOffset) (List.range x.header.xtension.tforms.length) = V at h1 ⊢
  generalize given.flatten = W at h1 ⊢
  have h2 : V.take W.length = W := by
    have hV : ∀ u, u ∈ scan V W.length → ∃ w, u = .ok (some w) := by
      rw [h1]
      intro u hu
      obtain ⟨w, -, hw⟩ := List.mem_map.1 hu
      exact ⟨w, hw.symm⟩
    have hz : W.length - V.length = 0 := by
      rcases Nat.eq_zero_or_pos (W.length - V.length) with hz | hz
      · exact hz
      · obtain ⟨w, hw⟩ := hV (.ok none) (List.mem_append_right _ (List.mem_replicate.2 ⟨by omega, rfl⟩))
        cases hw
    unfold scan allOf at h1
    rw [hz, List.replicate_zero, List.append_nil] at h1
    exact List.map_inj_right (fun a b e => by cases e; rfl) |>.1 h1
  rw [← h2]
  exact List.take_prefix _ _

/-- A value, the rest of the first row, three values of the second row, then rows again: an empty row for the first row (D12), the rest of
the second row, and the end. -/
example : ((TableView.values (sampleState mixedFile mixedTable [0, 4])).run .checked 9
      [.next, .rowIter, .next, .tableData, .next, .next, .next, .rowIter, .next, .next, .next]).map (fun z => z.1.map valuesGiven) =
    some [some [.cell 0 0 (.short 1)], some [],
      some [.cell 0 1 (.short (-2)), .cell 1 0 (.char 65), .cell 1 1 (.char 66), .cell 1 2 (.char 67)], some [],
      some [.cell 0 0 (.short 256)], some [.cell 0 1 (.short 3)], some [.cell 1 0 (.char 68)], some [], some [],
      some [.cell 1 1 (.char 69), .cell 1 2 (.char 70)], none] := by
  decide +kernel

/-- A file that ends in the last character of the second row: four values of this row are read and not given; one row is counted. -/
example : ((TableView.rows (TableRows.new (sampleState (mixedFile.take 5773) mixedTable [0, 4]))).run .checked 9
      (List.replicate 2 .next)).map (fun z => (z.1.map isRow, z.2.table.row)) = some ([true, false], 1) ∧
    ((TableRows.new (sampleState (mixedFile.take 5773) mixedTable [0, 4])).next .checked 9).map
      (fun z => (z.2.next .checked 9).map (fun y => (y.1, y.2.getRowIdx))) = some (some (.ok none, 1)) ∧
    (sampleState (mixedFile.take 5773) mixedTable [0, 4]).run .checked 10 =
      allOf [.cell 0 0 (.short 1), .cell 0 1 (.short (-2)), .cell 1 0 (.char 65), .cell 1 1 (.char 66), .cell 1 2 (.char 67),
        .cell 0 0 (.short 256), .cell 0 1 (.short 3), .cell 1 0 (.char 68), .cell 1 1 (.char 69)] ++ [.ok none] := by
  decide +kernel

end Fitsrs

import Verif.Lemmas.TableEnds
import Verif.Spec.TableEnds
import Verif.Props.C33_C34
/-
C104 iterating over a table ends.
-/

namespace Fitsrs
open Spec

namespace TableData

/-- At most `k` values are given. -/
inductive EndsIn (p : Profile) : Nat → TableData → Prop where
  | last {k : Nat} {t : TableData} (h : ∀ v, (t.next p).1 ≠ .ok (some v)) : EndsIn p k t
  | more {k : Nat} {t : TableData} {v : DataValue} (h : (t.next p).1 = .ok (some v)) (g : EndsIn p k (t.next p).2) : EndsIn p (k + 1) t

theorem EndsIn.ends {p : Profile} {k : Nat} {t : TableData} (h : EndsIn p k t) : t.Ends p := by
  induction h with
  | @last k t h => exact ⟨1, _, List.mem_singleton.2 rfl, h⟩
  | @more k t v h g ih =>
    obtain ⟨n, r, h1, h2⟩ := ih
    exact ⟨n + 1, r, List.mem_cons_of_mem _ h1, h2⟩

/-- Where an iteration that has begun may be: before the last row is finished, or at the end. -/
def Begun (t : TableData) : Prop :=
  t.seekFirst = false ∧ t.mainSize < 2 ^ 64 ∧ (t.row < t.ctx.naxis2 ∨ t.byteOffset = t.mainSize ∧ t.inHeap = none)

theorem next_done {p : Profile} {t : TableData} (hf : t.seekFirst = false) (hb : t.byteOffset = t.mainSize) (hh : t.inHeap = none)
    (v : DataValue) : (t.next p).1 ≠ .ok (some v) := by
  unfold next
  split
  · intro h; cases h
  · unfold toFirstCol
    rw [if_neg (by rw [hf]; exact Bool.false_ne_true)]
    dsimp only
    unfold nextAt
    rw [hh]
    dsimp only
    rw [if_pos hb]
    intro h; cases h

/-- A call that gives a value, from anywhere before the end of the last row. -/
theorem next_moves {p : Profile} {t t' : TableData} {v : DataValue} (hf : t.seekFirst = false) (hm : t.mainSize < 2 ^ 64)
    (hr : t.row < t.ctx.naxis2) (h : t.next p = (.ok (some v), t')) : t.Moves t' ∧ t.col < t.cols.length := by
  unfold next at h
  split at h
  · cases h
  · rename_i c hc
    have hlt : t.col < t.cols.length := (List.getElem?_eq_some_iff.1 hc).1
    unfold toFirstCol at h
    rw [if_neg (by rw [hf]; exact Bool.false_ne_true)] at h
    exact ⟨nextAt_moves hr hlt hm h, hlt⟩

theorem Begun.next {p : Profile} {t t' : TableData} {v : DataValue} (hg : t.Begun) (h : t.next p = (.ok (some v), t')) :
    t'.Begun ∧ t.row ≤ t'.row := by
  obtain ⟨hf, hm, hr | ⟨hb, hh⟩⟩ := hg
  · obtain ⟨⟨hk, hmv⟩, -⟩ := next_moves hf hm hr h
    refine ⟨⟨hk.first.trans hf, by rw [hk.main]; exact hm, ?_⟩, ?_⟩
    · rw [hk.ctx, hk.main]
      rcases hmv with g | g | g | g | g
      · exact .inl (by rw [g.1]; exact hr)
      · exact .inl (by rw [g.1]; exact hr)
      · exact .inl (by rw [g.1]; exact hr)
      · exact .inl g.2.1
      · exact .inr ⟨g.1, g.2.1⟩
    · rcases hmv with g | g | g | g | g <;> omega
  · exact absurd (by rw [h]) (next_done (p := p) hf hb hh v)

/-- The bytes left for the cell being read. -/
def room (t : TableData) : Nat :=
  (if t.inHeap.isSome then 0 else t.rd.data.length + 1) + (t.rd.data.length - t.rd.pos)

theorem Begun.endsIn {p : Profile} {t : TableData} (hg : t.Begun) : ∃ k, EndsIn p k t := by
  have key : ∀ (a b c : Nat) (t : TableData), t.Begun → t.ctx.naxis2 - t.row = a → t.cols.length - t.col = b → t.room = c →
      ∃ k, EndsIn p k t := by
    intro a
    induction a using Nat.strongRecOn with
    | _ a iha =>
    intro b
    induction b using Nat.strongRecOn with
    | _ b ihb =>
    intro c
    induction c using Nat.strongRecOn with
    | _ c ihc =>
    intro t hg ha hb hc
    cases hn : t.next p with
    | mk r t' =>
    by_cases hv : ∃ v, r = .ok (some v)
    · obtain ⟨v, rfl⟩ := hv
      have hg' := (hg.next hn).1
      have more : (∃ k, EndsIn p k t') → ∃ k, EndsIn p k t := by
        rintro ⟨k, hk⟩
        exact ⟨k + 1, .more (v := v) (by rw [hn]) (by rw [hn]; exact hk)⟩
      refine more ?_
      obtain ⟨hf, hm, hr | ⟨hd, hh⟩⟩ := hg
      · obtain ⟨⟨hk, hmv⟩, hlt⟩ := next_moves hf hm hr hn
        have e1 : t'.ctx.naxis2 = t.ctx.naxis2 := by rw [hk.ctx]
        have e2 : t'.cols.length = t.cols.length := by rw [hk.cols]
        have e3 : t'.rd.data.length = t.rd.data.length := by rw [hk.data]
        rcases hmv with g | g | g | g | g
        · refine ihc t'.room ?_ t' hg' (by omega) (by omega) rfl
          rw [← hc]
          unfold room
          rw [e3, g.2.2.2.2]
          omega
        · refine ihc t'.room ?_ t' hg' (by omega) (by omega) rfl
          rw [← hc]
          unfold room
          rw [e3, g.2.2.1, if_pos g.2.2.2, if_neg (by decide)]
          omega
        · exact ihb (t'.cols.length - t'.col) (by omega) _ t' hg' (by omega) rfl rfl
        · exact iha (t'.ctx.naxis2 - t'.row) (by omega) _ _ t' hg' rfl rfl rfl
        · exact ⟨0, .last (next_done (hk.first.trans hf) (by rw [hk.main]; exact g.1) g.2.1)⟩
      · exact absurd (by rw [hn]) (next_done (p := p) hf hd hh v)
    · exact ⟨0, .last fun v e => hv ⟨v, by rw [hn] at e; exact e⟩⟩
  exact key _ _ _ t hg rfl rfl rfl

/-- The first call after a selection. -/
theorem first_begun {p : Profile} {t t' : TableData} {v : DataValue} (hm : t.mainSize < 2 ^ 64) (hr : t.row < t.ctx.naxis2)
    (h : t.next p = (.ok (some v), t')) : t'.Begun ∧ t.row ≤ t'.row := by
  by_cases hf : t.seekFirst = true
  · unfold next at h
    split at h
    · cases h
    · rename_i c hc
      have hlt : t.col < t.cols.length := (List.getElem?_eq_some_iff.1 hc).1
      unfold toFirstCol at h
      rw [if_pos hf] at h
      dsimp only at h
      split at h
      · rename_i heq
        split at heq
        · cases heq; cases h
        · split at heq
          · cases heq
          · cases heq; cases h
          · cases heq; cases h
      · rename_i t1 heq
        split at heq
        · cases heq
        · split at heq
          · rename_i ha
            cases heq
            obtain ⟨hk, h1, h2, -⟩ := advance_keeps ha
            have hr1 : t1.row < t1.ctx.naxis2 := by rw [h1, hk.ctx]; exact hr
            have hm1 : t1.mainSize < 2 ^ 64 := by rw [hk.main]; exact hm
            obtain ⟨gk, g⟩ := nextAt_moves hr1 (by rw [h2, hk.cols]; exact hlt) hm1 h
            refine ⟨⟨gk.first.trans hk.first, by rw [gk.main]; exact hm1, ?_⟩, ?_⟩
            · rw [gk.ctx, gk.main]
              rcases g with g | g | g | g | g
              · exact .inl (by rw [g.1]; exact hr1)
              · exact .inl (by rw [g.1]; exact hr1)
              · exact .inl (by rw [g.1]; exact hr1)
              · exact .inl g.2.1
              · exact .inr ⟨g.1, g.2.1⟩
            · have h1' : t1.row = t.row := h1
              rcases g with g | g | g | g | g <;> omega
          · cases heq
          · cases heq
  · exact Begun.next ⟨by simpa using hf, hm, .inl hr⟩ h

theorem endsIn_before {p : Profile} {t : TableData} (hm : t.mainSize < 2 ^ 64) (hr : t.row < t.ctx.naxis2) : ∃ k, EndsIn p k t := by
  cases hn : t.next p with
  | mk r t' =>
  by_cases hv : ∃ v, r = .ok (some v)
  · obtain ⟨v, rfl⟩ := hv
    obtain ⟨k, hk⟩ := (first_begun hm hr hn).1.endsIn (p := p)
    exact ⟨k + 1, .more (v := v) (by rw [hn]) (by rw [hn]; exact hk)⟩
  · exact ⟨0, .last fun v e => hv ⟨v, by rw [hn] at e; exact e⟩⟩

/-- Where an iteration may begin or be. -/
def Going (t : TableData) : Prop := t.Begun ∨ t.mainSize < 2 ^ 64 ∧ t.row < t.ctx.naxis2

theorem Going.next {p : Profile} {t t' : TableData} {v : DataValue} (hg : t.Going) (h : t.next p = (.ok (some v), t')) :
    t'.Going ∧ t.row ≤ t'.row := by
  rcases hg with hg | ⟨hm, hr⟩
  · exact ⟨.inl (hg.next h).1, (hg.next h).2⟩
  · exact ⟨.inl (first_begun hm hr h).1, (first_begun hm hr h).2⟩

theorem Going.endsIn {p : Profile} {t : TableData} (hg : t.Going) : ∃ k, EndsIn p k t := by
  rcases hg with hg | ⟨hm, hr⟩
  · exact hg.endsIn
  · exact endsIn_before hm hr

end TableData

/-- **C104, values.** From any state of a table before the end of its last row (just opened, after `select_fields`, after `seek_to_row`,
inside of an array of the heap), whatever the header and the contents, iterating over the values ends. -/
theorem C104_values (p : Profile) (t : TableData) (hm : t.mainSize < 2 ^ 64) (hr : t.row < t.ctx.naxis2) : t.Ends p := by
  obtain ⟨k, hk⟩ := TableData.endsIn_before (p := p) hm hr
  exact hk.ends

/-- A table just opened. -/
theorem opened_begun {p : Profile} {f : Fits} {x : Hdu BinTable} {t : TableData} (h : f.getTable p x = .ok t) : t.Begun ∧ t.row = 0 := by
  unfold Fits.getTable at h
  cases hn : TableData.new p f.rd x.header.xtension f.posStart with
  | err e => rw [hn] at h; cases h
  | panic => rw [hn] at h; cases h
  | ok u =>
    rw [hn] at h
    have h : .ok (if x.header.xtension.zImage.isSome then u.readTheHeap false else u) = Res.ok t := h
    have hu : u.Begun ∧ u.row = 0 := by
      unfold TableData.new at hn
      cases hc : TableData.columnOffsets p x.header.xtension.tforms 0 with
      | err e => rw [hc] at hn; cases hn
      | panic => rw [hc] at hn; cases hn
      | ok os =>
        rw [hc] at hn
        cases hm : umul p x.header.xtension.naxis1 x.header.xtension.naxis2 with
        | err e => rw [hm] at hn; cases hn
        | panic => rw [hm] at hn; cases hn
        | ok m =>
          rw [hm] at hn
          cases hn
          refine ⟨⟨rfl, ?_, ?_⟩, rfl⟩
          · show m < 2 ^ 64
            unfold umul two64 at hm
            split at hm
            · cases hm; assumption
            · cases p
              · cases hm
              · cases hm; exact Nat.mod_lt _ (by decide)
          · rcases Nat.eq_zero_or_pos x.header.xtension.naxis2 with h0 | h0
            · refine .inr ⟨?_, rfl⟩
              show 0 = m
              unfold umul at hm
              rw [h0, Nat.mul_zero, if_pos (by decide)] at hm
              cases hm; rfl
            · exact .inl h0
    split at h
    · cases h; exact hu
    · cases h; exact hu

/-- **C104, opened tables.** Iterating over the values of a table just opened ends. -/
theorem C104_opened {p : Profile} {f : Fits} {x : Hdu BinTable} {t : TableData} (h : f.getTable p x = .ok t) : t.Ends p := by
  obtain ⟨k, hk⟩ := (opened_begun h).1.endsIn (p := p)
  exact hk.ends

/-- The loop over a row finishes, and has used one of the values left unless the row was not the current one. -/
theorem TableRows.collect_endsIn {p : Profile} {k row : Nat} {t : TableData} (h : TableData.EndsIn p k t) (hg : t.Going) :
    ∀ (fuel : Nat), k + 2 ≤ fuel → ∀ acc, ∃ r t', TableRows.collect p fuel row t acc = some (r, t') ∧
      ((∀ vs, r ≠ .ok (some vs)) ∨ t'.Going ∧ t.row ≤ t'.row ∧ t'.row ≠ row ∧
        ∃ j, TableData.EndsIn p j t' ∧ (t.row = row → j < k) ∧ j ≤ k) := by
  induction h with
  | @last k t h =>
    intro fuel hf acc
    obtain ⟨fuel, rfl⟩ : ∃ m, fuel = m + 1 := ⟨fuel - 1, by omega⟩
    unfold TableRows.collect
    by_cases hr : t.row = row
    · rw [if_pos hr]
      cases hn : t.next p with
      | mk a t' =>
        rw [hn] at h
        cases a with
        | ok o =>
          cases o with
          | none => exact ⟨_, _, rfl, .inl fun vs e => by cases e⟩
          | some v => exact absurd rfl (h v)
        | err e => exact ⟨_, _, rfl, .inl fun vs e => by cases e⟩
        | panic => exact ⟨_, _, rfl, .inl fun vs e => by cases e⟩
    · rw [if_neg hr]
      exact ⟨_, _, rfl, .inr ⟨hg, Nat.le_refl _, hr, k, .last h, (fun e => absurd e hr), Nat.le_refl _⟩⟩
  | @more k t v h g ih =>
    intro fuel hf acc
    obtain ⟨fuel, rfl⟩ : ∃ m, fuel = m + 1 := ⟨fuel - 1, by omega⟩
    unfold TableRows.collect
    by_cases hr : t.row = row
    · rw [if_pos hr]
      cases hn : t.next p with
      | mk a t1 =>
        rw [hn] at h g ih
        dsimp only at h g ih
        subst h
        dsimp only
        obtain ⟨g1, g2⟩ := hg.next hn
        obtain ⟨r, t', h1, h2⟩ := ih g1 fuel (by omega) (acc ++ [v])
        refine ⟨r, t', h1, ?_⟩
        rcases h2 with h2 | ⟨h2, h3, h4, j, h5, -, h6⟩
        · exact .inl h2
        · exact .inr ⟨h2, by omega, h4, j, h5, (fun _ => by omega), by omega⟩
    · rw [if_neg hr]
      exact ⟨_, _, rfl, .inr ⟨hg, Nat.le_refl _, hr, k + 1, .more h g, (fun e => absurd e hr), Nat.le_refl _⟩⟩

/-- With at most `k` values left, the rows end. -/
theorem TableRows.ends_of {p : Profile} {k : Nat} {fuel : Nat} : ∀ (r : TableRows), TableData.EndsIn p k r.data → r.data.Going →
    r.row ≤ r.data.row → k + 2 ≤ fuel → ∃ n o, some o ∈ r.run p fuel n ∧ none ∉ r.run p fuel n ∧ ∀ vs, o ≠ .ok (some vs) := by
  induction k using Nat.strongRecOn with
  | _ k ihk =>
  have key : ∀ (d : Nat) (r : TableRows), r.data.row - r.row = d → TableData.EndsIn p k r.data → r.data.Going →
      r.row ≤ r.data.row → k + 2 ≤ fuel → ∃ n o, some o ∈ r.run p fuel n ∧ none ∉ r.run p fuel n ∧ ∀ vs, o ≠ .ok (some vs) := by
    intro d
    induction d with
    | zero =>
      intro r hd he hg hle hf
      obtain ⟨a, t', h1, h2⟩ := TableRows.collect_endsIn (row := r.row) he hg fuel hf []
      have stop : ∀ (hne : ∀ vs, a ≠ .ok (some vs)), ∃ n o, some o ∈ r.run p fuel n ∧ none ∉ r.run p fuel n ∧ ∀ vs, o ≠ .ok (some vs) := by
        intro hne
        have hn : r.next p fuel = some (a, { r with data := t' }) := by
          unfold TableRows.next
          rw [h1]
          cases a with
          | ok o =>
            cases o with
            | none => rfl
            | some vs => exact absurd rfl (hne vs)
          | err e => rfl
          | panic => rfl
        have hrun : r.run p fuel 1 = [some a] := by
          unfold TableRows.run
          rw [hn]
          rfl
        refine ⟨1, a, (by rw [hrun]; exact List.mem_singleton.2 rfl), fun hm => ?_, hne⟩
        rw [hrun] at hm
        cases List.mem_singleton.1 hm
      rcases h2 with h2 | ⟨h2, h3, h4, j, h5, h6, -⟩
      · exact stop h2
      · by_cases hv : ∃ vs, a = .ok (some vs)
        · obtain ⟨vs, rfl⟩ := hv
          have hn : r.next p fuel = some (.ok (some vs), { data := t', row := r.row + 1 }) := by
            unfold TableRows.next
            rw [h1]
          have hj := h6 (by omega)
          obtain ⟨n, o, g1, g2, g3⟩ := ihk j hj { data := t', row := r.row + 1 } h5 h2
            (by show r.row + 1 ≤ t'.row; omega) (by omega)
          have hrun : r.run p fuel (n + 1) = some (.ok (some vs)) :: TableRows.run p fuel n { data := t', row := r.row + 1 } := by
            show (match r.next p fuel with | none => _ | some (r, t') => _) = _
            rw [hn]
          refine ⟨n + 1, o, by rw [hrun]; exact List.mem_cons_of_mem _ g1, ?_, g3⟩
          rw [hrun]
          intro hm
          rcases List.mem_cons.1 hm with hm | hm
          · cases hm
          · exact g2 hm
        · exact stop fun vs e => hv ⟨vs, e⟩
    | succ d ihd =>
      intro r hd he hg hle hf
      have hn : r.next p fuel = some (.ok (some []), { data := r.data, row := r.row + 1 }) := by
        obtain ⟨m, rfl⟩ : ∃ m, fuel = m + 1 := ⟨fuel - 1, by omega⟩
        unfold TableRows.next TableRows.collect
        rw [if_neg (by omega)]
      obtain ⟨n, o, g1, g2, g3⟩ := ihd { data := r.data, row := r.row + 1 } (by show r.data.row - (r.row + 1) = d; omega) he hg
        (by show r.row + 1 ≤ r.data.row; omega) hf
      have hrun : r.run p fuel (n + 1) = some (.ok (some [])) :: TableRows.run p fuel n { data := r.data, row := r.row + 1 } := by
        show (match r.next p fuel with | none => _ | some (r, t') => _) = _
        rw [hn]
      refine ⟨n + 1, o, by rw [hrun]; exact List.mem_cons_of_mem _ g1, ?_, g3⟩
      rw [hrun]
      intro hm
      rcases List.mem_cons.1 hm with hm | hm
      · cases hm
      · exact g2 hm
  intro r
  exact key _ r rfl

/-- **C104, rows.** Iterating over the rows of a table just opened ends, and so does each of the calls. -/
theorem C104_rows {p : Profile} {f : Fits} {x : Hdu BinTable} {t : TableData} (h : f.getTable p x = .ok t) :
    (TableRows.new t).Ends p := by
  have hg : t.Going := .inl (opened_begun h).1
  obtain ⟨k, hk⟩ := hg.endsIn (p := p)
  obtain ⟨n, o, h1, h2, h3⟩ := TableRows.ends_of (fuel := k + 2) (TableRows.new t) hk hg (Nat.zero_le _) (Nat.le_refl _)
  exact ⟨k + 2, n, o, h1, h2, h3⟩

/-- **C104, rows later on.** The same from any state before the end of the last row. -/
theorem C104_rows_later (p : Profile) (t : TableData) (hm : t.mainSize < 2 ^ 64) (hr : t.row < t.ctx.naxis2) :
    (TableRows.new t).Ends p := by
  have hg : t.Going := .inr ⟨hm, hr⟩
  obtain ⟨k, hk⟩ := hg.endsIn (p := p)
  obtain ⟨n, o, h1, h2, h3⟩ := TableRows.ends_of (fuel := k + 2) (TableRows.new t) hk hg (Nat.zero_le _) (Nat.le_refl _)
  exact ⟨k + 2, n, o, h1, h2, h3⟩

/-- **C104, selections.** After a selection of columns of a table with rows, the values and the rows end. -/
theorem C104_select {p : Profile} {f : Fits} {x : Hdu BinTable} {t : TableData} (h : f.getTable p x = .ok t) (cs : List TableData.ColumnId)
    (hn : 0 < t.ctx.naxis2) : (t.selectFields cs).Ends p ∧ (TableRows.new (t.selectFields cs)).Ends p := by
  obtain ⟨⟨-, hm, -⟩, h0⟩ := opened_begun h
  have hr : (t.selectFields cs).row < (t.selectFields cs).ctx.naxis2 := by
    show t.row < t.ctx.naxis2
    omega
  exact ⟨C104_values p _ hm hr, C104_rows_later p _ hm hr⟩

/-- A cut table, one with arrays in the heap, and one with an empty array, whose length underflows (D10): when they end. -/
example :
    ((sampleState (mixedFile.take 5773) mixedTable [0, 4]).run .checked 10)[9]? = some (.ok none) ∧
    ((sampleState arrayFile arrayTable [0, 8]).run .checked 6)[5]? = some (.ok none) ∧
    ((sampleState emptyArrayFile emptyArrayTable [0, 8]).run .checked 1)[0]? = some .panic ∧
    ((sampleState emptyArrayFile emptyArrayTable [0, 8]).run .wrapping 4).map (fun r => decide (r = .ok none)) =
      [false, false, true, true] := by
  decide +kernel

/-- The hypotheses are met by a table of a file, in both builds. -/
example (p : Profile) : ∃ f' h, Opened p (afterPrimary mixedFile) f' h (sampleState mixedFile mixedTable [0, 4]) ∧
    (sampleState mixedFile mixedTable [0, 4]).Ends p ∧ (TableRows.new (sampleState mixedFile mixedTable [0, 4])).Ends p := by
  obtain ⟨f', h, ho, -⟩ := opened_mixed p
  exact ⟨f', h, ho, C104_opened ho.table, C104_rows ho.table⟩

end Fitsrs

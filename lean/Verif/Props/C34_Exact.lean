import Verif.Props.C35_C36
import Verif.Props.C37_Exact
import Verif.Lemmas.TableWalk
/-
C34, C35: what the scan gives after any selection of plain columns, among which the same one several times, and after a
seek that follows a selection.
-/

namespace Fitsrs
open Spec TableData

theorem insertSorted_perm (x : Nat) (l : List Nat) : (insertSorted x l).Perm (x :: l) := by
  induction l with
  | nil => exact .refl _
  | cons y l ih =>
    unfold insertSorted
    split
    · exact .refl _
    · exact (ih.cons y).trans (.swap x y l)

theorem insertSorted_le {x : Nat} {l : List Nat} (h : l.Pairwise (· ≤ ·)) : (insertSorted x l).Pairwise (· ≤ ·) := by
  induction l with
  | nil => simp [insertSorted]
  | cons y l ih =>
    rw [List.pairwise_cons] at h
    unfold insertSorted
    split
    · rename_i hxy
      rw [List.pairwise_cons, List.pairwise_cons]
      refine ⟨fun a ha => ?_, h⟩
      rcases List.mem_cons.1 ha with rfl | ha
      · exact hxy
      · exact Nat.le_trans hxy (h.1 a ha)
    · rename_i hxy
      rw [List.pairwise_cons]
      refine ⟨fun a ha => ?_, ih h.2⟩
      rcases mem_insertSorted.1 ha with rfl | ha
      · omega
      · exact h.1 a ha

theorem sort_perm (l : List Nat) : (sort l).Perm l := by
  induction l with
  | nil => exact .refl _
  | cons x l ih => exact (insertSorted_perm x _).trans (ih.cons x)

theorem sort_le (l : List Nat) : (sort l).Pairwise (· ≤ ·) := by
  induction l with
  | nil => exact .nil
  | cons x l ih => exact insertSorted_le ih

theorem Spec.Designated.filterMap {x : BinTable} {cs : List ColumnId} {l : List Nat} (h : Designated x cs l) :
    cs.filterMap (resolve x) = l := by
  induction h with
  | nil => rfl
  | take h _ ih => rw [List.filterMap_cons_some (resolve_iff.2 h), ih]
  | skip h _ ih =>
    rw [List.filterMap_cons_none, ih]
    cases hr : resolve x _ with
    | none => rfl
    | some c => exact absurd (resolve_iff.1 hr) (h c)

theorem Spec.ReadOrder.sort {x : BinTable} {cs : List ColumnId} {cols : List Nat} (h : ReadOrder x cs cols) :
    TableData.sort (cs.filterMap (resolve x)) = cols := by
  obtain ⟨h1, l, h2, h3⟩ := h
  rw [h2.filterMap]
  exact List.Perm.eq_of_pairwise (le := (· ≤ ·)) (fun a b _ _ hab hba => Nat.le_antisymm hab hba) (sort_le l) h1
    ((sort_perm l).trans h3.symm)

/-- A table just opened, some plain columns of which are selected. -/
theorem Opened.walks {p : Profile} {f f' : Fits} {x : Hdu BinTable} {t : TableData} (ho : Opened p f f' x t)
    (hl : Legal x.header.xtension f.rd.data x.dataOffset) {cs : List ColumnId} {cols : List Nat}
    (hs : ReadOrder x.header.xtension cs cols) (hp : PlainIn x.header.xtension cols) :
    ∃ T : Tab, T.Walks ∧ T.p = p ∧ T.x = x.header.xtension ∧ T.unit = f.rd.data.drop x.dataOffset ∧
      T.cols = cols ∧ t.selectFields cs = { T.main 0 0 0 0 with seekFirst := true } := by
  obtain ⟨os, g1, g2⟩ := ho.main hl
  refine ⟨⟨p, x.header.xtension, f.rd.data, x.dataOffset, cols, true, os⟩,
    ⟨hl.width, hl.small, hl.file, hl.size, hp, g1⟩, rfl, rfl, rfl, rfl, ?_⟩
  rw [g2]
  unfold TableData.selectFields
  rw [← hs.sort]
  rfl

/-- The first call of `next` after a selection. -/
theorem next_first {T : Tab} (hT : T.Walks) {r bo c : Nat} {ty : ElemTy} {rep : Nat} (hk : T.cols[0]? = some c)
    (hf : T.x.tforms[c]? = some (.plain ty rep)) (hrep : 0 < rep) (hb : T.start + bo < 2 ^ 61) :
    ({ T.main r 0 0 bo with seekFirst := true } : TableData).next T.p =
      (T.main r 0 0 (bo + colStart T.x.tforms c)).next T.p := by
  have hs := hT.start_lt hf hrep
  have hsm := hT.small
  have key : (T.main r 0 0 bo).advance T.p (asI64 (colStart T.x.tforms c)) =
      (.ok (), T.main r 0 0 (bo + colStart T.x.tforms c)) := by
    rw [asI64_lt (by omega), advance_main (by omega)]
  have h1 : ({ T.main r 0 0 bo with seekFirst := true } : TableData).toFirstCol T.p c =
      (none, T.main r 0 0 (bo + colStart T.x.tforms c)) := by
    unfold TableData.toFirstCol
    rw [if_pos rfl]
    dsimp only
    rw [show (T.main r 0 0 bo).offsets[c]? = some (colStart T.x.tforms c) from hT.offsets _ (form_lt hf)]
    dsimp only
    rw [show ({ T.main r 0 0 bo with seekFirst := false } : TableData) = T.main r 0 0 bo from rfl, key]
  unfold TableData.next
  rw [show ({ T.main r 0 0 bo with seekFirst := true } : TableData).cols[
    ({ T.main r 0 0 bo with seekFirst := true } : TableData).col]? = some c from hk,
    show (T.main r 0 0 (bo + colStart T.x.tforms c)).cols[
    (T.main r 0 0 (bo + colStart T.x.tforms c)).col]? = some c from hk]
  dsimp only
  rw [h1]
  rfl

/-- The columns that are read from the start of row `r`. -/
theorem columnsFrom_cons {T : Tab} {r c : Nat} (hr : r < T.x.naxis2) (hk : T.cols[0]? = some c) :
    columnsFrom T.x T.cols r = c :: T.colsAfter r 0 := by
  obtain ⟨h0, rfl⟩ := List.getElem?_eq_some_iff.1 hk
  unfold columnsFrom Tab.colsAfter
  rw [show T.x.naxis2 - r = (T.x.naxis2 - (r + 1)) + 1 by omega, List.replicate_succ, List.flatten_cons,
    ← List.cons_append]
  congr 1
  conv => lhs; rw [← List.drop_zero (l := T.cols), List.drop_eq_getElem_cons h0]

/-- The scan from the start of row `r`, whose first cell is read from byte `s`. -/
theorem run_from {T : Tab} (hT : T.Walks) {r s c : Nat} (hr : r < T.x.naxis2) (hk : T.cols[0]? = some c) :
    T.ScansTo (walkFromEnd T.x s (columnsFrom T.x T.cols r)) (walkFrom T.x s (columnsFrom T.x T.cols r))
      (T.main r 0 0 s) := by
  obtain ⟨ty, rep, hf, hrep⟩ := hT.plain c (List.mem_of_getElem? hk)
  have := run_walk hT _ (s := s) (i := 0) hr hk hf hrep (itemsRead_pos hrep) rfl
  rw [columnsFrom_cons hr hk, walkFrom, walkFromEnd]
  rw [Nat.zero_mul, List.drop_zero] at this
  exact this

/-- **C34, exactly, for plain columns**: after any selection, in which columns may be repeated, the scan reads the cells
of the selected columns one after the other, in the order of the columns, each at the first place at or after the end of
the last one where its column is found.  A column selected twice is therefore read in the next row, and so are the columns
after it.  The scan gives these values up to the first that is not in the file or starts just at the end of the main
table, and then `None`.  If they are all given and the last one ends after the main table, checked builds panic instead of
giving it. -/
theorem C34_exact {p : Profile} {f f' : Fits} {x : Hdu BinTable} {t : TableData} (ho : Opened p f f' x t)
    (hl : Legal x.header.xtension f.rd.data x.dataOffset) (hn : 0 < x.header.xtension.naxis2) {cs : List ColumnId}
    {cols : List Nat} (hs : ReadOrder x.header.xtension cs cols) (h0 : cols ≠ [])
    (hp : PlainIn x.header.xtension cols) :
    (let cells := columnsFrom x.header.xtension cols 0
     let vs := walk x.header.xtension 0 cells
     let seen := legible x.header.xtension (f.rd.data.drop x.dataOffset)
     let main := x.header.xtension.naxis1 * x.header.xtension.naxis2
     (vs.all seen = false ∨ p = .wrapping ∨ walkEnd x.header.xtension 0 cells ≤ main →
      ∀ n, (t.selectFields cs).run p n =
        scan ((vs.takeWhile seen).map (Visit.value (f.rd.data.drop x.dataOffset))) n) ∧
     (vs.all seen = true → p = .checked → main < walkEnd x.header.xtension 0 cells →
      (t.selectFields cs).run p vs.length =
        vs.dropLast.map (fun v => .ok (some (v.value (f.rd.data.drop x.dataOffset)))) ++ [.panic])) := by
  obtain ⟨T, hT, h1, h2, h3, h4, h5⟩ := ho.walks hl hs hp
  obtain ⟨c, hk⟩ : ∃ c, T.cols[0]? = some c :=
    ⟨_, List.getElem?_eq_getElem (List.length_pos_iff.2 (by rw [h4]; exact h0))⟩
  obtain ⟨ty, rep, hf, hrep⟩ := hT.plain c (List.mem_of_getElem? hk)
  rw [← h2] at hn
  rw [h5, ← h1, ← h2, ← h3, ← h4]
  dsimp only
  have hsz := hT.size
  have hst := hT.start_lt hf hrep
  have hrun := run_of_next (next_first (r := 0) (bo := 0) hT hk hf hrep (by omega))
  have e : land T.x.naxis1 0 (colStart T.x.tforms c) = 0 + colStart T.x.tforms c := by
    unfold land
    rw [Nat.zero_mod, Nat.sub_zero, Nat.add_mod_right, Nat.mod_eq_of_lt hst]
  have hv : walk T.x 0 (columnsFrom T.x T.cols 0) =
      walkFrom T.x (0 + colStart T.x.tforms c) (columnsFrom T.x T.cols 0) := by
    rw [columnsFrom_cons hn hk, walk, walkFrom, e]
  have he : walkEnd T.x 0 (columnsFrom T.x T.cols 0) =
      walkFromEnd T.x (0 + colStart T.x.tforms c) (columnsFrom T.x T.cols 0) := by
    rw [columnsFrom_cons hn hk, walkEnd, walkFromEnd, e]
  have h := run_from (s := 0 + colStart T.x.tforms c) hT hn hk
  rw [hv, he]
  exact ⟨fun g n => by rw [hrun n]; exact h.1 g n, fun g1 g2 g3 => by rw [hrun _]; exact h.2 g1 g2 g3⟩

theorem plainIn_mixed {cols : List Nat} (h : ∀ c ∈ cols, c = 0 ∨ c = 1) : PlainIn mixedTable cols := by
  intro c hc
  rcases h c hc with rfl | rfl
  · exact ⟨.I, 2, rfl, by decide⟩
  · exact ⟨.A, 3, rfl, by decide⟩

set_option maxRecDepth 20000 in
/-- The first of two columns is selected twice: it is read in the first row, then in the second one, and so is the second
column; then the end of the table is reached. -/
example (p : Profile) : ∃ f' h t, Opened p (afterPrimary mixedFile) f' h t ∧
    ∀ n, (t.selectFields [.index 1, .index 0, .index 7, .index 0]).run p n = scan [.cell 0 0 (.short 1),
      .cell 0 1 (.short (-2)), .cell 0 0 (.short 256), .cell 0 1 (.short 3), .cell 1 0 (.char 68), .cell 1 1 (.char 69),
      .cell 1 2 (.char 70)] n := by
  obtain ⟨f', h, ho, h1, h2⟩ := opened_mixed p
  refine ⟨f', h, _, ho, fun n => ?_⟩
  rw [(C34_exact (cols := [0, 0, 1]) ho (by rw [h1, h2]; exact legal_mixed) (by rw [h1]; decide)
    (by
      rw [h1]
      refine ⟨by decide, [1, 0, 0], .take ⟨rfl, by decide⟩ (.take ⟨rfl, by decide⟩ (.skip ?_ (.take ⟨rfl, by decide⟩ .nil))),
        by decide⟩
      rintro c ⟨-, hc⟩
      exact absurd hc (by decide)) (by decide) (by rw [h1]; exact plainIn_mixed (by decide))).1
    (.inl (by rw [h1, h2]; decide +kernel)) n, h1, h2]
  refine congrArg (scan · n) ?_
  decide +kernel

/-- Seeking to a row before any value is read. -/
theorem seekToRow_first {T : Tab} (hT : T.Walks) {r r' k i bo c : Nat} (hr : r' < T.x.naxis2)
    (hbo : bo ≤ T.x.naxis1 * T.x.naxis2) (hk : T.cols[0]? = some c)
    {ty : ElemTy} {rep : Nat} (hf : T.x.tforms[c]? = some (.plain ty rep)) (hrep : 0 < rep) :
    ({ T.main r k i bo with seekFirst := true } : TableData).seekToRow T.p r' =
      (.ok (), { T.main r' 0 0 (r' * T.x.naxis1 + colStart T.x.tforms c) with seekFirst := true }) := by
  have hs := hT.start_lt hf hrep
  have hsm := hT.small
  have hsz := hT.size
  have hmul : (r' + 1) * T.x.naxis1 ≤ T.x.naxis1 * T.x.naxis2 := by
    rw [Nat.mul_comm T.x.naxis1]
    exact Nat.mul_le_mul_right _ hr
  rw [Nat.succ_mul] at hmul
  have hrn : r' * 1 ≤ r' * T.x.naxis1 := Nat.mul_le_mul_left _ (by omega)
  have e1 : (i64op T.p (asI64 r' * asI64 T.x.naxis1) >>= fun a => i64op T.p (a + asI64 (colStart T.x.tforms c))) =
      .ok ((r' * T.x.naxis1 + colStart T.x.tforms c : Nat) : Int) := by
    have hm : asI64 r' * asI64 T.x.naxis1 = ((r' * T.x.naxis1 : Nat) : Int) := by
      rw [asI64_lt (by omega), asI64_lt (by omega), Int.natCast_mul]
    rw [hm, i64op_ok (by omega) (by omega)]
    simp only [Res.bind_ok]
    rw [asI64_lt (by omega), i64op_ok (by omega) (by omega)]
    congr 1
  have e2 : (i64op T.p (- asI64 bo) >>= fun a =>
      i64op T.p (a + ((r' * T.x.naxis1 + colStart T.x.tforms c : Nat) : Int))) =
      .ok (- (bo : Int) + ((r' * T.x.naxis1 + colStart T.x.tforms c : Nat) : Int)) := by
    rw [asI64_lt (by omega), i64op_ok (by omega) (by omega)]
    simp only [Res.bind_ok]
    rw [i64op_ok (by omega) (by omega)]
  have e3 : (Reader.mk T.data (T.start + bo)).seekRelative
      (- (bo : Int) + ((r' * T.x.naxis1 + colStart T.x.tforms c : Nat) : Int)) =
      (.ok (), ⟨T.data, T.start + (r' * T.x.naxis1 + colStart T.x.tforms c)⟩) :=
    seekRelative_nat _ (by dsimp only; omega) (by unfold two64; omega)
  have e4 : T.cols[0]?.bind (T.offsets[·]?) = some (colStart T.x.tforms c) := by
    rw [hk]
    exact hT.offsets c (form_lt hf)
  unfold TableData.seekToRow
  rw [if_neg (show ¬ r' ≥ (T.main r k i bo).ctx.naxis2 from by show ¬ r' ≥ T.x.naxis2; omega)]
  dsimp only [Tab.main]
  rw [e4]
  dsimp only
  rw [e1]
  dsimp only
  rw [e2]
  dsimp only
  rw [e3]
  dsimp only
  rw [asU64_nat (by omega)]

/-- **C35, exactly, after a selection of plain columns**: a row sought before any value is read is read from a wrong
place, as far after the start of the first selected column as this column is after the start of the row.  The other cells
are read as in C34. -/
theorem C35_exact_select {p : Profile} {f f' : Fits} {x : Hdu BinTable} {t : TableData} (ho : Opened p f f' x t)
    (hl : Legal x.header.xtension f.rd.data x.dataOffset) {r : Nat} (hr : r < x.header.xtension.naxis2)
    {cs : List ColumnId} {c : Nat} {cols : List Nat} (hs : ReadOrder x.header.xtension cs (c :: cols))
    (hp : PlainIn x.header.xtension (c :: cols)) :
    ∃ u, (t.selectFields cs).seekToRow p r = (.ok (), u) ∧
    (let start := r * x.header.xtension.naxis1 + 2 * colStart x.header.xtension.tforms c
     let cells := columnsFrom x.header.xtension (c :: cols) r
     let vs := walkFrom x.header.xtension start cells
     let seen := legible x.header.xtension (f.rd.data.drop x.dataOffset)
     let main := x.header.xtension.naxis1 * x.header.xtension.naxis2
     (vs.all seen = false ∨ p = .wrapping ∨ walkFromEnd x.header.xtension start cells ≤ main →
      ∀ n, u.run p n = scan ((vs.takeWhile seen).map (Visit.value (f.rd.data.drop x.dataOffset))) n) ∧
     (vs.all seen = true → p = .checked → main < walkFromEnd x.header.xtension start cells →
      u.run p vs.length =
        vs.dropLast.map (fun v => .ok (some (v.value (f.rd.data.drop x.dataOffset)))) ++ [.panic])) := by
  obtain ⟨T, hT, h1, h2, h3, h4, h5⟩ := ho.walks hl hs hp
  have hk : T.cols[0]? = some c := by rw [h4]; rfl
  obtain ⟨ty, rep, hf, hrep⟩ := hT.plain c (List.mem_of_getElem? hk)
  rw [← h2] at hr
  rw [h5, ← h1, ← h2, ← h3, ← h4]
  refine ⟨_, seekToRow_first hT hr (Nat.zero_le _) hk hf hrep, ?_⟩
  dsimp only
  have hsz := hT.size
  have hst := hT.start_lt hf hrep
  have hmul : (r + 1) * T.x.naxis1 ≤ T.x.naxis1 * T.x.naxis2 := by
    rw [Nat.mul_comm T.x.naxis1]
    exact Nat.mul_le_mul_right _ hr
  rw [Nat.succ_mul] at hmul
  have hrun := run_of_next (next_first (r := r) (bo := r * T.x.naxis1 + colStart T.x.tforms c) hT hk hf hrep (by omega))
  rw [Nat.add_assoc, ← Nat.two_mul] at hrun
  have h := run_from (s := r * T.x.naxis1 + 2 * colStart T.x.tforms c) hT hr hk
  exact ⟨fun g n => by rw [hrun n]; exact h.1 g n, fun g1 g2 g3 => by rw [hrun _]; exact h.2 g1 g2 g3⟩

set_option maxRecDepth 20000 in
/-- The second column, which starts at byte 4, is selected, and the first row sought: the text is read from byte 8, then
from byte 11, the next place where this column is found. -/
example (p : Profile) : ∃ f' h t u, Opened p (afterPrimary mixedFile) f' h t ∧
    (t.selectFields [.index 1]).seekToRow p 0 = (.ok (), u) ∧ ∀ n, u.run p n = scan [.cell 1 0 (.char 0),
      .cell 1 1 (.char 0), .cell 1 2 (.char 3), .cell 1 0 (.char 68), .cell 1 1 (.char 69), .cell 1 2 (.char 70)] n := by
  obtain ⟨f', h, ho, h1, h2⟩ := opened_mixed p
  obtain ⟨u, hu, hr⟩ := C35_exact_select (r := 0) (c := 1) (cols := []) (cs := [.index 1]) ho
    (by rw [h1, h2]; exact legal_mixed) (by rw [h1]; decide)
    (by rw [h1]; exact ⟨by decide, [1], .take ⟨rfl, by decide⟩ .nil, .refl _⟩)
    (by rw [h1]; exact plainIn_mixed (by decide))
  refine ⟨f', h, _, u, ho, hu, fun n => ?_⟩
  refine (hr.1 (.inr (.inr (by rw [h1]; decide +kernel))) n).trans ?_
  rw [h1, h2]
  refine congrArg (scan · n) ?_
  decide +kernel

end Fitsrs

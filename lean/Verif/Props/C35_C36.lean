import Verif.Props.C37_C39
/-
C35 seeking to a row, C36 iterating by rows.
-/

namespace Fitsrs
open Spec TableData

/-- The values of the selected columns, row by row. -/
def rowsOf (x : BinTable) (unit : List UInt8) (cols : List Nat) : List (List DataValue) :=
  (List.range x.naxis2).map (rowValues true x unit cols)

/-! ## C35 -/

/-- **C35**, the full statement, which the code does not meet: in any history of calls of `next` and `seek_to_row` after
a selection of columns, `next` gives the values that follow the last one given or the row sought, and `seek_to_row`
succeeds exactly for the rows that exist. -/
def C35_statement : Prop :=
  ∀ (p : Profile) (f f' : Fits) (x : Hdu BinTable) (t : TableData) (cs : List ColumnId) (sel : List Nat)
    (ops : List TableOp), Opened p f f' x t → Legal x.header.xtension f.rd.data x.dataOffset →
    Complete x.header.xtension f.rd.data x.dataOffset → 0 < x.header.xtension.naxis2 → Selection x.header.xtension f.rd.data x.dataOffset cs sel →
    (t.selectFields cs).ops p ops =
      tableRun (rowsOf x.header.xtension (f.rd.data.drop x.dataOffset) sel)
        (rowsOf x.header.xtension (f.rd.data.drop x.dataOffset) sel).flatten ops

/-- The next value is an element of a variable-length array, but not its first one. -/
def Spec.InsideArray (x : BinTable) : List DataValue → Prop
  | .cell c i _ :: _ => 0 < i ∧ ∀ ty rep, x.tforms[c]? ≠ some (.plain ty rep)
  | _ => False

/-- No row is sought inside an array. -/
def Spec.SeeksOutside (x : BinTable) (rows : List (List DataValue)) : List DataValue → List TableOp → Prop
  | _, [] => True
  | left, .next :: os => SeeksOutside x rows left.tail os
  | left, .seek r :: os =>
    if r < rows.length then ¬ InsideArray x left ∧ SeeksOutside x rows (rows.drop r).flatten os
    else SeeksOutside x rows left os

/-- The state of a table outside of arrays. -/
theorem Tab.State.form_outside {T : Tab} (hT : T.Ok) {r : Nat} {cur : List DataValue} {t : TableData}
    (h : T.State r cur t) (ho : ¬ InsideArray T.x (cur ++ T.rest (r + 1))) :
    ∃ k i bo, t = T.main r k i bo ∧ bo ≤ T.x.naxis1 * T.x.naxis2 := by
  rcases h with ⟨rfl, -, k, i, -, rfl⟩ | ⟨hr, k, c, i, hk, hi, hat, hcur⟩
  · exact ⟨k, i, _, rfl, Nat.le_refl _⟩
  · obtain ⟨tf, hf⟩ := hT.form (mem_cols hk)
    have hcell := hT.cell hr hf
    rw [List.drop_eq_getElem_cons hi, List.cons_append] at hcur
    have hel : ∀ {ty o n}, cellValues T.heap T.x T.unit r c = elements T.unit ty c o n →
        ∃ v, (cellValues T.heap T.x T.unit r c)[i] = .cell c i v := by
      intro ty o n e
      refine ⟨Cell.ofBytes ty (bytesAt T.unit (o + i * elemBytes ty) (elemBytes ty)), ?_⟩
      have hi' : i < (elements T.unit ty c o n).length := e ▸ hi
      have h1 : (cellValues T.heap T.x T.unit r c)[i]? = (elements T.unit ty c o n)[i]? := by rw [e]
      rw [List.getElem?_eq_getElem hi, List.getElem?_eq_getElem hi', elements_get] at h1
      exact Option.some.inj h1
    unfold Tab.At at hat
    cases tf with
    | plain ty rep =>
      simp only [hf] at hat
      rw [colBytes_plain] at hcell
      unfold cellValues at hi
      simp only [hf] at hi
      rw [elements_length] at hi
      have := Nat.mul_le_mul_right (elemBytes ty) (Nat.le_of_lt hi)
      exact ⟨k, i, _, hat, by omega⟩
    | P ty =>
      simp only [hf] at hat
      split at hat
      · exact ⟨k, 0, _, hat, by omega⟩
      · rename_i h0
        obtain ⟨hh, -⟩ := hat
        obtain ⟨v, hv⟩ := hel (ty := ty) (by unfold cellValues arrayValues; simp only [hf, hh, if_true]; rfl)
        rw [hcur, hv] at ho
        exact absurd ⟨by omega, fun ty rep => by rw [hf]; simp⟩ ho
    | Q ty =>
      simp only [hf] at hat
      split at hat
      · exact ⟨k, 0, _, hat, by omega⟩
      · rename_i h0
        obtain ⟨hh, -⟩ := hat
        obtain ⟨v, hv⟩ := hel (ty := ty) (by unfold cellValues arrayValues; simp only [hf, hh, if_true]; rfl)
        rw [hcur, hv] at ho
        exact absurd ⟨by omega, fun ty rep => by rw [hf]; simp⟩ ho

/-- The state of a table of plain values. -/
theorem Tab.State.form {T : Tab} (hT : T.Ok) (hp : T.Plain) {r : Nat} {cur : List DataValue} {t : TableData}
    (h : T.State r cur t) : ∃ k i bo, t = T.main r k i bo ∧ bo ≤ T.x.naxis1 * T.x.naxis2 := by
  rcases h with ⟨rfl, -, k, i, -, rfl⟩ | ⟨hr, k, c, i, hk, hi, hat, -⟩
  · exact ⟨k, i, _, rfl, Nat.le_refl _⟩
  · obtain ⟨ty, rep, hf⟩ := hp c (mem_cols hk)
    have hcell := hT.cell hr hf
    rw [colBytes_plain] at hcell
    unfold Tab.At at hat
    unfold cellValues at hi
    simp only [hf] at hat hi
    rw [elements_length] at hi
    have := Nat.mul_le_mul_right (elemBytes ty) (Nat.le_of_lt hi)
    exact ⟨k, i, _, hat, by omega⟩

theorem Tab.State.ctx {T : Tab} {r : Nat} {cur : List DataValue} {t : TableData} (h : T.State r cur t) : t.ctx = T.x := by
  rcases h with ⟨-, -, k, i, -, rfl⟩ | ⟨-, k, c, i, -, -, h, -⟩
  · rfl
  · unfold Tab.At at h
    split at h
    · subst h; rfl
    · split at h
      · subst h; rfl
      · rw [h.2]; rfl
    · split at h
      · subst h; rfl
      · rw [h.2]; rfl
    · exact h.elim

/-- Histories of calls from a known state. -/
theorem ops_ok {T : Tab} (hT : T.Ok) (hmain : T.start + T.x.naxis1 * T.x.naxis2 ≤ T.data.length)
    {rows : List (List DataValue)} (hrows : rows = (List.range T.x.naxis2).map (rowValues T.heap T.x T.unit T.cols))
    (ops : List TableOp) {vs : List DataValue} {t : TableData} (h : T.Left vs t)
    (hp : T.Plain ∨ SeeksOutside T.x rows vs ops) :
    t.ops T.p ops = tableRun rows vs ops := by
  induction ops generalizing vs t with
  | nil => rfl
  | cons o ops ih =>
    rw [TableData.ops]
    cases o with
    | next =>
      unfold TableData.op
      rw [tableRun]
      cases vs with
      | nil =>
        rw [h.nil]
        dsimp only
        rw [ih h (hp.imp id id)]
        rfl
      | cons v vs =>
        obtain ⟨t', h1, h2⟩ := h.cons hT hmain
        rw [h1]
        dsimp only
        rw [ih h2 (hp.imp id id)]
        rfl
    | seek r =>
      unfold TableData.op
      dsimp only
      rw [tableRun]
      have hlen : rows.length = T.x.naxis2 := by rw [hrows]; simp
      obtain ⟨r0, cur, hs, hv⟩ := h
      by_cases hr : r < rows.length
      · rw [if_pos hr]
        obtain ⟨k, i, bo, rfl, hbo⟩ : ∃ k i bo, t = T.main r0 k i bo ∧ bo ≤ T.x.naxis1 * T.x.naxis2 := by
          rcases hp with hp | hp
          · exact hs.form hT hp
          · unfold SeeksOutside at hp
            rw [if_pos hr, hv] at hp
            exact hs.form_outside hT hp.1
        have hp' : T.Plain ∨ SeeksOutside T.x rows (rows.drop r).flatten ops := hp.imp id (fun h => by
          unfold SeeksOutside at h
          rw [if_pos hr] at h
          exact h.2)
        rw [hlen] at hr
        have h0 : 0 < T.cols.length := List.length_pos_iff.2 hT.readable.nonempty
        rw [seekToRow_main hT hr h0 hbo]
        dsimp only
        rw [ih (vs := (rows.drop r).flatten) ?_ hp']
        refine ⟨r, _, Tab.Left.start hT hr h0, ?_⟩
        rw [← T.rest_eq r]
        unfold Tab.rest
        rw [hrows, ← List.map_drop, List.flatMap_def]
      · rw [if_neg hr]
        obtain ⟨e, he⟩ := seekToRow_err (p := T.p) (t := t) (r := r) (by rw [hs.ctx]; omega)
        rw [he]
        dsimp only
        rw [ih ⟨r0, cur, hs, hv⟩ (hp.imp id (fun h => by
          unfold SeeksOutside at h
          rw [if_neg hr] at h
          exact h))]

theorem PlainColumns.plain {x : BinTable} (h : PlainColumns x) {T : Tab} (hx : T.x = x)
    (hv : ∀ c ∈ T.cols, c < x.tforms.length) : T.Plain := by
  intro c hc
  obtain ⟨ty, rep, h1, -⟩ := h.cells (hv c hc)
  exact ⟨ty, rep, by rw [hx]; exact h1⟩

/-- **C35, partial.** In any history of calls of `next` and `seek_to_row` on a table, `next` gives the values that follow the last
one given or the row sought, and `seek_to_row` succeeds exactly for the rows that exist.  Missing: seeking inside an array, seeking
after a selection before any value is read, and the columns that cannot be read (C33). -/
theorem C35_partial {p : Profile} {f f' : Fits} {x : Hdu BinTable} {t : TableData} (ho : Opened p f f' x t)
    (hl : Legal x.header.xtension f.rd.data x.dataOffset) (hc : Complete x.header.xtension f.rd.data x.dataOffset)
    (hi : CellsIn x.header.xtension f.rd.data x.dataOffset (List.range x.header.xtension.tforms.length)) (ops : List TableOp)
    (hs : SeeksOutside x.header.xtension
      (rowsOf x.header.xtension (f.rd.data.drop x.dataOffset) (List.range x.header.xtension.tforms.length))
      (rowsOf x.header.xtension (f.rd.data.drop x.dataOffset) (List.range x.header.xtension.tforms.length)).flatten ops) :
    t.ops p ops = tableRun
      (rowsOf x.header.xtension (f.rd.data.drop x.dataOffset) (List.range x.header.xtension.tforms.length))
      (rowsOf x.header.xtension (f.rd.data.drop x.dataOffset) (List.range x.header.xtension.tforms.length)).flatten
      ops := by
  obtain ⟨T, hT, h1, h2, h3, h4, h5, h6, hst, -⟩ := ho.left hl hi
  have hleft : T.Left (tableValues T.heap T.x T.unit T.cols) t := ⟨0, _, hst, T.values_eq.symm⟩
  have hmain : T.start + T.x.naxis1 * T.x.naxis2 ≤ T.data.length := by rw [h2, h3, h4]; exact hc
  have := ops_ok hT hmain rfl ops hleft (.inr (by
    unfold Tab.unit tableValues
    rw [h2, h3, h4, h5, h6, List.flatMap_def]
    exact hs))
  unfold Tab.unit tableValues at this
  rw [h1, h2, h3, h4, h5, h6] at this
  rw [this, List.flatMap_def]
  rfl

/-- **C35, tables without arrays, partial.** The rows may then be sought at any time. -/
theorem C35_plain_partial {p : Profile} {f f' : Fits} {x : Hdu BinTable} {t : TableData} (ho : Opened p f f' x t)
    (hl : Legal x.header.xtension f.rd.data x.dataOffset) (hc : Complete x.header.xtension f.rd.data x.dataOffset)
    (hp : PlainColumns x.header.xtension) (ops : List TableOp) :
    t.ops p ops = tableRun
      (rowsOf x.header.xtension (f.rd.data.drop x.dataOffset) (List.range x.header.xtension.tforms.length))
      (rowsOf x.header.xtension (f.rd.data.drop x.dataOffset) (List.range x.header.xtension.tforms.length)).flatten
      ops := by
  have hi : CellsIn x.header.xtension f.rd.data x.dataOffset (List.range x.header.xtension.tforms.length) :=
    cellsIn_plain (fun c hm => hp.cells (List.mem_range.1 hm))
  obtain ⟨T, hT, h1, h2, h3, h4, h5, h6, hs, -⟩ := ho.left hl hi
  have hleft : T.Left (tableValues T.heap T.x T.unit T.cols) t := ⟨0, _, hs, T.values_eq.symm⟩
  have hmain : T.start + T.x.naxis1 * T.x.naxis2 ≤ T.data.length := by rw [h2, h3, h4]; exact hc
  have := ops_ok hT hmain rfl ops hleft (.inl (hp.plain h2 (by rw [h5]; exact fun c hm => List.mem_range.1 hm)))
  unfold Tab.unit tableValues at this
  rw [h1, h2, h3, h4, h5, h6] at this
  rw [this, List.flatMap_def]
  rfl

/-- **C35, partial**, after a selection of columns: the same holds if the first call is one of `next`. -/
theorem C35_select_partial {p : Profile} {f f' : Fits} {x : Hdu BinTable} {t : TableData} (ho : Opened p f f' x t)
    (hl : Legal x.header.xtension f.rd.data x.dataOffset) (hc : Complete x.header.xtension f.rd.data x.dataOffset)
    (hn : 0 < x.header.xtension.naxis2) {cs : List ColumnId} {sel : List Nat}
    (hs : Selection x.header.xtension f.rd.data x.dataOffset cs sel) (ops : List TableOp)
    (hp : PlainColumns x.header.xtension ∨ SeeksOutside x.header.xtension (rowsOf x.header.xtension (f.rd.data.drop x.dataOffset) sel)
      (rowsOf x.header.xtension (f.rd.data.drop x.dataOffset) sel).flatten (.next :: ops)) :
    (t.selectFields cs).ops p (.next :: ops) =
      tableRun (rowsOf x.header.xtension (f.rd.data.drop x.dataOffset) sel)
        (rowsOf x.header.xtension (f.rd.data.drop x.dataOffset) sel).flatten (.next :: ops) := by
  obtain ⟨T, hT, h1, h2, h3, h4, h5, h6, h7⟩ := ho.select hl hs
  obtain ⟨u, g1, -, g2⟩ := select_next hT (by rw [h2]; exact hn)
  have hmain : T.start + T.x.naxis1 * T.x.naxis2 ≤ T.data.length := by rw [h2, h3, h4]; exact hc
  have := ops_ok hT hmain rfl (.next :: ops) g2 (by
    rcases hp with hp | hp
    · exact .inl (hp.plain h2 (by rw [h5]; exact hs.valid))
    · refine .inr ?_
      unfold Tab.unit tableValues
      rw [h2, h3, h4, h5, h6, List.flatMap_def]
      exact hp)
  unfold Tab.unit tableValues at this
  rw [h1, h2, h3, h4, h5, h6] at this
  rw [h7]
  have e : (rowsOf x.header.xtension (f.rd.data.drop x.dataOffset) sel).flatten =
    (List.range x.header.xtension.naxis2).flatMap (rowValues true x.header.xtension (f.rd.data.drop x.dataOffset) sel) := by
    rw [List.flatMap_def]; rfl
  rw [e]
  refine Eq.trans ?_ this
  rw [TableData.ops, TableData.ops]
  unfold TableData.op
  rw [← h1, g1]

theorem plain_mixed : PlainColumns mixedTable := by
  intro f hf
  simp only [mixedTable, List.mem_cons, List.not_mem_nil, or_false] at hf
  rcases hf with rfl | rfl
  · exact ⟨.I, 2, rfl, by decide, by decide⟩
  · exact ⟨.A, 3, rfl, by decide, by decide⟩

theorem selection_mixed {start : Nat} {data : List UInt8} : Selection mixedTable data start [.index 1] [1] := by
  refine ⟨⟨by decide, fun c => ?_⟩, by simp [Distinct], by decide, by decide, cells_mixed _ _ (by decide)⟩
  simp [Selects, mixedTable]

set_option maxRecDepth 20000 in
example (p : Profile) : ∃ f' h t, Opened p (afterPrimary mixedFile) f' h t ∧
    t.ops p [.next, .seek 1, .seek 2, .next, .next, .seek 0, .next] =
      [.value (.ok (some (.cell 0 0 (.short 1)))), .sought true, .sought false,
       .value (.ok (some (.cell 0 0 (.short 256)))), .value (.ok (some (.cell 0 1 (.short 3)))), .sought true,
       .value (.ok (some (.cell 0 0 (.short 1))))] := by
  obtain ⟨f', h, ho, h1, h2⟩ := opened_mixed p
  refine ⟨f', h, _, ho, ?_⟩
  rw [C35_plain_partial ho (by rw [h1, h2]; exact legal_mixed) (by rw [h1, h2]; decide +kernel)
    (by rw [h1]; exact plain_mixed), h1, h2]
  decide +kernel

set_option maxRecDepth 20000 in
/-- **C35 is false of the code**: when a column is selected, then a row sought, the first call of `next` seeks to the
column once more and gives a value found further on. -/
theorem C35_fails : ¬ C35_statement := by
  intro h
  obtain ⟨f', x, ho, h1, h2⟩ := opened_mixed .checked
  have := h .checked _ f' x _ [.index 1] [1] [.seek 0, .next] ho (by rw [h1, h2]; exact legal_mixed)
    (by rw [h1, h2]; decide +kernel) (by rw [h1]; decide) (by rw [h1, h2]; exact selection_mixed)
  rw [h1, h2] at this
  revert this
  decide +kernel

set_option maxRecDepth 20000 in
/-- A table with arrays. -/
example (p : Profile) : ∃ f' h t, Opened p (afterPrimary arrayFile) f' h t ∧
    t.ops p [.next, .next, .seek 1, .next, .seek 0, .next] =
      [.value (.ok (some (.cell 0 0 (.short 5)))), .value (.ok (some (.cell 0 1 (.short 6)))), .sought true,
       .value (.ok (some (.cell 0 0 (.short 7)))), .sought true, .value (.ok (some (.cell 0 0 (.short 5))))] := by
  obtain ⟨f', h, ho, h1, h2⟩ := opened_array p
  refine ⟨f', h, _, ho, ?_⟩
  have hr : rowsOf arrayTable (arrayFile.drop 5760) (List.range arrayTable.tforms.length) =
      [[.cell 0 0 (.short 5), .cell 0 1 (.short 6), .cell 1 0 (.ubyte 9)], [.cell 0 0 (.short 7), .cell 1 0 (.ubyte 8)]] := by
    decide +kernel
  rw [C35_partial ho (by rw [h1, h2]; exact legal_array) (by rw [h1, h2]; decide +kernel)
    (by rw [h1, h2]; exact cells_array) _ (by
      rw [h1, h2]
      change SeeksOutside _ (rowsOf arrayTable (arrayFile.drop 5760) (List.range arrayTable.tforms.length))
        (rowsOf arrayTable (arrayFile.drop 5760) (List.range arrayTable.tforms.length)).flatten _
      rw [hr]
      simp [SeeksOutside, InsideArray, arrayTable]), h1, h2]
  decide +kernel

set_option maxRecDepth 20000 in
/-- **C35 is false of the code inside arrays**, without any selection: a row sought after the first element of an array is not
found. -/
theorem C35_fails_array : ¬ ∀ (p : Profile) (f f' : Fits) (x : Hdu BinTable) (t : TableData) (ops : List TableOp),
    Opened p f f' x t → Legal x.header.xtension f.rd.data x.dataOffset →
    Complete x.header.xtension f.rd.data x.dataOffset →
    CellsIn x.header.xtension f.rd.data x.dataOffset (List.range x.header.xtension.tforms.length) →
    t.ops p ops = tableRun
      (rowsOf x.header.xtension (f.rd.data.drop x.dataOffset) (List.range x.header.xtension.tforms.length))
      (rowsOf x.header.xtension (f.rd.data.drop x.dataOffset) (List.range x.header.xtension.tforms.length)).flatten ops := by
  intro h
  obtain ⟨f', x, ho, h1, h2⟩ := opened_array .checked
  have := h .checked _ f' x _ [.next, .seek 1, .next] ho (by rw [h1, h2]; exact legal_array)
    (by rw [h1, h2]; decide +kernel) (by rw [h1, h2]; exact cells_array)
  rw [h1, h2] at this
  revert this
  decide +kernel

/-! ## C36 -/

/-- What `n` calls of an iterator over rows give. -/
def rowScan (rows : List (List DataValue)) (n : Nat) : List (Option (Res (Option (List DataValue)))) :=
  (rows.take n).map (fun vs => some (.ok (some vs))) ++ List.replicate (n - rows.length) (some (.ok none))

/-- **C36**, the full statement, which the code does not meet: iterating a complete table of plain values by rows gives
`NAXIS2` rows, each with the values of the columns, and then `None`.  The loop over the values of a row is given a
fuel, which is enough if it exceeds the number of values. -/
def C36_statement : Prop :=
  ∀ (p : Profile) (f f' : Fits) (x : Hdu BinTable) (t : TableData) (fuel : Nat),
    Opened p f f' x t → Legal x.header.xtension f.rd.data x.dataOffset →
    Complete x.header.xtension f.rd.data x.dataOffset →
    (∀ f ∈ x.header.xtension.tforms, ∃ ty rep, f = .plain ty rep) → x.header.xtension.naxis1 < fuel →
    ∀ n, (TableRows.new t).run p fuel n = rowScan
      (rowsOf x.header.xtension (f.rd.data.drop x.dataOffset) (List.range x.header.xtension.tforms.length)) n

theorem rows_run {T : Tab} (hT : T.Ok) (hmain : T.start + T.x.naxis1 * T.x.naxis2 ≤ T.data.length) {fuel : Nat}
    (hf : ∀ r < T.x.naxis2, (rowValues T.heap T.x T.unit T.cols r).length < fuel) (h0 : 0 < fuel) (n : Nat) {r : Nat}
    {t : TableData} (h : T.State r (T.rowAt r) t) :
    (TableRows.mk t r).run T.p fuel n =
      rowScan (((List.range T.x.naxis2).map (rowValues T.heap T.x T.unit T.cols)).drop r) n := by
  induction n generalizing r t with
  | zero => simp [TableRows.run, rowScan]
  | succ n ih =>
    rw [TableRows.run]
    unfold TableRows.next
    dsimp only
    by_cases hr : r < T.x.naxis2
    · have e : T.rowAt r = rowValues T.heap T.x T.unit T.cols r := if_pos hr
      obtain ⟨t', h1, h2⟩ := collect_row (acc := []) hT hmain hr h (fuel := fuel) (by rw [e]; exact hf r hr)
      rw [h1]
      dsimp only
      rw [ih h2, List.drop_eq_getElem_cons (i := r) (by simpa using hr)]
      simp [rowScan, e]
    · have hr' : r = T.x.naxis2 := by have := h.le; omega
      subst hr'
      have e : T.rowAt T.x.naxis2 = [] := if_neg hr
      rw [e] at h
      rw [collect_end h h0]
      dsimp only
      rw [ih (by rw [e]; exact h)]
      rw [List.drop_eq_nil_of_le (by simp)]
      simp [rowScan, List.replicate_succ]

/-- **C36, partial.** Iterating a complete table by rows gives `NAXIS2` rows, the `i`-th holding exactly the values of
row `i` in order, and then `None`; arrays are included.  Missing: repeat counts that are 0, bit columns whose repeat
count is a multiple of 8, empty arrays. -/
theorem C36_partial {p : Profile} {f f' : Fits} {x : Hdu BinTable} {t : TableData} (ho : Opened p f f' x t)
    (hl : Legal x.header.xtension f.rd.data x.dataOffset) (hc : Complete x.header.xtension f.rd.data x.dataOffset)
    (hi : CellsIn x.header.xtension f.rd.data x.dataOffset (List.range x.header.xtension.tforms.length)) {fuel : Nat}
    (hf : ∀ row ∈ rowsOf x.header.xtension (f.rd.data.drop x.dataOffset)
      (List.range x.header.xtension.tforms.length), row.length < fuel) (h0 : 0 < fuel) (n : Nat) :
    (TableRows.new t).run p fuel n = rowScan
      (rowsOf x.header.xtension (f.rd.data.drop x.dataOffset) (List.range x.header.xtension.tforms.length)) n := by
  obtain ⟨T, hT, h1, h2, h3, h4, h5, h6, hs, -⟩ := ho.left hl hi
  have hmain : T.start + T.x.naxis1 * T.x.naxis2 ≤ T.data.length := by rw [h2, h3, h4]; exact hc
  have := rows_run hT hmain (fuel := fuel) (by
    intro r hr
    unfold Tab.unit
    rw [h2, h3, h4, h5, h6]
    rw [h2] at hr
    exact hf _ (List.mem_map.2 ⟨r, List.mem_range.2 hr, rfl⟩)) h0 n hs
  unfold Tab.unit at this
  rw [h1, h2, h3, h4, h5, h6] at this
  exact this

set_option maxRecDepth 20000 in
example (p : Profile) : ∃ f' h t, Opened p (afterPrimary mixedFile) f' h t ∧
    ∀ n, (TableRows.new t).run p 6 n = rowScan
      [[.cell 0 0 (.short 1), .cell 0 1 (.short (-2)), .cell 1 0 (.char 65), .cell 1 1 (.char 66), .cell 1 2 (.char 67)],
       [.cell 0 0 (.short 256), .cell 0 1 (.short 3), .cell 1 0 (.char 68), .cell 1 1 (.char 69),
        .cell 1 2 (.char 70)]] n := by
  obtain ⟨f', h, ho, h1, h2⟩ := opened_mixed p
  refine ⟨f', h, _, ho, fun n => ?_⟩
  rw [C36_partial ho (by rw [h1, h2]; exact legal_mixed) (by rw [h1, h2]; decide +kernel)
    (by rw [h1, h2]; exact cells_mixed _ _ (by decide)) (by rw [h1, h2]; decide +kernel) (by decide), h1, h2]
  refine congrArg (rowScan · n) ?_
  decide +kernel

set_option maxRecDepth 20000 in
/-- **C36 is false of the code**: the byte of the second row of a table of eight bits is given with the first row. -/
theorem C36_fails : ¬ C36_statement := by
  intro h
  obtain ⟨f', x, ho, h1, h2⟩ := opened_bits .checked
  have := h .checked _ f' x _ 3 ho (by rw [h1, h2]; exact legal_bits) (by rw [h1, h2]; decide +kernel)
    (by
      rw [h1]
      intro f hf
      simp only [bitsTable, List.mem_cons, List.not_mem_nil, or_false] at hf
      exact ⟨_, _, hf⟩) (by rw [h1]; decide) 1
  rw [h1, h2] at this
  revert this
  decide +kernel

set_option maxRecDepth 20000 in
/-- Iterating by rows after seeking to a row gives empty rows for the rows before it, although the columns are ordinary
ones: the iterator counts the rows from 0. -/
theorem C36_after_seek : ((TableRows.new ((sampleState mixedFile mixedTable [0, 4]).seekToRow .checked 1).2).next
    .checked 6).map (·.1) = some (.ok (some [])) := by
  decide +kernel

end Fitsrs

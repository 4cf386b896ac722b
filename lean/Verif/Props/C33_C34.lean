import Verif.Lemmas.TableWrite
import Verif.Lemmas.TableSamples
import Verif.Props.C29_C32
/-
C33 scanning a binary table, C34 selecting columns.
-/

namespace Fitsrs
open Spec TableData

/-- The iterator of HDUs, in state `f`, returns the binary table `x`, which is not a compressed image, and `get_data`
gives `t`. -/
structure Opened (p : Profile) (f f' : Fits) (x : Hdu BinTable) (t : TableData) : Prop where
  next : f.next p = (some (.ok (.binTable x)), f')
  table : f'.getTable p x = .ok t
  plain : x.header.xtension.zImage = none

/-- A legal table, in a file of less than `2^60` bytes: it has columns, whose widths add up to the width of a row. -/
structure Legal (x : BinTable) (data : List UInt8) (start : Nat) : Prop where
  columns : x.tforms ≠ []
  width : x.naxis1 = total (x.tforms.map colBytes)
  small : x.naxis1 < 2 ^ 60
  size : start + x.naxis1 * x.naxis2 < 2 ^ 60
  file : data.length < 2 ^ 60

/-- The main table is wholly in the file. -/
def Complete (x : BinTable) (data : List UInt8) (start : Nat) : Prop := start + x.naxis1 * x.naxis2 ≤ data.length

/-- The cells that the library can read. -/
def CellsIn (x : BinTable) (data : List UInt8) (start : Nat) (cols : List Nat) : Prop :=
  ∀ r < x.naxis2, ∀ c ∈ cols, CellIn true x (data.drop start) r c

/-- The state of a table just opened. -/
theorem Opened.main {p : Profile} {f f' : Fits} {x : Hdu BinTable} {t : TableData} (ho : Opened p f f' x t)
    (hl : Legal x.header.xtension f.rd.data x.dataOffset) :
    ∃ os, (∀ c < x.header.xtension.tforms.length, os[c]? = some (colStart x.header.xtension.tforms c)) ∧
      t = Tab.main ⟨p, x.header.xtension, f.rd.data, x.dataOffset, List.range x.header.xtension.tforms.length, true, os⟩
        0 0 0 0 := by
  obtain ⟨h1, h2, h3, -⟩ := next_ok_state ho.next
  replace h2 : f'.rd.pos = x.dataOffset := h2
  replace h3 : f'.posStart = x.dataOffset := h3
  obtain ⟨os, g1, g2⟩ := new_ok (p := p) (rd := f'.rd) hl.width hl.small (by rw [h2]; exact hl.size)
  refine ⟨os, g1, ?_⟩
  have ht := ho.table
  unfold Fits.getTable at ht
  rw [h3, ← h2, g2, ho.plain] at ht
  simp only [Res.bind_ok, Option.isSome_none, Bool.false_eq_true, if_false, Res.ok.injEq] at ht
  rw [← ht, ← h1]
  unfold Tab.main
  rw [h2]
  congr 1
  cases hr : f'.rd with
  | mk a b => rw [hr] at h2; subst h2; rfl

theorem Legal.readable {x : BinTable} {data : List UInt8} {start : Nat} {cols : List Nat} (hl : Legal x data start)
    (hc : CellsIn x data start cols) (h0 : cols ≠ []) (h1 : cols.Pairwise (· < ·))
    (h2 : ∀ c ∈ cols, c < x.tforms.length) : Readable true x data start cols :=
  ⟨hl.width, hl.small, hl.file, hl.size, h0, h1, h2, hc⟩

theorem Legal.range_ne {x : BinTable} {data : List UInt8} {start : Nat} (hl : Legal x data start) :
    List.range x.tforms.length ≠ [] := by
  have := hl.columns
  rw [Ne, List.range_eq_nil, List.length_eq_zero_iff]
  exact this

/-- A table just opened has all its values to give. -/
theorem Opened.left {p : Profile} {f f' : Fits} {x : Hdu BinTable} {t : TableData} (ho : Opened p f f' x t)
    (hl : Legal x.header.xtension f.rd.data x.dataOffset)
    (hc : CellsIn x.header.xtension f.rd.data x.dataOffset (List.range x.header.xtension.tforms.length)) :
    ∃ T : Tab, T.Ok ∧ T.p = p ∧ T.x = x.header.xtension ∧ T.data = f.rd.data ∧ T.start = x.dataOffset ∧
      T.cols = List.range x.header.xtension.tforms.length ∧ T.heap = true ∧ T.State 0 (T.rowAt 0) t ∧
      t = T.main 0 0 0 0 := by
  obtain ⟨os, g1, g2⟩ := ho.main hl
  have hpos : 0 < x.header.xtension.tforms.length := List.length_pos_iff.2 hl.columns
  have hT : Tab.Ok ⟨p, x.header.xtension, f.rd.data, x.dataOffset, List.range x.header.xtension.tforms.length,
      true, os⟩ := ⟨hl.readable hc hl.range_ne (range_lt _) (fun c hm => List.mem_range.1 hm), g1⟩
  refine ⟨_, hT, rfl, rfl, rfl, rfl, rfl, rfl, ?_, g2⟩
  by_cases hn : 0 < x.header.xtension.naxis2
  · have := Tab.Left.start hT hn (by simpa using hpos)
    rw [g2]
    have e : Tab.cellStart ⟨p, x.header.xtension, f.rd.data, x.dataOffset,
        List.range x.header.xtension.tforms.length, true, os⟩ 0 ((List.range x.header.xtension.tforms.length)[0]'(by
          simpa using hpos)) = 0 := by
      unfold Tab.cellStart
      rw [List.getElem_range, Nat.zero_mul]
      rfl
    dsimp only at this
    rw [e] at this
    exact this
  · have hz : x.header.xtension.naxis2 = 0 := by omega
    refine .inl ⟨hz.symm, ?_, ⟨0, 0, by simpa using hpos, ?_⟩⟩
    · unfold Tab.rowAt; exact if_neg hn
    · rw [g2]
      dsimp only
      rw [hz, Nat.mul_zero]

theorem Tab.values_eq (T : Tab) : T.rowAt 0 ++ T.rest 1 = tableValues T.heap T.x T.unit T.cols := by
  rw [← T.rest_eq 0]
  unfold Tab.rest tableValues
  rw [List.drop_zero]

/-! ## C33 -/

/-- **C33**, the full statement, which the code does not meet: scanning a legal complete table without arrays gives
the values it was written from, row by row, column by column, each with its column and its index, and then `None`. -/
def C33_statement : Prop :=
  ∀ (p : Profile) (f f' : Fits) (x : Hdu BinTable) (t : TableData) (rows : List (List (List Cell))) (after : List UInt8),
    Opened p f f' x t → Legal x.header.xtension f.rd.data x.dataOffset → rows.length = x.header.xtension.naxis2 →
    (∀ row ∈ rows, RowOk x.header.xtension.tforms row) → f.rd.data.drop x.dataOffset = mainBytes rows ++ after →
    ∀ n, t.run p n = scan (tableOf rows) n

/-- **C33, partial**, in terms of the bytes of the file: scanning a complete table gives for every row, column and
index the value decoded from byte `row * NAXIS1 + (widths of the columns before) + index * size`, in this order, and
then `None`.  Variable-length arrays are included (C37).  Missing: repeat counts that are 0, bit columns whose repeat
count is a multiple of 8, and empty arrays. -/
theorem C33_scan_partial {p : Profile} {f f' : Fits} {x : Hdu BinTable} {t : TableData} (ho : Opened p f f' x t)
    (hl : Legal x.header.xtension f.rd.data x.dataOffset) (hc : Complete x.header.xtension f.rd.data x.dataOffset)
    (hi : CellsIn x.header.xtension f.rd.data x.dataOffset (List.range x.header.xtension.tforms.length)) (n : Nat) :
    t.run p n = scan (tableValues true x.header.xtension (f.rd.data.drop x.dataOffset)
      (List.range x.header.xtension.tforms.length)) n := by
  obtain ⟨T, hT, h1, h2, h3, h4, h5, h6, hs, -⟩ := ho.left hl hi
  have hleft : T.Left (tableValues T.heap T.x T.unit T.cols) t := ⟨0, _, hs, T.values_eq.symm⟩
  have hmain : T.start + T.x.naxis1 * T.x.naxis2 ≤ T.data.length := by rw [h2, h3, h4]; exact hc
  have := (hleft.run hT hmain n).1
  unfold Tab.unit at this
  rw [h1, h2, h3, h4, h5, h6] at this
  exact this

/-- The cells of a table of plain values. -/
theorem cellsIn_plain {x : BinTable} {data : List UInt8} {start : Nat} {cols : List Nat}
    (h : ∀ c ∈ cols, ∃ ty rep, x.tforms[c]? = some (.plain ty rep) ∧ 0 < rep ∧ (ty = .X → rep % 8 ≠ 0)) :
    CellsIn x data start cols := by
  intro r _ c hc
  obtain ⟨ty, rep, h1, h2⟩ := h c hc
  unfold CellIn
  simp only [h1]
  exact h2

/-- Every column holds plain values that the library can read. -/
def PlainColumns (x : BinTable) : Prop :=
  ∀ f ∈ x.tforms, ∃ ty rep, f = .plain ty rep ∧ 0 < rep ∧ (ty = .X → rep % 8 ≠ 0)

theorem PlainColumns.cells {x : BinTable} (h : PlainColumns x) {c : Nat} (hc : c < x.tforms.length) :
    ∃ ty rep, x.tforms[c]? = some (.plain ty rep) ∧ 0 < rep ∧ (ty = .X → rep % 8 ≠ 0) := by
  obtain ⟨ty, rep, h1, h2⟩ := h _ (List.getElem_mem hc)
  exact ⟨ty, rep, by rw [List.getElem?_eq_getElem hc, h1], h2⟩

/-- **C33, partial.** Scanning a table without arrays gives the values it was written from, row by row, column by
column, each with its column and its index, and then `None`.  Missing: repeat counts that are 0, bit columns whose
repeat count is a multiple of 8, and logical values that are false (C39). -/
theorem C33_partial {p : Profile} {f f' : Fits} {x : Hdu BinTable} {t : TableData} (ho : Opened p f f' x t)
    (hl : Legal x.header.xtension f.rd.data x.dataOffset) (hp : PlainColumns x.header.xtension)
    {rows : List (List (List Cell))} {after : List UInt8} (hn : rows.length = x.header.xtension.naxis2)
    (hr : ∀ row ∈ rows, RowOk x.header.xtension.tforms row)
    (hf : ∀ row ∈ rows, ∀ cells ∈ row, ∀ v ∈ cells, v ≠ .logical false)
    (hd : f.rd.data.drop x.dataOffset = mainBytes rows ++ after) (n : Nat) :
    t.run p n = scan (tableOf rows) n := by
  have hc : Complete x.header.xtension f.rd.data x.dataOffset ∨ x.header.xtension.naxis1 * x.header.xtension.naxis2 = 0 := by
    have h1 : (mainBytes rows).length = x.header.xtension.naxis2 * x.header.xtension.naxis1 := by
      unfold mainBytes
      rw [flatMap_length_const (w := x.header.xtension.naxis1) (fun row hm => by rw [row_length (hr row hm), hl.width]), hn]
    have h2 := congrArg List.length hd
    rw [List.length_drop, List.length_append, h1, Nat.mul_comm] at h2
    unfold Complete
    omega
  have hcells : CellsIn x.header.xtension f.rd.data x.dataOffset (List.range x.header.xtension.tforms.length) :=
    cellsIn_plain (fun c hm => hp.cells (List.mem_range.1 hm))
  rw [← tableValues_written (heap := true) hl.width hn hd hr hf]
  rcases hc with hc | hz
  · exact C33_scan_partial ho hl hc hcells n
  · -- an empty table
    obtain ⟨T, hT, h1, h2, h3, h4, h5, h6, hs, hm⟩ := ho.left hl hcells
    have hpos : 0 < x.header.xtension.tforms.length := List.length_pos_iff.2 hl.columns
    obtain ⟨ty, rep, g1, g2, -⟩ := hp.cells hpos
    have hw := colStart_le g1
    rw [← hl.width, colBytes_plain] at hw
    have hw2 := Nat.mul_pos (count_pos (ty := ty) g2) (elemBytes_pos ty)
    have hn2 : x.header.xtension.naxis2 = 0 := by
      rcases Nat.mul_eq_zero.1 hz with h | h
      · omega
      · exact h
    have hleft : T.Left (tableValues T.heap T.x T.unit T.cols) t := ⟨0, _, hs, T.values_eq.symm⟩
    have e : tableValues T.heap T.x T.unit T.cols = [] := by
      unfold tableValues; rw [h2, hn2]; rfl
    rw [e] at hleft
    obtain ⟨m, hm⟩ := hleft.run_plain hT (fun c hmem => by
      rw [h5] at hmem
      obtain ⟨ty, rep, g, -⟩ := hp.cells (List.mem_range.1 hmem)
      exact ⟨ty, rep, by rw [h2]; exact g⟩)
    have := hm n
    rw [h1, List.take_nil] at this
    rw [this]
    unfold tableValues
    rw [hn2]
    rfl

/-- **C33, truncated files**: if the file stops before the end of a table without arrays, the scan gives the values of
a prefix of the table, and then `None` for ever. -/
theorem C33_truncated_partial {p : Profile} {f f' : Fits} {x : Hdu BinTable} {t : TableData} (ho : Opened p f f' x t)
    (hl : Legal x.header.xtension f.rd.data x.dataOffset) (hp : PlainColumns x.header.xtension) :
    ∃ m, ∀ n, t.run p n = scan ((tableValues true x.header.xtension (f.rd.data.drop x.dataOffset)
      (List.range x.header.xtension.tforms.length)).take m) n := by
  have hcells : CellsIn x.header.xtension f.rd.data x.dataOffset (List.range x.header.xtension.tforms.length) :=
    cellsIn_plain (fun c hm => hp.cells (List.mem_range.1 hm))
  obtain ⟨T, hT, h1, h2, h3, h4, h5, h6, hs, -⟩ := ho.left hl hcells
  have hleft : T.Left (tableValues T.heap T.x T.unit T.cols) t := ⟨0, _, hs, T.values_eq.symm⟩
  have := hleft.run_plain hT (fun c hmem => by
    rw [h5] at hmem
    obtain ⟨ty, rep, g, -⟩ := hp.cells (List.mem_range.1 hmem)
    exact ⟨ty, rep, by rw [h2]; exact g⟩)
  unfold Tab.unit at this
  rw [h1, h2, h3, h4, h5, h6] at this
  exact this

/-- A sample file gives its table. -/
theorem opened_sample {p : Profile} {data : List UInt8} {x : BinTable} (h : returnsTable p data x = true)
    (hz : x.zImage = none) (hw : x.naxis1 = total (x.tforms.map colBytes)) (hs : x.naxis1 < 2 ^ 60)
    (hm : 5760 + x.naxis1 * x.naxis2 < 2 ^ 60) :
    ∃ f' h t, Opened p (afterPrimary data) f' h t ∧ h.header.xtension = x ∧ h.dataOffset = 5760 := by
  unfold returnsTable at h
  cases hn : (afterPrimary data).next p with
  | mk r f' =>
    rw [hn] at h
    dsimp only at h
    split at h
    · rename_i hd
      obtain ⟨h1, h2⟩ := of_decide_eq_true h
      obtain ⟨g1, g2, g3, -⟩ := next_ok_state hn
      replace g2 : f'.rd.pos = 5760 := h2 ▸ g2
      replace g3 : f'.posStart = 5760 := h2 ▸ g3
      obtain ⟨os, -, g⟩ := new_ok (p := p) (rd := f'.rd) hw hs (by rw [g2]; exact hm)
      have ht : ∃ t, f'.getTable p hd = .ok t := by
        unfold Fits.getTable
        rw [h1, g3, ← g2, g, hz]
        exact ⟨_, rfl⟩
      obtain ⟨t, ht⟩ := ht
      exact ⟨f', hd, t, ⟨hn, ht, by rw [h1]; exact hz⟩, h1, h2⟩
    · cases h

example (p : Profile) : ∃ f' h t, Opened p (afterPrimary mixedFile) f' h t ∧
    ∀ n, t.run p n = scan (tableOf
      [[[.short 1, .short (-2)], [.char 65, .char 66, .char 67]],
       [[.short 256, .short 3], [.char 68, .char 69, .char 70]]]) n := by
  obtain ⟨f', h, t, ho, h1, h2⟩ := opened_sample (samples_tables p).1 rfl (by decide) (by decide) (by decide)
  refine ⟨f', h, t, ho, fun n => C33_partial (after := []) ho ?_ ?_ ?_ ?_ ?_ ?_ n⟩
  · rw [h1, h2]
    refine ⟨by decide, by decide, by decide, by decide, ?_⟩
    show mixedFile.length < 2 ^ 60
    rw [show mixedFile.length = 5774 by decide +kernel]
    decide
  · rw [h1]
    intro f hf
    simp only [mixedTable, List.mem_cons, List.not_mem_nil, or_false] at hf
    rcases hf with rfl | rfl
    · exact ⟨_, _, rfl, by decide, by decide⟩
    · exact ⟨_, _, rfl, by decide, by decide⟩
  · rw [h1]; rfl
  · rw [h1]
    intro row hrow
    simp only [List.mem_cons, List.not_mem_nil, or_false] at hrow
    rcases hrow with rfl | rfl
    all_goals
      refine ⟨rfl, fun c cells hc => ?_⟩
      rcases c with _ | _ | c
      · simp only [List.getElem?_cons_zero, Option.some.injEq] at hc
        subst hc
        exact ⟨_, _, rfl, rfl, by simp [CellOk]⟩
      · simp only [List.getElem?_cons_succ, List.getElem?_cons_zero, Option.some.injEq] at hc
        subst hc
        exact ⟨_, _, rfl, rfl, by simp [CellOk]⟩
      · simp at hc
  · simp
  · rw [h2]
    show mixedFile.drop 5760 = _
    decide +kernel


/-- The state of a sample table just opened. -/
theorem Opened.state {p : Profile} {data : List UInt8} {f' : Fits} {h : Hdu BinTable} {t : TableData}
    (ho : Opened p (afterPrimary data) f' h t) (h2 : h.dataOffset = 5760) :
    TableData.new p ⟨data, 5760⟩ h.header.xtension 5760 = .ok t := by
  obtain ⟨g1, g2, g3, -⟩ := next_ok_state ho.next
  replace g2 : f'.rd.pos = 5760 := h2 ▸ g2
  replace g3 : f'.posStart = 5760 := h2 ▸ g3
  replace g1 : f'.rd.data = data := g1
  have ht := ho.table
  unfold Fits.getTable at ht
  rw [g3, ho.plain] at ht
  rw [show f'.rd = ⟨data, 5760⟩ by rw [← g1, ← g2]] at ht
  cases hn : TableData.new p ⟨data, 5760⟩ h.header.xtension 5760 with
  | panic => rw [hn] at ht; cases ht
  | err e => rw [hn] at ht; cases ht
  | ok u =>
    rw [hn] at ht
    simp only [Res.bind_ok, Option.isSome_none, Bool.false_eq_true, if_false] at ht
    exact ht

/-- The sample table `x`, just opened. -/
def sampleState (data : List UInt8) (x : BinTable) (offsets : List Nat) : TableData :=
  { rd := ⟨data, 5760⟩, inHeap := none, cols := List.range x.tforms.length, offsets, ctx := x, col := 0, item := 0
    byteOffset := 0, mainSize := x.naxis1 * x.naxis2, startPos := 5760, seekFirst := false, row := 0, heap := true }

/-- A sample file gives its table, in a known state. -/
theorem opened_state {p : Profile} {data : List UInt8} {x : BinTable} {os : List Nat}
    (h : returnsTable p data x = true)
    (hz : x.zImage = none) (hw : x.naxis1 = total (x.tforms.map colBytes)) (hs : x.naxis1 < 2 ^ 60)
    (hm : 5760 + x.naxis1 * x.naxis2 < 2 ^ 60)
    (ht : ∀ rd, TableData.new p rd x 5760 = .ok { sampleState data x os with rd }) :
    ∃ f' h, Opened p (afterPrimary data) f' h (sampleState data x os) ∧ h.header.xtension = x ∧ h.dataOffset = 5760 := by
  obtain ⟨f', h, t, ho, h1, h2⟩ := opened_sample h hz hw hs hm
  have e := ho.state h2
  rw [h1, ht, Res.ok.injEq] at e
  have e' : t = sampleState data x os := e.symm
  exact ⟨f', h, e' ▸ ho, h1, h2⟩

theorem opened_mixed (p : Profile) : ∃ f' h, Opened p (afterPrimary mixedFile) f' h
    (sampleState mixedFile mixedTable [0, 4]) ∧ h.header.xtension = mixedTable ∧ h.dataOffset = 5760 :=
  opened_state (samples_tables p).1 rfl (by decide) (by decide) (by decide) (by intro rd; cases p <;> rfl)

theorem opened_bits (p : Profile) : ∃ f' h, Opened p (afterPrimary bitsFile) f' h
    (sampleState bitsFile bitsTable [0]) ∧ h.header.xtension = bitsTable ∧ h.dataOffset = 5760 :=
  opened_state (samples_tables p).2.1 rfl (by decide) (by decide) (by decide) (by intro rd; cases p <;> rfl)

theorem opened_bitByte (p : Profile) : ∃ f' h, Opened p (afterPrimary bitByteFile) f' h
    (sampleState bitByteFile bitByteTable [0, 1]) ∧ h.header.xtension = bitByteTable ∧ h.dataOffset = 5760 :=
  opened_state (samples_tables p).2.2.1 rfl (by decide) (by decide) (by decide) (by intro rd; cases p <;> rfl)

theorem opened_array (p : Profile) : ∃ f' h, Opened p (afterPrimary arrayFile) f' h
    (sampleState arrayFile arrayTable [0, 8]) ∧ h.header.xtension = arrayTable ∧ h.dataOffset = 5760 :=
  opened_state (samples_tables p).2.2.2.1 rfl (by decide) (by decide) (by decide) (by intro rd; cases p <;> rfl)

theorem opened_emptyArray (p : Profile) : ∃ f' h, Opened p (afterPrimary emptyArrayFile) f' h
    (sampleState emptyArrayFile emptyArrayTable [0, 8]) ∧ h.header.xtension = emptyArrayTable ∧ h.dataOffset = 5760 :=
  opened_state (samples_tables p).2.2.2.2.1 rfl (by decide) (by decide) (by decide) (by intro rd; cases p <;> rfl)

theorem opened_false (p : Profile) : ∃ f' h, Opened p (afterPrimary falseFile) f' h
    (sampleState falseFile falseTable [0]) ∧ h.header.xtension = falseTable ∧ h.dataOffset = 5760 :=
  opened_state (samples_tables p).2.2.2.2.2.1 rfl (by decide) (by decide) (by decide) (by intro rd; cases p <;> rfl)

theorem opened_noColumns (p : Profile) : ∃ f' h, Opened p (afterPrimary noColumnsFile) f' h
    (sampleState noColumnsFile noColumnsTable []) ∧ h.header.xtension = noColumnsTable ∧ h.dataOffset = 5760 :=
  opened_state (samples_tables p).2.2.2.2.2.2 rfl (by decide) (by decide) (by decide) (by intro rd; cases p <;> rfl)

/-- The sample tables are legal. -/
theorem legal_sample {x : BinTable} {data : List UInt8} (h1 : x.tforms ≠ [])
    (h2 : x.naxis1 = total (x.tforms.map colBytes)) (h3 : x.naxis1 < 2 ^ 60) (h4 : 5760 + x.naxis1 * x.naxis2 < 2 ^ 60)
    (h5 : (decide (data.length < 2 ^ 60)) = true) : Legal x data 5760 :=
  ⟨h1, h2, h3, h4, of_decide_eq_true h5⟩

theorem legal_mixed : Legal mixedTable mixedFile 5760 :=
  legal_sample (by decide) (by decide) (by decide) (by decide) (by decide +kernel)

theorem legal_bits : Legal bitsTable bitsFile 5760 :=
  legal_sample (by decide) (by decide) (by decide) (by decide) (by decide +kernel)

theorem legal_bitByte : Legal bitByteTable bitByteFile 5760 :=
  legal_sample (by decide) (by decide) (by decide) (by decide) (by decide +kernel)

theorem legal_array : Legal arrayTable arrayFile 5760 :=
  legal_sample (by decide) (by decide) (by decide) (by decide) (by decide +kernel)

theorem legal_emptyArray : Legal emptyArrayTable emptyArrayFile 5760 :=
  legal_sample (by decide) (by decide) (by decide) (by decide) (by decide +kernel)

theorem legal_false : Legal falseTable falseFile 5760 :=
  legal_sample (by decide) (by decide) (by decide) (by decide) (by decide +kernel)

instance (x : BinTable) (data : List UInt8) (start : Nat) : Decidable (Complete x data start) :=
  inferInstanceAs (Decidable (_ ≤ _))

theorem rowOk_one {ty : ElemTy} {rep : Nat} {cells : List Cell} (h1 : cells.length = count ty rep)
    (h2 : ∀ v ∈ cells, CellOk ty v) : RowOk [.plain ty rep] [cells] := by
  refine ⟨rfl, fun c cs hc => ?_⟩
  cases c with
  | zero =>
    simp only [List.getElem?_cons_zero, Option.some.injEq] at hc
    subst hc
    exact ⟨ty, rep, rfl, h1, h2⟩
  | succ c => simp at hc

set_option maxRecDepth 20000 in
/-- **C33 is false of the code**: bits are read with one byte too many, so that the second row of a table of eight bits
is given as a second byte of the first row. -/
theorem C33_fails : ¬ C33_statement := by
  intro h
  obtain ⟨f', x, ho, h1, h2⟩ := opened_bits .checked
  have := h .checked _ f' x _ [[[.bits 0xA0]], [[.bits 0x0B]]] [] ho (by rw [h1, h2]; exact legal_bits)
    (by rw [h1]; rfl)
    (by
      rw [h1]
      intro row hrow
      simp only [List.mem_cons, List.not_mem_nil, or_false] at hrow
      rcases hrow with rfl | rfl <;> exact rowOk_one rfl (by simp [CellOk]))
    (by rw [h2]; decide +kernel) 2
  revert this
  decide +kernel

/-! ## C34 -/

theorem resolve_iff {x : BinTable} {id : ColumnId} {c : Nat} : resolve x id = some c ↔ Selects x id c := by
  cases id with
  | index i =>
    unfold resolve Selects
    dsimp only
    by_cases h : i ≥ x.tforms.length
    · rw [if_pos h]
      constructor
      · intro h'; cases h'
      · rintro ⟨-, h'⟩; omega
    · rw [if_neg h, Option.some.injEq]
      exact ⟨fun h' => ⟨h'.symm, by omega⟩, fun h' => h'.1.symm⟩
  | name s =>
    unfold resolve Selects findFieldByTtype
    dsimp only
    constructor
    · intro h
      split at h
      · rename_i hl
        simp only [Option.some.injEq] at h
        subst h
        refine ⟨?_, ?_⟩
        · have := List.findIdx_getElem (w := hl)
          rw [List.getElem?_eq_getElem hl]
          simpa using this
        · intro d hd he
          have := List.not_of_lt_findIdx hd
          rw [List.getElem?_eq_getElem (by omega), Option.some.injEq] at he
          simp [he] at this
      · cases h
    · rintro ⟨h1, h2⟩
      have hc : c < x.ttypes.length := by
        rcases Nat.lt_or_ge c x.ttypes.length with h | h
        · exact h
        · rw [List.getElem?_eq_none h] at h1; cases h1
      have e : x.ttypes.findIdx (fun b => decide (b = some s)) = c := by
        rw [List.findIdx_eq hc]
        rw [List.getElem?_eq_getElem hc, Option.some.injEq] at h1
        refine ⟨by simp [h1], fun d hd => ?_⟩
        have := h2 d hd
        rw [List.getElem?_eq_getElem (by omega), Ne, Option.some.injEq] at this
        simp [this]
      rw [e, if_pos hc]

/-- The selectors designate different columns. -/
def Distinct (x : BinTable) (cs : List ColumnId) : Prop :=
  cs.Pairwise fun a b => ∀ c, ¬ (Selects x a c ∧ Selects x b c)

theorem sort_selected {x : BinTable} {cs : List ColumnId} {sel : List Nat} (hs : Selected x cs sel)
    (hd : Distinct x cs) : sort (cs.filterMap (resolve x)) = sel := by
  have hnd : (cs.filterMap (resolve x)).Nodup := by
    refine List.Pairwise.filterMap (resolve x) ?_ hd
    intro a a' h b hb b' hb' he
    subst he
    exact h b ⟨resolve_iff.1 hb, resolve_iff.1 hb'⟩
  have hm : ∀ c, c ∈ sort (cs.filterMap (resolve x)) ↔ c ∈ sel := by
    intro c
    rw [mem_sort, List.mem_filterMap, hs.2]
    exact ⟨fun ⟨id, h1, h2⟩ => ⟨id, h1, resolve_iff.1 h2⟩, fun ⟨id, h1, h2⟩ => ⟨id, h1, resolve_iff.2 h2⟩⟩
  have h1 := sort_lt hnd
  apply List.Perm.eq_of_pairwise (le := (· < ·)) _ h1 hs.1
  · have nd1 := h1.imp (fun {a b} (hab : a < b) => Nat.ne_of_lt hab)
    have nd2 := hs.1.imp (fun {a b} (hab : a < b) => Nat.ne_of_lt hab)
    exact (List.perm_ext_iff_of_nodup nd1 nd2).2 hm
  · intro a b _ _ hab hba
    omega

/-- A selection of columns: not empty, of columns that exist and that the library can read. -/
structure Selection (x : BinTable) (data : List UInt8) (start : Nat) (cs : List ColumnId) (sel : List Nat) : Prop where
  selected : Selected x cs sel
  distinct : Distinct x cs
  nonempty : sel ≠ []
  valid : ∀ c ∈ sel, c < x.tforms.length
  cells : CellsIn x data start sel

/-- A table just opened, some columns of which are selected. -/
theorem Opened.select {p : Profile} {f f' : Fits} {x : Hdu BinTable} {t : TableData} (ho : Opened p f f' x t)
    (hl : Legal x.header.xtension f.rd.data x.dataOffset) {cs : List ColumnId} {sel : List Nat}
    (hs : Selection x.header.xtension f.rd.data x.dataOffset cs sel) :
    ∃ T : Tab, T.Ok ∧ T.p = p ∧ T.x = x.header.xtension ∧ T.data = f.rd.data ∧ T.start = x.dataOffset ∧
      T.cols = sel ∧ T.heap = true ∧ t.selectFields cs = { T.main 0 0 0 0 with seekFirst := true } := by
  obtain ⟨os, g1, g2⟩ := ho.main hl
  refine ⟨⟨p, x.header.xtension, f.rd.data, x.dataOffset, sel, true, os⟩,
    ⟨hl.readable hs.cells hs.nonempty hs.selected.1 hs.valid, g1⟩, rfl, rfl, rfl, rfl, rfl, rfl, ?_⟩
  rw [g2]
  unfold TableData.selectFields
  rw [← sort_selected hs.selected hs.distinct]
  rfl

/-- The state before the first call of `next`. -/
theorem select_next {T : Tab} (hT : T.Ok) (hn : 0 < T.x.naxis2) : ∃ u,
    ({ T.main 0 0 0 0 with seekFirst := true } : TableData).next T.p = u.next T.p ∧ T.State 0 (T.rowAt 0) u ∧
    T.Left (tableValues T.heap T.x T.unit T.cols) u := by
  have h0 : 0 < T.cols.length := List.length_pos_iff.2 hT.readable.nonempty
  have h := Tab.Left.start hT hn h0
  exact ⟨_, next_select hT h0, h, 0, _, h, T.values_eq.symm⟩

/-- **C34**, the full statement, which the code does not meet: if the full scan of a table gives the values `vs`, then
after a selection of columns the scan gives exactly those of these values that belong to the selected columns, in the
same order. -/
def C34_statement : Prop :=
  ∀ (p : Profile) (f f' : Fits) (x : Hdu BinTable) (t : TableData) (vs : List DataValue) (cs : List ColumnId)
    (sel : List Nat), Opened p f f' x t → Legal x.header.xtension f.rd.data x.dataOffset →
    Complete x.header.xtension f.rd.data x.dataOffset → (∀ n, t.run p n = scan vs n) →
    Selected x.header.xtension cs sel → ∀ n, (t.selectFields cs).run p n = scan (vs.filter (inColumns sel)) n

/-- A scan determines its values. -/
theorem scan_inj {vs ws : List DataValue} (h : ∀ n, scan vs n = scan ws n) : vs = ws := by
  have key : ∀ (vs : List DataValue) (n i : Nat), i < n → (scan vs n)[i]? = some (.ok vs[i]?) := by
    intro vs n i hi
    unfold scan
    by_cases hv : i < vs.length
    · rw [List.getElem?_append_left (by simp; omega), List.getElem?_map, List.getElem?_take_of_lt hi,
        List.getElem?_eq_getElem hv]
      rfl
    · rw [List.getElem?_append_right (by simp; omega), List.getElem?_replicate_of_lt (by simp; omega),
        List.getElem?_eq_none (by omega)]
  apply List.ext_getElem?
  intro i
  have := congrArg (·[i]?) (h (i + 1))
  rw [key vs _ _ (by omega), key ws _ _ (by omega)] at this
  simpa using this

/-- **C34, partial.** After a selection of columns, by index or by name, the scan gives exactly the values of the full
scan that belong to the selected columns, in the same order, and then `None`; columns that are not selected may be of
any kind.  Missing: empty selections, columns selected twice, tables without rows. -/
theorem C34_partial {p : Profile} {f f' : Fits} {x : Hdu BinTable} {t : TableData} (ho : Opened p f f' x t)
    (hl : Legal x.header.xtension f.rd.data x.dataOffset) (hc : Complete x.header.xtension f.rd.data x.dataOffset)
    (hn : 0 < x.header.xtension.naxis2) {cs : List ColumnId} {sel : List Nat}
    (hs : Selection x.header.xtension f.rd.data x.dataOffset cs sel) (n : Nat) :
    (t.selectFields cs).run p n =
      scan ((tableValues true x.header.xtension (f.rd.data.drop x.dataOffset)
        (List.range x.header.xtension.tforms.length)).filter (inColumns sel)) n := by
  obtain ⟨T, hT, h1, h2, h3, h4, h5, h6, h7⟩ := ho.select hl hs
  obtain ⟨u, g1, -, g2⟩ := select_next hT (by rw [h2]; exact hn)
  have hmain : T.start + T.x.naxis1 * T.x.naxis2 ≤ T.data.length := by rw [h2, h3, h4]; exact hc
  have := (g2.run hT hmain n).1
  have e := tableValues_filter (unit := f.rd.data.drop x.dataOffset) hs.selected.1 hs.valid
  unfold Tab.unit at this
  rw [h1, h2, h3, h4, h5, h6, e] at this
  rw [h7]
  unfold inColumns
  rw [← this]
  cases n with
  | zero => rfl
  | succ n => rw [TableData.run, TableData.run, ← h1, g1]

/-- **C34, partial**: relation to the full scan of the same table. -/
theorem C34_projection_partial {p : Profile} {f f' : Fits} {x : Hdu BinTable} {t : TableData} (ho : Opened p f f' x t)
    (hl : Legal x.header.xtension f.rd.data x.dataOffset) (hc : Complete x.header.xtension f.rd.data x.dataOffset)
    (hi : CellsIn x.header.xtension f.rd.data x.dataOffset (List.range x.header.xtension.tforms.length))
    (hn : 0 < x.header.xtension.naxis2) {vs : List DataValue} (hv : ∀ n, t.run p n = scan vs n) {cs : List ColumnId}
    {sel : List Nat} (hs : Selection x.header.xtension f.rd.data x.dataOffset cs sel) (n : Nat) :
    (t.selectFields cs).run p n = scan (vs.filter (inColumns sel)) n := by
  have e : vs = _ := scan_inj (fun n => (hv n).symm.trans (C33_scan_partial ho hl hc hi n))
  rw [C34_partial ho hl hc hn hs, e]

theorem cells_mixed (start : Nat) (data : List UInt8) {cols : List Nat} (h : ∀ c ∈ cols, c = 0 ∨ c = 1) :
    CellsIn mixedTable data start cols := by
  refine cellsIn_plain (fun c hc => ?_)
  rcases h c hc with rfl | rfl
  · exact ⟨.I, 2, rfl, by decide, by decide⟩
  · exact ⟨.A, 3, rfl, by decide, by decide⟩

set_option maxRecDepth 20000 in
example (p : Profile) : ∃ f' h t, Opened p (afterPrimary mixedFile) f' h t ∧
    ∀ n, (t.selectFields [.name "NAME".toList]).run p n = scan [.cell 1 0 (.char 65), .cell 1 1 (.char 66),
      .cell 1 2 (.char 67), .cell 1 0 (.char 68), .cell 1 1 (.char 69), .cell 1 2 (.char 70)] n := by
  obtain ⟨f', h, ho, h1, h2⟩ := opened_mixed p
  refine ⟨f', h, _, ho, fun n => ?_⟩
  rw [C34_partial (sel := [1]) ho (by rw [h1, h2]; exact legal_mixed) (by rw [h1, h2]; decide +kernel)
    (by rw [h1]; decide) ?_ n]
  · rw [h1, h2]
    refine congrArg (scan · n) ?_
    decide +kernel
  · rw [h1, h2]
    refine ⟨⟨by decide, fun c => ?_⟩, by simp [Distinct], by decide, by decide, cells_mixed _ _ (by decide)⟩
    simp only [List.mem_cons, List.not_mem_nil, or_false, exists_eq_left, Selects, mixedTable]
    constructor
    · rintro rfl
      decide
    · rintro ⟨g, -⟩
      rcases c with _ | _ | c
      · cases g
      · rfl
      · simp at g

set_option maxRecDepth 20000 in
/-- **C34 is false of the code**: a column selected twice is read once more in the next row, so that the columns
after it miss a row. -/
theorem C34_fails : ¬ C34_statement := by
  intro h
  obtain ⟨f', x, ho, h1, h2⟩ := opened_mixed .checked
  have hl : Legal x.header.xtension (afterPrimary mixedFile).rd.data x.dataOffset := by
    rw [h1, h2]; exact legal_mixed
  have hc : Complete x.header.xtension (afterPrimary mixedFile).rd.data x.dataOffset := by
    rw [h1, h2]; decide +kernel
  have := h .checked _ f' x _ _ [.index 0, .index 0, .index 1] [0, 1] ho hl hc
    (C33_scan_partial ho hl hc (by rw [h1, h2]; exact cells_mixed _ _ (by decide)))
    (by
      refine ⟨by decide, fun c => ?_⟩
      rw [h1]
      simp only [List.mem_cons, List.not_mem_nil, or_false, Selects, mixedTable, List.length_cons, List.length_nil]
      constructor
      · rintro (rfl | rfl)
        · exact ⟨.index 0, .inl rfl, rfl, by decide⟩
        · exact ⟨.index 1, .inr (.inr rfl), rfl, by decide⟩
      · rintro ⟨id, rfl | rfl | rfl, h⟩
        · exact .inl h.1
        · exact .inl h.1
        · exact .inr h.1) 12
  rw [h1, h2] at this
  revert this
  decide +kernel

/-- An empty selection makes `next` panic. -/
theorem C34_empty {p : Profile} {t : TableData} (n : Nat) : (t.selectFields []).run p (n + 1) = .panic :: (t.selectFields []).run p n := by
  rw [TableData.run]
  rfl

end Fitsrs

import Verif.Props.C37_Exact
import Verif.Lemmas.TablePlain
/-
C33, C38: what the scan of a binary table gives at the first column whose repeat count is 0, and what that of a table of
plain values gives whatever the repeat counts of its bit columns.
-/

namespace Fitsrs
open Spec TableData

/-- Byte of the main table at which a column of width 0 is read: where the column starts, except if this is the end of
the row: then one row further. -/
def zeroStart (x : BinTable) (c : Nat) : Nat :=
  if colStart x.tforms c = x.naxis1 then 2 * x.naxis1 else colStart x.tforms c

/-- Number of values read for a column of width 0, of elements of `size` bytes, from byte `o`: up to the end of the main
table if this is a whole number of elements away, up to the end of the file otherwise. -/
def zeroCount (x : BinTable) (unit : List UInt8) (size o : Nat) : Nat :=
  if o ≤ x.naxis1 * x.naxis2 ∧ (x.naxis1 * x.naxis2 - o) % size = 0 then (x.naxis1 * x.naxis2 - o) / size
  else (unit.length - o) / size

/-- The values read in a column of repeat count 0. -/
theorem zero_run {T : Tab} {k c o m : Nat} {ty : ElemTy} (hk : T.cols[k]? = some c)
    (hf : T.x.tforms[c]? = some (.plain ty 0)) (hX : ty ≠ .X)
    (h1 : ∀ j < m, o + j * elemBytes ty ≠ T.x.naxis1 * T.x.naxis2 ∧
      T.start + (o + j * elemBytes ty) + elemBytes ty ≤ T.data.length)
    (h2 : o + m * elemBytes ty = T.x.naxis1 * T.x.naxis2 ∨
      (o + m * elemBytes ty ≠ T.x.naxis1 * T.x.naxis2 ∧ (T.x.naxis1 * T.x.naxis2 ≤ T.unit.length) ∧
        T.data.length < T.start + (o + m * elemBytes ty) + elemBytes ty)) (d : Nat) {j : Nat} (hd : m = j + d) (n : Nat) :
    (T.main 0 k j (o + j * elemBytes ty)).run T.p n = scan (((List.range m).drop j).map fun j =>
      .cell c j (Cell.ofBytes ty (bytesAt T.unit (o + j * elemBytes ty) (elemBytes ty)))) n := by
  have hp := elemBytes_pos ty
  induction d generalizing j n with
  | zero =>
    obtain rfl : m = j := by omega
    rw [List.drop_eq_nil_of_le (by simp), List.map_nil]
    rcases h2 with h2 | ⟨h2, h3, h4⟩
    · have hn : (T.main 0 k m (o + m * elemBytes ty)).next T.p = (.ok none, T.main 0 k m (o + m * elemBytes ty)) := by
        rw [next_nextAt (T := T) hk rfl rfl rfl]
        unfold TableData.nextAt
        rw [show (T.main 0 k m (o + m * elemBytes ty)).inHeap = none from rfl]
        dsimp only
        rw [if_pos (by exact h2)]
      induction n with
      | zero => rfl
      | succ n ih =>
        rw [run, hn]
        dsimp only
        rw [ih]
        simp [scan, List.replicate_succ]
    · -- the end of the file
      have hstuck : ∀ pos, T.data.length < pos + elemBytes ty →
          ({ T.main 0 k m (o + m * elemBytes ty) with rd := ⟨T.data, pos⟩ } : TableData).next T.p =
          (.ok none, { T.main 0 k m (o + m * elemBytes ty) with rd := ⟨T.data, max pos T.data.length⟩ }) := by
        intro pos h
        rw [next_nextAt (T := T) hk rfl rfl rfl, nextAt_form (f := .plain ty 0) rfl h2 hf]
        exact nextPlain_eof h
      have hrun : ∀ pos, T.data.length < pos + elemBytes ty → ∀ n,
          ({ T.main 0 k m (o + m * elemBytes ty) with rd := ⟨T.data, pos⟩ } : TableData).run T.p n = scan [] n := by
        intro pos h n
        induction n generalizing pos with
        | zero => rfl
        | succ n ih =>
          rw [run, hstuck pos h]
          dsimp only
          rw [ih _ (by omega)]
          simp [scan, List.replicate_succ]
      exact hrun _ h4 n
  | succ d ih =>
    have hj : j < m := by omega
    obtain ⟨g1, g2⟩ := h1 j hj
    rw [List.drop_eq_getElem_cons (by simpa using hj), List.getElem_range, List.map_cons]
    cases n with
    | zero => simp [run, scan]
    | succ n =>
      have hn : (T.main 0 k j (o + j * elemBytes ty)).next T.p =
          (.ok (some (.cell c j (Cell.ofBytes ty (bytesAt T.unit (o + j * elemBytes ty) (elemBytes ty))))),
            T.main 0 k (j + 1) (o + (j + 1) * elemBytes ty)) := by
        rw [next_nextAt (T := T) hk rfl rfl rfl, nextAt_form (f := .plain ty 0) rfl g1 hf]
        show TableData.nextPlain T.p c ty 0 _ = _
        unfold TableData.nextPlain
        rw [elemBytes_eq, show (T.main 0 k j (o + j * elemBytes ty)).rd.readExact (elemBytes ty) = _ from read_unit g2]
        dsimp only
        have hz : itemCount ty 0 = 0 := by cases ty <;> first | rfl | exact absurd rfl hX
        rw [hz, if_neg (Nat.succ_ne_zero _), Nat.succ_mul, ← Nat.add_assoc o]
        rfl
      rw [run, hn]
      dsimp only
      rw [ih (j := j + 1) (by omega)]
      simp [scan]

theorem zero_bounds {n s o e main m : Nat} (he : 0 < e) (hs : s + main ≤ n)
    (hm : m = if o ≤ main ∧ (main - o) % e = 0 then (main - o) / e else (n - s - o) / e) :
    (∀ j < m, o + j * e ≠ main ∧ s + (o + j * e) + e ≤ n) ∧
      (o + m * e = main ∨ (o + m * e ≠ main ∧ n < s + (o + m * e) + e)) := by
  by_cases h : o ≤ main ∧ (main - o) % e = 0
  · rw [if_pos h] at hm
    have h1 : (main - o) / e * e = main - o := Nat.div_mul_cancel (Nat.dvd_of_mod_eq_zero h.2)
    rw [← hm] at h1
    refine ⟨fun j hj => ?_, .inl (by omega)⟩
    have h2 : (j + 1) * e ≤ m * e := Nat.mul_le_mul_right _ hj
    rw [Nat.succ_mul] at h2
    exact ⟨by omega, by omega⟩
  · rw [if_neg h] at hm
    have hne : ∀ j, o + j * e ≠ main := by
      intro j hj
      refine h ⟨by omega, ?_⟩
      rw [show main - o = j * e by omega, Nat.mul_mod_left]
    have h1 := Nat.div_mul_le_self (n - s - o) e
    have h2 := Nat.lt_div_mul_add he (a := n - s - o)
    rw [← hm] at h1 h2
    refine ⟨fun j hj => ⟨hne j, ?_⟩, .inr ⟨hne m, by omega⟩⟩
    have h3 : (j + 1) * e ≤ m * e := Nat.mul_le_mul_right _ hj
    rw [Nat.succ_mul] at h3
    omega

/-- **C33, exactly, for repeat counts 0.**  If the cells of the first row before such a column can be read, the scan
gives the values of these cells, then reads values in this column up to the end of the table, or of the file, and then
gives `None`: the columns after it and the other rows are not given.  (A legal table has nothing in such a column.) -/
theorem C33_exact_zero {p : Profile} {f f' : Fits} {x : Hdu BinTable} {t : TableData} (ho : Opened p f f' x t)
    (hl : Legal x.header.xtension f.rd.data x.dataOffset) (hc : Complete x.header.xtension f.rd.data x.dataOffset)
    (hr : 0 < x.header.xtension.naxis2) {c : Nat} {ty : ElemTy}
    (hb : ∀ c' < c, CellIn true x.header.xtension (f.rd.data.drop x.dataOffset) 0 c')
    (hz : x.header.xtension.tforms[c]? = some (.plain ty 0)) (hX : ty ≠ .X) (n : Nat) :
    t.run p n = scan ((List.range c).flatMap (cellValues true x.header.xtension (f.rd.data.drop x.dataOffset) 0) ++
      elements (f.rd.data.drop x.dataOffset) ty c (zeroStart x.header.xtension c)
        (zeroCount x.header.xtension (f.rd.data.drop x.dataOffset) (elemBytes ty) (zeroStart x.header.xtension c))) n := by
  obtain ⟨os, g1, rfl⟩ := ho.main hl
  have hcl : c < x.header.xtension.tforms.length := by
    rcases Nat.lt_or_ge c x.header.xtension.tforms.length with h | h
    · exact h
    · rw [List.getElem?_eq_none h] at hz; cases hz
  generalize hTT : (⟨p, x.header.xtension, f.rd.data, x.dataOffset, List.range x.header.xtension.tforms.length, true,
    os⟩ : Tab) = T
  have e1 : T.p = p := by rw [← hTT]
  have e2 : T.x = x.header.xtension := by rw [← hTT]
  have e3 : T.data = f.rd.data := by rw [← hTT]
  have e4 : T.start = x.dataOffset := by rw [← hTT]
  have e5 : T.cols = List.range x.header.xtension.tforms.length := by rw [← hTT]
  have e6 : T.heap = true := by rw [← hTT]
  have e7 : T.unit = f.rd.data.drop x.dataOffset := by rw [← hTT]; rfl
  have hT : T.Pre := by
    rw [← hTT]
    exact ⟨hl.width, hl.small, hl.file, hl.size, range_lt _, fun c hm => List.mem_range.1 hm, g1⟩
  rw [← e1, ← e2, ← e7]
  rw [← e2, ← e7] at hb
  rw [← e2] at hr hz hcl
  have hmain : T.start + T.x.naxis1 * T.x.naxis2 ≤ T.data.length := by rw [e2, e3, e4]; exact hc
  clear hTT g1
  have hlen : T.cols.length = T.x.tforms.length := by rw [e5, List.length_range, e2]
  have hkc : ∀ k, k < T.x.tforms.length → T.cols[k]? = some k := by
    intro k hk
    rw [e5, List.getElem?_range (by rw [← e2]; exact hk)]
  have hget : ∀ k (h : k < T.cols.length), T.cols[k] = k := by
    intro k hk
    have := List.getElem?_eq_getElem hk
    rw [hkc k (by omega)] at this
    exact (Option.some.inj this).symm
  have htake : ∀ k, k ≤ T.x.tforms.length → T.cols.take k = List.range k := by
    intro k hk
    rw [e5, List.take_range, ← e2, Nat.min_eq_left hk]
  have hle := colStart_le hz
  rw [← hT.width] at hle
  have hrow : T.x.naxis1 * 1 ≤ T.x.naxis1 * T.x.naxis2 := Nat.mul_le_mul_left _ hr
  have hsize := hT.size
  have hat : T.At 0 0 (T.cols[0]'(by omega)) 0 (T.main 0 0 0 0) := by
    rw [Tab.At_zero (by rw [hget 0 (by omega)]; omega), hget 0 (by omega)]
    unfold Tab.cellStart
    rw [Nat.zero_mul]
    rfl
  have hin : ∀ k ≤ c, ∀ c' ∈ T.cols.take k, CellIn T.heap T.x T.unit 0 c' := by
    intro k hk c' hc'
    rw [htake k (by omega)] at hc'
    have := List.mem_range.1 hc'
    rw [e6]
    exact hb c' (by omega)
  -- the state in which the column is read
  have hreach : Gives T.p ((List.range c).flatMap (cellValues true T.x T.unit 0)) (T.main 0 0 0 0)
      (T.main 0 c 0 (zeroStart T.x c)) := by
    by_cases hlt : colStart T.x.tforms c < T.x.naxis1
    · obtain ⟨t', k1, k2⟩ := hT.gives_row hr hmain c (hin c (Nat.le_refl _)) (by omega)
        (by rw [hget c (by omega)]; exact hlt) hat
      rw [Tab.At_zero (by rw [hget c (by omega)]; exact hcl), hget c (by omega)] at k2
      subst k2
      rw [htake c (by omega), e6] at k1
      unfold zeroStart
      rw [if_neg (by omega)]
      unfold Tab.cellStart at k1
      rw [Nat.zero_mul, Nat.zero_add] at k1
      exact k1
    · have heq : colStart T.x.tforms c = T.x.naxis1 := by omega
      unfold zeroStart
      rw [if_pos heq]
      rcases Nat.eq_zero_or_pos c with rfl | hpos
      · have h0 : colStart T.x.tforms 0 = 0 := rfl
        rw [h0] at heq
        rw [← heq]
        exact .nil _ _
      · obtain ⟨k, rfl⟩ : ∃ k, c = k + 1 := ⟨c - 1, by omega⟩
        have hin' : CellIn T.heap T.x T.unit 0 k := by rw [e6]; exact hb k (by omega)
        obtain ⟨g, hg⟩ : ∃ g, T.x.tforms[k]? = some g := ⟨_, List.getElem?_eq_getElem (by omega)⟩
        have hw := Tab.cell_bytes hin' hg
        have hend : colStart T.x.tforms k + colBytes g = T.x.naxis1 := by
          rw [← heq, colStart_succ hg]
        obtain ⟨t', k1, k2⟩ := hT.gives_row hr hmain k (hin k (by omega)) (by omega)
          (by rw [hget k (by omega)]; omega) hat
        rw [hget k (by omega)] at k2
        have hvpos := cellValues_pos (by omega) hin'
        have hlead : T.Leads 0 k k (fun t => t = T.main 0 (k + 1) 0 (2 * T.x.naxis1)) := by
          intro it g' hg'
          obtain rfl : g = g' := by rw [hg] at hg'; exact Option.some.inj hg'
          refine ⟨_, ?_, rfl⟩
          unfold TableData.seekToNextCol
          have u1 : usub T.p (T.main 0 k it (T.cellStart 0 k + colBytes g)).cols.length 1 = .ok (T.cols.length - 1) :=
            usub_ok (by show 1 ≤ T.cols.length; omega)
          have u2 : usub T.p (T.main 0 k it (T.cellStart 0 k + colBytes g)).ctx.naxis2 1 = .ok (T.x.naxis2 - 1) :=
            usub_ok (by show 1 ≤ T.x.naxis2; omega)
          rw [u1, u2]
          dsimp only
          have hkb : (k == T.cols.length - 1) = false := by simp; omega
          show (T.main 0 k it (T.cellStart 0 k + colBytes g)).seekNext T.p (k == T.cols.length - 1) _ = _
          have hbo : T.cellStart 0 k + colBytes g = T.x.naxis1 := by
            unfold Tab.cellStart; rw [Nat.zero_mul]; omega
          rw [hkb, hbo]
          obtain ⟨off, v1, -, v3, -⟩ := nextOffset_main (r := 0) (k := k + 1) (i := 0) (bo := T.x.naxis1) hT
            (hkc (k + 1) hcl) hcl rfl (by omega) (by omega) (by omega)
          rw [Nat.mod_self, heq] at v3
          have hoff := v3 (by omega)
          rw [seekNext_same _ (T.main 0 k it T.x.naxis1) (c := k + 1)
            (by show (k + 1) % T.cols.length = k + 1; exact Nat.mod_eq_of_lt (by omega)) v1]
          have := advance_main (T := T) (r := 0) (k := k + 1) (i := 0) (bo := T.x.naxis1) (off := off) (by omega)
          rw [show T.x.naxis1 + off = 2 * T.x.naxis1 by omega] at this
          exact this
        obtain ⟨t'', k3, k4⟩ := hT.gives_cell hr hin' (hkc k (by omega)) hlead hmain
          ((cellValues T.heap T.x T.unit 0 k).length - 1) (by omega) k2
        rw [k4] at k3
        rw [List.range_succ, List.flatMap_append]
        rw [htake k (by omega), e6] at k1
        refine .append k1 ?_
        rw [List.drop_zero, e6] at k3
        simpa using k3
  refine hreach.scan (fun n => ?_) n
  have hul : T.unit.length = T.data.length - T.start := List.length_drop
  obtain ⟨b1, b2⟩ := zero_bounds (n := T.data.length) (s := T.start) (o := zeroStart T.x c)
    (main := T.x.naxis1 * T.x.naxis2) (elemBytes_pos ty) hmain rfl
  have := zero_run (T := T) (k := c) (c := c) (o := zeroStart T.x c) (hkc c hcl) hz hX b1
    (b2.imp_right fun h => ⟨h.1, by omega, h.2⟩) _ (j := 0) (Nat.zero_add _).symm n
  rw [Nat.zero_mul, Nat.add_zero, List.drop_zero] at this
  rw [this]
  unfold elements zeroCount
  rw [hul]

/-- Two rows of a byte, nothing, and a byte. -/
def zeroFile : List UInt8 :=
  tableFile ["NAXIS1  =                    2", "NAXIS2  =                    2", "PCOUNT  =                    0",
    "TFIELDS =                    3", "TFORM1  = '1B'", "TFORM2  = '0I'", "TFORM3  = '1B'"] [7, 8, 9, 10]

def zeroTable : BinTable :=
  { bitpix := .u8, naxis1 := 2, naxis2 := 2, tfields := 3, theap := 4, tforms := [.plain .B 1, .plain .I 0, .plain .B 1]
    ttypes := [none, none, none], pcount := 0, gcount := 1, zImage := none }

set_option maxRecDepth 20000 in
theorem sample_zero (p : Profile) : returnsTable p zeroFile zeroTable = true := by
  cases p <;> decide +kernel

set_option maxRecDepth 20000 in
/-- The second column, which holds nothing, gives a value made of the bytes of two others, which are not given. -/
example (p : Profile) : ∃ f' h t, Opened p (afterPrimary zeroFile) f' h t ∧
    ∀ n, t.run p n = scan [.cell 0 0 (.ubyte 7), .cell 1 0 (.short 2057)] n := by
  obtain ⟨f', h, ho, h1, h2⟩ : ∃ f' h, Opened p (afterPrimary zeroFile) f' h
      (sampleState zeroFile zeroTable [0, 1, 1]) ∧ h.header.xtension = zeroTable ∧ h.dataOffset = 5760 :=
    opened_state (sample_zero p) rfl (by decide) (by decide) (by decide) (by intro rd; cases p <;> rfl)
  refine ⟨f', h, _, ho, fun n => ?_⟩
  rw [C33_exact_zero ho (by rw [h1, h2]; exact ⟨by decide, rfl, by decide, by decide, by decide +kernel⟩)
    (by rw [h1, h2]; decide +kernel) (by rw [h1]; decide) (c := 1) (ty := .I)
    (by
      rw [h1]
      intro c' hc'
      obtain rfl : c' = 0 := by omega
      unfold CellIn
      exact ⟨by decide, by decide⟩) (by rw [h1]; rfl) (by decide) n, h1, h2]
  refine congrArg (scan · n) ?_
  decide +kernel

/-! ### Bit columns -/

/-- **C33, C38, exactly, for tables of plain values**, complete or not: after a bit column whose repeat count is a
multiple of 8, the values are taken from one row further for each such column met so far (`tableVisits`); the scan gives these
values up to the first that is not in the file or starts just at the end of the main table, and then `None`.  If they
are all given and there is such a column, checked builds panic instead of giving the last one. -/
theorem C33_exact_plain {p : Profile} {f f' : Fits} {x : Hdu BinTable} {t : TableData} (ho : Opened p f f' x t)
    (hl : Legal x.header.xtension f.rd.data x.dataOffset) (hp : AllPlain x.header.xtension) :
    (let vs := tableVisits x.header.xtension
     let seen := legible x.header.xtension (f.rd.data.drop x.dataOffset)
     (vs.all seen = false ∨ p = .wrapping ∨
        overBefore x.header.xtension.tforms x.header.xtension.tforms.length = 0 →
      ∀ n, t.run p n = scan ((vs.takeWhile seen).map (Visit.value (f.rd.data.drop x.dataOffset))) n) ∧
     (vs.all seen = true → p = .checked →
        0 < overBefore x.header.xtension.tforms x.header.xtension.tforms.length → 0 < x.header.xtension.naxis2 →
      t.run p vs.length = vs.dropLast.map (fun v => .ok (some (v.value (f.rd.data.drop x.dataOffset)))) ++ [.panic])) := by
  obtain ⟨os, g1, rfl⟩ := ho.main hl
  generalize hTT : (⟨p, x.header.xtension, f.rd.data, x.dataOffset, List.range x.header.xtension.tforms.length, true,
    os⟩ : Tab) = T
  have e1 : T.p = p := by rw [← hTT]
  have e2 : T.x = x.header.xtension := by rw [← hTT]
  have e5 : T.cols = List.range x.header.xtension.tforms.length := by rw [← hTT]
  have e7 : T.unit = f.rd.data.drop x.dataOffset := by rw [← hTT]; rfl
  have hT : T.Pre := by
    rw [← hTT]
    exact ⟨hl.width, hl.small, hl.file, hl.size, range_lt _, fun c hm => List.mem_range.1 hm, g1⟩
  have hpos : 0 < x.header.xtension.tforms.length := List.length_pos_iff.2 hl.columns
  rw [← e1, ← e2, ← e7]
  rw [← e2] at hp hpos e5
  clear hTT g1
  dsimp only
  obtain ⟨ty, rep, hf, hrep⟩ := hp 0 hpos
  rcases Nat.eq_zero_or_pos T.x.naxis2 with h0 | h0
  · refine ⟨fun _ n => ?_, fun _ _ _ h => by omega⟩
    have hv : tableVisits T.x = [] := by unfold tableVisits; rw [h0]; rfl
    rw [hv]
    exact run_plain_stop (by rw [e5, List.getElem?_range hpos]) hf (.inl (by rw [h0, Nat.mul_zero])) n
  · have hs := run_visits hT e5 hp (tableVisits T.x) h0 hf (i := 0) (itemsRead_pos hrep) (by
      unfold tableVisits Tab.visitsFrom
      conv => lhs; rw [range_split' h0, List.flatMap_cons]
      rw [List.drop_zero, ← List.append_assoc]
      congr 1
      unfold rowVisits
      conv => lhs; rw [range_split' hpos, List.flatMap_cons])
    have e : T.cellTaken 0 0 + 0 * elemBytes ty = 0 := by
      unfold Tab.cellTaken rowTaken
      rw [overBefore_zero, show colStart T.x.tforms 0 = 0 from rfl]
      simp
    rw [e] at hs
    exact ⟨hs.1, fun h1 h2 h3 _ => hs.2 h1 h2 h3⟩

/-- A row of 8 bits and a byte, and two bytes of fill. -/
def bitThenByteFile : List UInt8 :=
  tableFile ["NAXIS1  =                    2", "NAXIS2  =                    1", "PCOUNT  =                    0",
    "TFIELDS =                    2", "TFORM1  = '8X'", "TFORM2  = '1B'"] [7, 8, 0, 0]

def bitThenByteTable : BinTable :=
  { bitpix := .u8, naxis1 := 2, naxis2 := 1, tfields := 2, theap := 2, tforms := [.plain .X 8, .plain .B 1]
    ttypes := [none, none], pcount := 0, gcount := 1, zImage := none }

set_option maxRecDepth 20000 in
theorem sample_bitThenByte (p : Profile) : returnsTable p bitThenByteFile bitThenByteTable = true := by
  cases p <;> decide +kernel

theorem opened_bitThenByte (p : Profile) : ∃ f' h, Opened p (afterPrimary bitThenByteFile) f' h
    (sampleState bitThenByteFile bitThenByteTable [0, 1]) ∧ h.header.xtension = bitThenByteTable ∧ h.dataOffset = 5760 :=
  opened_state (sample_bitThenByte p) rfl (by decide) (by decide) (by decide) (by intro rd; cases p <;> rfl)

theorem plain_bitThenByte : AllPlain bitThenByteTable := by
  intro c hc
  have hc : c < 2 := hc
  rcases c with _ | _ | c
  · exact ⟨.X, 8, rfl, by decide⟩
  · exact ⟨.B, 1, rfl, by decide⟩
  · omega

set_option maxRecDepth 20000 in
/-- The byte 8 is given as a byte of bits, and a byte of fill as the value of the second column. -/
example : ∃ f' h t, Opened .wrapping (afterPrimary bitThenByteFile) f' h t ∧
    ∀ n, t.run .wrapping n = scan [.cell 0 0 (.bits 7), .cell 0 1 (.bits 8), .cell 1 0 (.ubyte 0)] n := by
  obtain ⟨f', h, ho, h1, h2⟩ := opened_bitThenByte .wrapping
  refine ⟨f', h, _, ho, fun n => ?_⟩
  rw [(C33_exact_plain ho (by rw [h1, h2]; exact ⟨by decide, rfl, by decide, by decide, by decide +kernel⟩)
    (by rw [h1]; exact plain_bitThenByte)).1 (.inr (.inl rfl)) n, h1, h2]
  refine congrArg (scan · n) ?_
  decide +kernel

set_option maxRecDepth 20000 in
/-- **C38 is false of the code** for a legal complete table without arrays: the scan panics in checked builds. -/
theorem C38_fails_bits : ∃ f' h t, Opened .checked (afterPrimary bitThenByteFile) f' h t ∧
    t.run .checked 3 = [.ok (some (.cell 0 0 (.bits 7))), .ok (some (.cell 0 1 (.bits 8))), .panic] := by
  obtain ⟨f', h, ho, h1, h2⟩ := opened_bitThenByte .checked
  refine ⟨f', h, _, ho, ?_⟩
  have := (C33_exact_plain ho (by rw [h1, h2]; exact ⟨by decide, rfl, by decide, by decide, by decide +kernel⟩)
    (by rw [h1]; exact plain_bitThenByte)).2 (by rw [h1, h2]; decide +kernel) rfl (by rw [h1]; decide)
    (by rw [h1]; decide)
  rw [h1, h2] at this
  refine Eq.trans ?_ (this.trans ?_)
  · rfl
  · decide +kernel

end Fitsrs

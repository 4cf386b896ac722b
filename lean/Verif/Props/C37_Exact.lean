import Verif.Props.C37_C39
import Verif.Lemmas.TablePrefix
/-
C37, C38: what the scan of a binary table gives at the first array that is empty or not wholly in the file.
-/

namespace Fitsrs
open Spec TableData

/-- The elements found from byte `o` of the data unit up to the end of the file, the `j`-th being reported with index
`idx j`. -/
def toTheEnd (unit : List UInt8) (ty : ElemTy) (c o : Nat) (idx : Nat → Nat) : List DataValue :=
  (List.range ((unit.length - o) / elemBytes ty)).map fun j =>
    .cell c (idx j) (Cell.ofBytes ty (bytesAt unit (o + j * elemBytes ty) (elemBytes ty)))

/-- The index reported for the `j`-th element, of `size` bytes, read for an empty array. -/
def strayIndex (size j : Nat) : Nat := if j = 0 then 0 else 2 ^ 64 - (2 ^ 64 - j * size) / size

/-- All the cells before row `r` and column `c` can be read. -/
def CellsBefore (x : BinTable) (unit : List UInt8) (r c : Nat) : Prop :=
  ∀ r' < x.naxis2, ∀ c' < x.tforms.length, r' < r ∨ (r' = r ∧ c' < c) → CellIn true x unit r' c'

/-- The descriptor of the array at row `r` and column `c`. -/
def Descriptor (x : BinTable) (unit : List UInt8) (r c : Nat) (ty : ElemTy) (num offset : Nat) : Prop :=
  ∃ k, IsArray x c ty k ∧ beNat (bytesAt unit (r * x.naxis1 + colStart x.tforms c) k) = num ∧
    beNat (bytesAt unit (r * x.naxis1 + colStart x.tforms c + k) k) = offset

/-- The first call on an array is a call in the heap. -/
theorem next_descriptor {T : Tab} (hT : T.Pre) {r k c d num offset : Nat} {f : TForm} {ty : ElemTy}
    {mk : Nat → Nat → DataValue} (hr : r < T.x.naxis2) (hk : T.cols[k]? = some c) (hf : T.x.tforms[c]? = some f)
    (hd : colBytes f = d + d) (hd0 : 0 < d)
    (hform : ∀ t : TableData, t.nextForm T.p c f = t.nextArray T.p c ty d mk) (hh : T.heap = true)
    (h1 : beNat (bytesAt T.unit (T.cellStart r c) d) = num) (h2 : beNat (bytesAt T.unit (T.cellStart r c + d) d) = offset)
    (h3 : T.x.theap + offset < 2 ^ 62) (h4 : num * elemBytes ty < 2 ^ 63)
    (hmain : T.start + T.x.naxis1 * T.x.naxis2 ≤ T.data.length) :
    (T.main r k 0 (T.cellStart r c)).next T.p =
      (T.stray r k (T.cellStart r c + (d + d)) ty num (T.x.theap + offset) (num * elemBytes ty) 0).next T.p := by
  have hcell := hT.cell hr hf
  rw [hd] at hcell
  have hfile := hT.file
  have htake : (bytesAt (T.data.drop T.start) (T.cellStart r c) (d + d)).take d =
      bytesAt T.unit (T.cellStart r c) d := by
    unfold bytesAt Tab.unit
    rw [List.take_take, Nat.min_eq_left (by omega)]
  have hdrop : (bytesAt (T.data.drop T.start) (T.cellStart r c) (d + d)).drop d =
      bytesAt T.unit (T.cellStart r c + d) d := by
    unfold bytesAt Tab.unit
    rw [List.drop_take, Nat.add_sub_cancel, List.drop_drop]
  rw [next_nextAt (T := T) hk rfl rfl rfl, next_nextAt (T := T) hk rfl rfl rfl, nextAt_main hf (by omega), hform,
    nextAt_heap (t := T.stray _ _ _ _ _ _ _ _)
      (h := ⟨ty, T.start + (T.cellStart r c + (d + d)), num * elemBytes ty, num, elemBytes ty⟩) rfl]
  unfold TableData.nextArray
  rw [show (T.main r k 0 (T.cellStart r c)).rd.readExact (d + d) = _ from read_unit (by omega)]
  dsimp only
  rw [htake, hdrop, h1, h2, if_pos (by exact hh), elemBytes_eq]
  have hj := jumpToHeap_ok (p := T.p) (t := T.main r k 0 (T.cellStart r c + (d + d))) (ty := ty) (offset := offset)
      (num := num) (size := elemBytes ty) (T.start + (T.x.theap + offset)) rfl
      (by show T.cellStart r c + (d + d) < _; omega) (by show T.x.theap + offset < _; omega)
      (by show T.start + (T.cellStart r c + (d + d)) + T.x.theap + offset =
            T.start + (T.x.theap + offset) + (T.cellStart r c + (d + d)); omega)
      (by omega) (by omega)
  have hst : ({ T.main r k 0 (T.cellStart r c + (d + d)) with
        rd := ⟨T.data, T.start + (T.x.theap + offset)⟩
        inHeap := some { ty, mainPos := T.start + (T.cellStart r c + (d + d)), left := num * elemBytes ty, num
                         size := elemBytes ty } } : TableData) =
        T.stray r k (T.cellStart r c + (d + d)) ty num (T.x.theap + offset) (num * elemBytes ty) 0 := by
      unfold Tab.stray
      rw [Nat.zero_mul, Nat.add_zero]
  have hj' : (T.main r k 0 (T.cellStart r c + (d + d))).jumpToHeap T.p ty offset num (elemBytes ty) =
        (.ok (), T.stray r k (T.cellStart r c + (d + d)) ty num (T.x.theap + offset) (num * elemBytes ty) 0) := by
    rw [hj, ← hst]; rfl
  show (match (T.main r k 0 (T.cellStart r c + (d + d))).jumpToHeap T.p ty offset num (elemBytes ty) with
        | (.ok _, t) => (match t.inHeap with
          | some h => t.nextInHeap T.p c h
          | none => (.ok none, t))
        | (.err _, t) => (.ok none, t)
        | (.panic, t) => (.panic, t)) = _
  rw [hj']
  rfl

theorem run_of_next {p : Profile} {t t' : TableData} (h : t.next p = t'.next p) (n : Nat) : t.run p n = t'.run p n := by
  cases n with
  | zero => rfl
  | succ n => rw [run, run, h]

/-- The scan up to the array and the state in which it is read. -/
theorem reach_array {p : Profile} {f f' : Fits} {x : Hdu BinTable} {t : TableData} (ho : Opened p f f' x t)
    (hl : Legal x.header.xtension f.rd.data x.dataOffset) (hc : Complete x.header.xtension f.rd.data x.dataOffset)
    {r c : Nat} (hr : r < x.header.xtension.naxis2)
    (hb : CellsBefore x.header.xtension (f.rd.data.drop x.dataOffset) r c) {ty : ElemTy} {num offset : Nat}
    (hd : Descriptor x.header.xtension (f.rd.data.drop x.dataOffset) r c ty num offset)
    (h3 : x.header.xtension.theap + offset < 2 ^ 62) (h4 : num * elemBytes ty < 2 ^ 62) :
    ∃ (T : Tab) (bo : Nat) (t' : TableData), T.p = p ∧ T.data = f.rd.data ∧ T.start = x.dataOffset ∧
      T.cols[c]? = some c ∧
      Gives p (valuesBefore x.header.xtension (f.rd.data.drop x.dataOffset) r c) t t' ∧
      t'.next p = (T.stray r c bo ty num (x.header.xtension.theap + offset) (num * elemBytes ty) 0).next p := by
  obtain ⟨k, ha, hn, hof⟩ := hd
  obtain ⟨os, g1, rfl⟩ := ho.main hl
  have hcl : c < x.header.xtension.tforms.length := by
    rcases Nat.lt_or_ge c x.header.xtension.tforms.length with h | h
    · exact h
    · rcases ha with ⟨g, -⟩ | ⟨g, -⟩ <;> rw [List.getElem?_eq_none h] at g <;> cases g
  generalize hTT : (⟨p, x.header.xtension, f.rd.data, x.dataOffset, List.range x.header.xtension.tforms.length, true,
    os⟩ : Tab) = T
  have e1 : T.p = p := by rw [← hTT]
  have e2 : T.x = x.header.xtension := by rw [← hTT]
  have e3 : T.data = f.rd.data := by rw [← hTT]
  have e4 : T.start = x.dataOffset := by rw [← hTT]
  have e5 : T.cols = List.range x.header.xtension.tforms.length := by rw [← hTT]
  have e6 : T.heap = true := by rw [← hTT]
  have e7 : T.unit = f.rd.data.drop x.dataOffset := by rw [← hTT]; rfl
  have hT : T.Pre := by
    rw [← hTT]
    exact ⟨hl.width, hl.small, hl.file, hl.size, range_lt _, fun c hm => List.mem_range.1 hm, g1⟩
  have hmain : T.start + T.x.naxis1 * T.x.naxis2 ≤ T.data.length := by rw [e2, e3, e4]; exact hc
  have hlen : T.cols.length = x.header.xtension.tforms.length := by rw [e5, List.length_range]
  have hkc : T.cols[c]? = some c := by rw [e5, List.getElem?_range hcl]
  have hget : T.cols[c]'(by omega) = c := by
    have := List.getElem?_eq_getElem (l := T.cols) (i := c) (by omega)
    rw [hkc] at this
    exact (Option.some.inj this).symm
  have hz : T.cols[0]'(by omega) = 0 := by
    have h0 : T.cols[0]? = some 0 := by rw [e5, List.getElem?_range (by omega)]
    have := List.getElem?_eq_getElem (l := T.cols) (i := 0) (by omega)
    rw [h0] at this
    exact (Option.some.inj this).symm
  have htake : T.cols.take c = List.range c := by
    rw [e5, List.take_range, Nat.min_eq_left (Nat.le_of_lt hcl)]
  have hlt : colStart T.x.tforms (T.cols[c]'(by omega)) < T.x.naxis1 := by
    obtain ⟨g, h5, h6⟩ : ∃ g, T.x.tforms[c]? = some g ∧ 0 < colBytes g := by
      rw [e2]
      rcases ha with ⟨g, -⟩ | ⟨g, -⟩
      · exact ⟨_, g, by simp [colBytes]⟩
      · exact ⟨_, g, by simp [colBytes]⟩
    have := colStart_le h5
    rw [← hT.width] at this
    rw [hget]
    omega
  rw [← e2] at hr hcl
  obtain ⟨t', k1, k2⟩ := hT.gives_before (r := r) (k := c) (t := T.main 0 0 0 0) hr hmain
    (fun r' h c' hc' => by
      rw [e2, e6, e7]
      rw [e5] at hc'
      exact hb r' (by rw [← e2]; omega) c' (List.mem_range.1 hc') (.inl h))
    (fun c' hc' => by
      rw [e2, e6, e7]
      rw [htake] at hc'
      have := List.mem_range.1 hc'
      exact hb r (by rw [← e2]; omega) c' (by rw [← e2]; omega) (.inr ⟨rfl, this⟩)) (by omega) hlt
    (by
      rw [Tab.At_zero (by rw [hz]; omega)]
      rw [hz]
      unfold Tab.cellStart
      rw [Nat.zero_mul]
      rfl)
  rw [Tab.At_zero (by rw [hget]; exact hcl), hget] at k2
  subst k2
  rw [htake, e2, e6, e7, e5, e1] at k1
  rcases ha with ⟨g, rfl⟩ | ⟨g, rfl⟩
  · refine ⟨T, T.cellStart r c + (4 + 4), _, e1, e3, e4, hkc, k1, ?_⟩
    rw [← e1, ← e2]
    exact next_descriptor (mk := .vla32) hT hr hkc (f := .P ty) (by rw [e2]; exact g) rfl (by decide) (fun _ => rfl) e6
      (by rw [e7, ← hn]; unfold Tab.cellStart; rw [e2]) (by rw [e7, ← hof]; unfold Tab.cellStart; rw [e2])
      (by rw [e2]; exact h3) (by omega) hmain
  · refine ⟨T, T.cellStart r c + (8 + 8), _, e1, e3, e4, hkc, k1, ?_⟩
    rw [← e1, ← e2]
    exact next_descriptor (mk := .vla64) hT hr hkc (f := .Q ty) (by rw [e2]; exact g) rfl (by decide) (fun _ => rfl) e6
      (by rw [e7, ← hn]; unfold Tab.cellStart; rw [e2]) (by rw [e7, ← hof]; unfold Tab.cellStart; rw [e2])
      (by rw [e2]; exact h3) (by omega) hmain

theorem unit_bounds {n s o e m : Nat} (he : 0 < e) (hs : s ≤ n) (hm : m = (n - s - o) / e) :
    (0 < m → s + (o + m * e) ≤ n) ∧ n < s + (o + (m + 1) * e) ∧ m * e ≤ n := by
  subst hm
  have h1 := Nat.div_mul_le_self (n - s - o) e
  have h2 := Nat.lt_div_mul_add he (a := n - s - o)
  rw [Nat.succ_mul]
  refine ⟨fun h => ?_, by omega, by omega⟩
  have : 1 * e ≤ (n - s - o) / e * e := Nat.mul_le_mul_right _ h
  omega

/-- **C37, exactly, for an array that is not wholly in the file.**  If every cell before it can be read, the scan gives
the values of these cells, then the elements of the array that are in the file, and then `None`: the cells after the
array are not given, even though they are in the file. -/
theorem C37_exact_outside {p : Profile} {f f' : Fits} {x : Hdu BinTable} {t : TableData} (ho : Opened p f f' x t)
    (hl : Legal x.header.xtension f.rd.data x.dataOffset) (hc : Complete x.header.xtension f.rd.data x.dataOffset)
    {r c : Nat} (hr : r < x.header.xtension.naxis2)
    (hb : CellsBefore x.header.xtension (f.rd.data.drop x.dataOffset) r c) {ty : ElemTy} {num offset : Nat}
    (hd : Descriptor x.header.xtension (f.rd.data.drop x.dataOffset) r c ty num offset)
    (h3 : x.header.xtension.theap + offset < 2 ^ 62) (h4 : num * elemBytes ty < 2 ^ 62) (h0 : 0 < num)
    (hout : (f.rd.data.drop x.dataOffset).length < x.header.xtension.theap + offset + num * elemBytes ty) (n : Nat) :
    t.run p n = scan (valuesBefore x.header.xtension (f.rd.data.drop x.dataOffset) r c ++
      toTheEnd (f.rd.data.drop x.dataOffset) ty c (x.header.xtension.theap + offset) id) n := by
  obtain ⟨T, bo, t', e1, e3, e4, hk, k1, k2⟩ := reach_array ho hl hc hr hb hd h3 h4
  refine k1.scan (fun n => ?_) n
  have hs : T.start ≤ T.data.length := by rw [e3, e4]; unfold Complete at hc; omega
  have hun : T.unit = f.rd.data.drop x.dataOffset := by unfold Tab.unit; rw [e3, e4]
  have hp := elemBytes_pos ty
  generalize hm : ((f.rd.data.drop x.dataOffset).length - (x.header.xtension.theap + offset)) / elemBytes ty = m
  have hm' : m = (T.data.length - T.start - (x.header.xtension.theap + offset)) / elemBytes ty := by
    rw [← hm, ← hun]; unfold Tab.unit; rw [List.length_drop]
  obtain ⟨b1, b2, b3⟩ := unit_bounds (o := x.header.xtension.theap + offset) hp hs hm'
  have hmn : m < num := by
    rw [← hun] at hout
    unfold Tab.unit at hout
    rw [List.length_drop] at hout
    rcases Nat.lt_or_ge m num with h | h
    · exact h
    · have := b1 (by omega)
      have := Nat.mul_le_mul_right (elemBytes ty) h
      omega
  rw [run_of_next k2]
  have hrun := stray_run (T := T) (r := r) (k := c) (c := c) (bo := bo) (num := num) (ty := ty) (m := m)
    (o := x.header.xtension.theap + offset) (fun j => (num - j) * elemBytes ty) id hk
    (fun j hj => by
      rw [Nat.mul_div_cancel _ hp, usub_ok (by omega)]
      congr 1
      show num - (num - j) = j
      omega)
    (fun j hj => by
      rw [show num - j = (num - (j + 1)) + 1 by omega, Nat.succ_mul, usub_ok (by omega), Nat.add_sub_cancel]
      exact ⟨rfl, Nat.ne_of_gt (Nat.mul_pos (by omega) hp)⟩)
    b1 b2 m (j := 0) (by omega) n
  rw [e1, hun] at hrun
  unfold toTheEnd
  rw [hm]
  exact hrun

/-- **C37, exactly, for an empty array in release builds.**  If every cell before it can be read, the scan gives the
values of these cells, then everything in the file from the place of the array to the end of the file as if these were
its elements, and then `None`. -/
theorem C37_exact_release {f f' : Fits} {x : Hdu BinTable} {t : TableData} (ho : Opened .wrapping f f' x t)
    (hl : Legal x.header.xtension f.rd.data x.dataOffset) (hc : Complete x.header.xtension f.rd.data x.dataOffset)
    {r c : Nat} (hr : r < x.header.xtension.naxis2)
    (hb : CellsBefore x.header.xtension (f.rd.data.drop x.dataOffset) r c) {ty : ElemTy} {offset : Nat}
    (hd : Descriptor x.header.xtension (f.rd.data.drop x.dataOffset) r c ty 0 offset)
    (h3 : x.header.xtension.theap + offset < 2 ^ 62) (n : Nat) :
    t.run .wrapping n = scan (valuesBefore x.header.xtension (f.rd.data.drop x.dataOffset) r c ++
      toTheEnd (f.rd.data.drop x.dataOffset) ty c (x.header.xtension.theap + offset) (strayIndex (elemBytes ty))) n := by
  obtain ⟨T, bo, t', e1, e3, e4, hk, k1, k2⟩ := reach_array ho hl hc hr hb hd h3 (by omega)
  refine k1.scan (fun n => ?_) n
  have hs : T.start ≤ T.data.length := by rw [e3, e4]; unfold Complete at hc; omega
  have hun : T.unit = f.rd.data.drop x.dataOffset := by unfold Tab.unit; rw [e3, e4]
  have hp := elemBytes_pos ty
  generalize hm : ((f.rd.data.drop x.dataOffset).length - (x.header.xtension.theap + offset)) / elemBytes ty = m
  have hm' : m = (T.data.length - T.start - (x.header.xtension.theap + offset)) / elemBytes ty := by
    rw [← hm, ← hun]; unfold Tab.unit; rw [List.length_drop]
  obtain ⟨b1, b2, b3⟩ := unit_bounds (o := x.header.xtension.theap + offset) hp hs hm'
  have hfile := hl.file
  rw [← e3] at hfile
  have h8 : elemBytes ty ≤ 16 := by cases ty <;> decide
  rw [run_of_next k2]
  have hrun := stray_run (T := T) (r := r) (k := c) (c := c) (bo := bo) (num := 0) (ty := ty) (m := m)
    (o := x.header.xtension.theap + offset)
    (fun j => if j = 0 then 0 else 2 ^ 64 - j * elemBytes ty) (strayIndex (elemBytes ty)) hk
    (fun j hj => by
      unfold strayIndex
      by_cases h : j = 0
      · rw [if_pos h, if_pos h, Nat.zero_div]; rfl
      · rw [if_neg h, if_neg h, e1]
        have hj' : j * elemBytes ty ≤ m * elemBytes ty := Nat.mul_le_mul_right _ hj
        have hq : 0 < (2 ^ 64 - j * elemBytes ty) / elemBytes ty := Nat.div_pos (by omega) hp
        unfold usub
        rw [if_neg (by omega)]
        dsimp only
        unfold two64
        rw [Nat.zero_add])
    (fun j hj => by
      have hj' : (j + 1) * elemBytes ty ≤ m * elemBytes ty := Nat.mul_le_mul_right _ hj
      rw [if_neg (Nat.succ_ne_zero j), e1]
      refine ⟨?_, by omega⟩
      by_cases h : j = 0
      · subst h
        rw [if_pos rfl]
        unfold usub
        rw [if_neg (by omega)]
        dsimp only
        unfold two64
        rw [Nat.zero_add, Nat.zero_add, Nat.one_mul]
      · rw [Nat.succ_mul] at hj' ⊢
        rw [if_neg h, usub_ok (by omega)]
        congr 1
        omega)
    b1 b2 m (j := 0) (by omega) n
  rw [e1, hun] at hrun
  rw [Nat.zero_mul]
  unfold toTheEnd
  rw [hm]
  exact hrun

/-- **C37, C38, exactly, for an empty array in checked builds.**  If every cell before it can be read, the scan gives the
values of these cells, and then panics, except if not even one element would fit in the file from the place of the
array on: then it gives `None`. -/
theorem C37_exact_checked {f f' : Fits} {x : Hdu BinTable} {t : TableData} (ho : Opened .checked f f' x t)
    (hl : Legal x.header.xtension f.rd.data x.dataOffset) (hc : Complete x.header.xtension f.rd.data x.dataOffset)
    {r c : Nat} (hr : r < x.header.xtension.naxis2)
    (hb : CellsBefore x.header.xtension (f.rd.data.drop x.dataOffset) r c) {ty : ElemTy} {offset : Nat}
    (hd : Descriptor x.header.xtension (f.rd.data.drop x.dataOffset) r c ty 0 offset)
    (h3 : x.header.xtension.theap + offset < 2 ^ 62) :
    (x.header.xtension.theap + offset + elemBytes ty ≤ (f.rd.data.drop x.dataOffset).length →
      t.run .checked ((valuesBefore x.header.xtension (f.rd.data.drop x.dataOffset) r c).length + 1) =
        (valuesBefore x.header.xtension (f.rd.data.drop x.dataOffset) r c).map (fun v => .ok (some v)) ++ [.panic]) ∧
    ((f.rd.data.drop x.dataOffset).length < x.header.xtension.theap + offset + elemBytes ty →
      ∀ n, t.run .checked n = scan (valuesBefore x.header.xtension (f.rd.data.drop x.dataOffset) r c) n) := by
  obtain ⟨T, bo, t', e1, e3, e4, hk, k1, k2⟩ := reach_array ho hl hc hr hb hd h3 (by omega)
  have hs : T.start ≤ T.data.length := by rw [e3, e4]; unfold Complete at hc; omega
  have hun : T.unit = f.rd.data.drop x.dataOffset := by unfold Tab.unit; rw [e3, e4]
  have hp := elemBytes_pos ty
  have hlen : (f.rd.data.drop x.dataOffset).length = T.data.length - T.start := by rw [List.length_drop, e3, e4]
  rw [hlen]
  refine ⟨fun h => ?_, fun h => ?_⟩
  · rw [run_add, k1.1, k1.2, run_of_next k2, run, run]
    congr 1
    rw [← e1, next_nextAt (T := T) hk rfl rfl rfl,
      nextAt_heap (h := ⟨ty, T.start + bo, 0 * elemBytes ty, 0, elemBytes ty⟩) rfl, stray_panic (idx := 0)
        (by rw [Nat.zero_mul, Nat.zero_div]; rfl) (by rw [e1]; unfold usub; rw [if_neg (by omega)])
        (by rw [Nat.zero_add, Nat.one_mul]; omega)]
  · intro n
    rw [← List.append_nil (valuesBefore _ _ _ _)]
    refine k1.scan (fun n => ?_) n
    rw [run_of_next k2]
    have := stray_run (T := T) (r := r) (k := c) (c := c) (bo := bo) (num := 0) (ty := ty) (m := 0)
      (o := x.header.xtension.theap + offset) (fun _ => 0) (fun _ => 0) hk
      (fun _ _ => by rw [Nat.zero_div]; rfl) (fun _ h => absurd h (Nat.not_lt_zero _))
      (fun h => absurd h (Nat.not_lt_zero _)) (by rw [Nat.zero_add, Nat.one_mul]; omega) 0 (j := 0) rfl n
    rw [e1] at this
    rw [Nat.zero_mul]
    exact this

set_option maxRecDepth 20000 in
theorem descriptor_empty : Descriptor emptyArrayTable (emptyArrayFile.drop 5760) 0 0 .B 0 0 :=
  ⟨4, .inl ⟨rfl, rfl⟩, by decide +kernel, by decide +kernel⟩

theorem before_first (x : BinTable) (unit : List UInt8) : CellsBefore x unit 0 0 := by
  intro r _ c _ h
  omega

set_option maxRecDepth 20000 in
/-- The bytes of fill are given for the empty array, and the byte of the second column is not given. -/
example : ∃ f' h t, Opened .wrapping (afterPrimary emptyArrayFile) f' h t ∧
    ∀ n, t.run .wrapping n = scan [.cell 0 0 (.ubyte 0), .cell 0 1 (.ubyte 0)] n := by
  obtain ⟨f', h, ho, h1, h2⟩ := opened_emptyArray .wrapping
  refine ⟨f', h, _, ho, fun n => ?_⟩
  rw [C37_exact_release ho (by rw [h1, h2]; exact legal_emptyArray) (by rw [h1, h2]; decide +kernel)
    (r := 0) (c := 0) (by rw [h1]; decide) (before_first _ _)
    (by rw [h1, h2]; exact descriptor_empty) (by rw [h1]; decide) n, h1, h2]
  refine congrArg (scan · n) ?_
  decide +kernel

set_option maxRecDepth 20000 in
example : ∃ f' h t, Opened .checked (afterPrimary emptyArrayFile) f' h t ∧ t.run .checked 1 = [.panic] := by
  obtain ⟨f', h, ho, h1, h2⟩ := opened_emptyArray .checked
  refine ⟨f', h, _, ho, ?_⟩
  have := (C37_exact_checked ho (by rw [h1, h2]; exact legal_emptyArray) (by rw [h1, h2]; decide +kernel)
    (r := 0) (c := 0) (by rw [h1]; decide) (before_first _ _)
    (by rw [h1, h2]; exact descriptor_empty) (by rw [h1]; decide)).1 (by rw [h1, h2]; decide +kernel)
  rwa [h1, h2] at this

/-- A file cut after the first element of the first array. -/
def shortHeapFile : List UInt8 := arrayFile.take 5780

set_option maxRecDepth 20000 in
theorem sample_shortHeap (p : Profile) : returnsTable p shortHeapFile arrayTable = true := by
  cases p <;> decide +kernel

set_option maxRecDepth 20000 in
example (p : Profile) : ∃ f' h t, Opened p (afterPrimary shortHeapFile) f' h t ∧
    ∀ n, t.run p n = scan [.cell 0 0 (.short 5)] n := by
  obtain ⟨f', h, ho, h1, h2⟩ : ∃ f' h, Opened p (afterPrimary shortHeapFile) f' h
      (sampleState shortHeapFile arrayTable [0, 8]) ∧ h.header.xtension = arrayTable ∧ h.dataOffset = 5760 :=
    opened_state (sample_shortHeap p) rfl (by decide) (by decide) (by decide) (by intro rd; cases p <;> rfl)
  refine ⟨f', h, _, ho, fun n => ?_⟩
  rw [C37_exact_outside ho (by rw [h1, h2]; exact ⟨by decide, rfl, by decide, by decide, by decide +kernel⟩)
    (by rw [h1, h2]; decide +kernel) (r := 0) (c := 0) (ty := .I) (num := 2)
    (offset := 0) (by rw [h1]; decide) (before_first _ _)
    (by rw [h1, h2]; exact ⟨4, .inl ⟨rfl, rfl⟩, by decide +kernel, by decide +kernel⟩) (by rw [h1]; decide) (by decide)
    (by decide) (by rw [h1, h2]; decide +kernel) n, h1, h2]
  refine congrArg (scan · n) ?_
  decide +kernel

/-- A file cut in the only element of the second array. -/
def cutHeapFile : List UInt8 := arrayFile.take 5783

set_option maxRecDepth 20000 in
theorem sample_cutHeap (p : Profile) : returnsTable p cutHeapFile arrayTable = true := by
  cases p <;> decide +kernel

set_option maxRecDepth 20000 in
theorem before_cutHeap : CellsBefore arrayTable (cutHeapFile.drop 5760) 1 0 := by
  intro r hr c hc h
  have hc : c < 2 := hc
  obtain rfl : r = 0 := by omega
  rcases c with _ | _ | c
  · exact fun _ => ⟨by decide +kernel, by decide +kernel⟩
  · unfold CellIn
    exact ⟨by decide, by decide⟩
  · omega

set_option maxRecDepth 20000 in
/-- The byte of the second column of the second row is in the file but is not given. -/
example (p : Profile) : ∃ f' h t, Opened p (afterPrimary cutHeapFile) f' h t ∧
    ∀ n, t.run p n = scan [.cell 0 0 (.short 5), .cell 0 1 (.short 6), .cell 1 0 (.ubyte 9)] n := by
  obtain ⟨f', h, ho, h1, h2⟩ : ∃ f' h, Opened p (afterPrimary cutHeapFile) f' h
      (sampleState cutHeapFile arrayTable [0, 8]) ∧ h.header.xtension = arrayTable ∧ h.dataOffset = 5760 :=
    opened_state (sample_cutHeap p) rfl (by decide) (by decide) (by decide) (by intro rd; cases p <;> rfl)
  refine ⟨f', h, _, ho, fun n => ?_⟩
  rw [C37_exact_outside ho (by rw [h1, h2]; exact ⟨by decide, rfl, by decide, by decide, by decide +kernel⟩)
    (by rw [h1, h2]; decide +kernel) (r := 1) (c := 0) (ty := .I) (num := 1)
    (offset := 4) (by rw [h1]; decide) (by rw [h1, h2]; exact before_cutHeap)
    (by rw [h1, h2]; exact ⟨4, .inl ⟨rfl, rfl⟩, by decide +kernel, by decide +kernel⟩) (by rw [h1]; decide) (by decide)
    (by decide) (by rw [h1, h2]; decide +kernel) n, h1, h2]
  refine congrArg (scan · n) ?_
  decide +kernel

end Fitsrs

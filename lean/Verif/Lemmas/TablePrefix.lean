import Verif.Lemmas.Table
/-
Reading the cells of a table up to a given one, and reading an array that is empty or not wholly in the file.
-/

namespace Fitsrs
open Spec TableData

/-- From `t` the scan gives the values `vs` and then stands in `t'`. -/
def TableData.Gives (p : Profile) (vs : List DataValue) (t t' : TableData) : Prop :=
  t.run p vs.length = vs.map (fun v => .ok (some v)) ∧ t.after p vs.length = t'

theorem TableData.run_add (p : Profile) (a b : Nat) (t : TableData) :
    t.run p (a + b) = t.run p a ++ (t.after p a).run p b := by
  induction a generalizing t with
  | zero => rw [Nat.zero_add]; rfl
  | succ a ih => rw [Nat.succ_add, run, run, after, ih, List.cons_append]

theorem TableData.after_add (p : Profile) (a b : Nat) (t : TableData) :
    t.after p (a + b) = (t.after p a).after p b := by
  induction a generalizing t with
  | zero => rw [Nat.zero_add]; rfl
  | succ a ih => rw [Nat.succ_add, after, after, ih]

theorem TableData.run_length (p : Profile) (n : Nat) (t : TableData) : (t.run p n).length = n := by
  induction n generalizing t with
  | zero => rfl
  | succ n ih => rw [run, List.length_cons, ih]

theorem TableData.Gives.nil (p : Profile) (t : TableData) : Gives p [] t t := ⟨rfl, rfl⟩

theorem TableData.Gives.cons {p : Profile} {v : DataValue} {vs : List DataValue} {t t' t'' : TableData}
    (h1 : t.next p = (.ok (some v), t')) (h2 : Gives p vs t' t'') : Gives p (v :: vs) t t'' := by
  unfold Gives at *
  rw [List.length_cons, run, after, h1]
  dsimp only
  rw [h2.1, h2.2]
  exact ⟨rfl, rfl⟩

theorem TableData.Gives.append {p : Profile} {vs ws : List DataValue} {t t' t'' : TableData}
    (h1 : Gives p vs t t') (h2 : Gives p ws t' t'') : Gives p (vs ++ ws) t t'' := by
  unfold Gives at *
  rw [List.length_append, run_add, after_add, h1.1, h1.2, h2.1, h2.2, List.map_append]
  exact ⟨rfl, rfl⟩

/-- What the scan gives after these values. -/
theorem TableData.Gives.scan {p : Profile} {vs ws : List DataValue} {t t' : TableData}
    (h1 : Gives p vs t t') (h2 : ∀ n, t'.run p n = Spec.scan ws n) (n : Nat) : t.run p n = Spec.scan (vs ++ ws) n := by
  induction vs generalizing t n with
  | nil => obtain ⟨-, h⟩ := h1; rw [List.nil_append, ← h2, ← h]; rfl
  | cons v vs ih =>
    obtain ⟨h3, h4⟩ := h1
    rw [List.length_cons, run, List.map_cons] at h3
    rw [List.length_cons, after] at h4
    obtain ⟨h5, h6⟩ := List.cons.inj h3
    cases n with
    | zero => simp [run, Spec.scan]
    | succ n =>
      rw [run, h5, ih ⟨h6, h4⟩]
      simp [Spec.scan]

/-- A readable cell has values. -/
theorem cellValues_pos {heap : Bool} {x : BinTable} {unit : List UInt8} {r c : Nat} (hc : c < x.tforms.length)
    (hin : CellIn heap x unit r c) : 0 < (cellValues heap x unit r c).length := by
  have hf := List.getElem?_eq_getElem hc
  generalize x.tforms[c] = f at hf
  unfold CellIn at hin
  unfold cellValues
  simp only [hf] at hin ⊢
  cases f with
  | plain ty rep => dsimp only at hin ⊢; rw [elements_length]; exact count_pos hin.1
  | P ty =>
    dsimp only at hin ⊢
    unfold arrayValues
    by_cases hh : heap = true
    · simp only [if_pos hh]; rw [elements_length]; exact (hin hh).1
    · simp only [if_neg hh]; exact Nat.one_pos
  | Q ty =>
    dsimp only at hin ⊢
    unfold arrayValues
    by_cases hh : heap = true
    · simp only [if_pos hh]; rw [elements_length]; exact (hin hh).1
    · simp only [if_neg hh]; exact Nat.one_pos

/-- The values of a cell. -/
theorem Tab.Pre.gives_cell {T : Tab} (hT : T.Pre) {A : TableData → Prop} {r k c : Nat} (hr : r < T.x.naxis2)
    (hin : CellIn T.heap T.x T.unit r c) (hk : T.cols[k]? = some c) (hA : T.Leads r k c A)
    (hmain : T.start + T.x.naxis1 * T.x.naxis2 ≤ T.data.length) (d : Nat) {i : Nat} {t : TableData}
    (hd : (cellValues T.heap T.x T.unit r c).length = i + (d + 1)) (ht : T.At r k c i t) :
    ∃ t', Gives T.p ((cellValues T.heap T.x T.unit r c).drop i) t t' ∧ A t' := by
  induction d generalizing i t with
  | zero =>
    obtain ⟨t', h1, h2⟩ := next_at_pre hT hr hin hk hA ht (by omega) hmain
    rw [if_neg (by omega)] at h2
    refine ⟨t', ?_, h2⟩
    rw [List.drop_eq_getElem_cons (by omega), List.drop_eq_nil_of_le (by omega)]
    exact .cons h1 (.nil _ _)
  | succ d ih =>
    obtain ⟨t', h1, h2⟩ := next_at_pre hT hr hin hk hA ht (by omega) hmain
    rw [if_pos (by omega)] at h2
    obtain ⟨t'', h3, h4⟩ := ih (by omega) h2
    refine ⟨t'', ?_, h4⟩
    rw [List.drop_eq_getElem_cons (by omega)]
    exact .cons h1 h3

theorem Tab.Pre.next_of_cell {T : Tab} (hT : T.Pre) {r k : Nat}
    (hin : ∀ h : k + 1 < T.cols.length, CellIn T.heap T.x T.unit r T.cols[k + 1]) : T.Next k := by
  intro h
  obtain ⟨f, hf⟩ := hT.form (List.getElem_mem h)
  have h1 := Tab.cell_bytes (hin h) hf
  have h2 := colStart_le hf
  rw [← hT.width] at h2
  omega

/-- The values of the cells of a row before the `k`-th selected column. -/
theorem Tab.Pre.gives_row {T : Tab} (hT : T.Pre) {r : Nat} (hr : r < T.x.naxis2)
    (hmain : T.start + T.x.naxis1 * T.x.naxis2 ≤ T.data.length) (k : Nat)
    (hin : ∀ c ∈ T.cols.take k, CellIn T.heap T.x T.unit r c) (hk : k < T.cols.length)
    (hlt : colStart T.x.tforms T.cols[k] < T.x.naxis1) {t : TableData} (ht : T.At r 0 (T.cols[0]'(by omega)) 0 t) :
    ∃ t', Gives T.p ((T.cols.take k).flatMap (cellValues T.heap T.x T.unit r)) t t' ∧ T.At r k T.cols[k] 0 t' := by
  induction k with
  | zero => exact ⟨t, .nil _ _, ht⟩
  | succ k ih =>
    have hk' : k < T.cols.length := by omega
    have htk : T.cols.take (k + 1) = T.cols.take k ++ [T.cols[k]] := by
      rw [List.take_add_one, List.getElem?_eq_getElem hk']; rfl
    have hin' := hin T.cols[k] (by rw [htk]; exact List.mem_append_right _ (List.mem_singleton.2 rfl))
    obtain ⟨f, hf⟩ := hT.form (List.getElem_mem hk')
    have hw := Tab.cell_bytes hin' hf
    have hle := colStart_le hf
    rw [← hT.width] at hle
    obtain ⟨t', h1, h2⟩ := ih (fun c hc => hin c (by rw [htk]; exact List.mem_append_left _ hc)) hk' (by omega) ht
    have hpos := cellValues_pos (hT.valid _ (List.getElem_mem hk')) hin'
    obtain ⟨t'', h3, h4⟩ := hT.gives_cell hr hin' (List.getElem?_eq_getElem hk')
      (hT.leads hr (List.getElem?_eq_getElem hk') (fun _ h => Tab.cell_bytes hin' h) (fun _ => hlt)) hmain
      ((cellValues T.heap T.x T.unit r T.cols[k]).length - 1) (by omega) h2
    unfold Tab.After at h4
    rw [dif_pos hk] at h4
    refine ⟨t'', ?_, h4⟩
    rw [htk, List.flatMap_append]
    refine .append h1 ?_
    rw [List.drop_zero] at h3
    simpa using h3

/-- The values of a whole row that is not the last. -/
theorem Tab.Pre.gives_whole {T : Tab} (hT : T.Pre) {r : Nat} (hr : r + 1 < T.x.naxis2)
    (hmain : T.start + T.x.naxis1 * T.x.naxis2 ≤ T.data.length)
    (hin : ∀ c ∈ T.cols, CellIn T.heap T.x T.unit r c) (h0 : 0 < T.cols.length) {t : TableData}
    (ht : T.At r 0 T.cols[0] 0 t) :
    ∃ t', Gives T.p (rowValues T.heap T.x T.unit T.cols r) t t' ∧ T.At (r + 1) 0 T.cols[0] 0 t' := by
  obtain ⟨m, hm⟩ : ∃ m, T.cols.length = m + 1 := ⟨T.cols.length - 1, by omega⟩
  have hk : m < T.cols.length := by omega
  have hin' := hin T.cols[m] (List.getElem_mem hk)
  obtain ⟨f, hf⟩ := hT.form (List.getElem_mem hk)
  have hw := Tab.cell_bytes hin' hf
  have hle := colStart_le hf
  rw [← hT.width] at hle
  obtain ⟨t', h1, h2⟩ := hT.gives_row (by omega) hmain m (fun c hc => hin c (List.mem_of_mem_take hc)) hk (by omega) ht
  have hpos := cellValues_pos (hT.valid _ (List.getElem_mem hk)) hin'
  obtain ⟨t'', h3, h4⟩ := hT.gives_cell (by omega) hin' (List.getElem?_eq_getElem hk)
    (hT.leads (by omega) (List.getElem?_eq_getElem hk) (fun _ h => Tab.cell_bytes hin' h) (fun h => by omega)) hmain
    ((cellValues T.heap T.x T.unit r T.cols[m]).length - 1) (by omega) h2
  unfold Tab.After at h4
  rw [dif_neg (by omega), if_pos hr] at h4
  obtain ⟨_, h4⟩ := h4
  refine ⟨t'', ?_, h4⟩
  have htk : T.cols = T.cols.take m ++ [T.cols[m]] := by
    conv => lhs; rw [← List.take_length (l := T.cols), hm, List.take_add_one, List.getElem?_eq_getElem hk]
    rfl
  unfold rowValues
  rw [htk, List.flatMap_append]
  refine .append h1 ?_
  rw [List.drop_zero] at h3
  simpa using h3

/-- The values of the cells before row `r` and the `k`-th selected column. -/
theorem Tab.Pre.gives_before {T : Tab} (hT : T.Pre) {r k : Nat} (hr : r < T.x.naxis2)
    (hmain : T.start + T.x.naxis1 * T.x.naxis2 ≤ T.data.length)
    (hrows : ∀ r' < r, ∀ c ∈ T.cols, CellIn T.heap T.x T.unit r' c)
    (hrow : ∀ c ∈ T.cols.take k, CellIn T.heap T.x T.unit r c) (hk : k < T.cols.length)
    (hlt : colStart T.x.tforms T.cols[k] < T.x.naxis1) {t : TableData} (ht : T.At 0 0 (T.cols[0]'(by omega)) 0 t) :
    ∃ t', Gives T.p ((List.range r).flatMap (rowValues T.heap T.x T.unit T.cols) ++
      (T.cols.take k).flatMap (cellValues T.heap T.x T.unit r)) t t' ∧ T.At r k T.cols[k] 0 t' := by
  have h0 : 0 < T.cols.length := by omega
  obtain ⟨t', h1, h2⟩ : ∃ t', Gives T.p ((List.range r).flatMap (rowValues T.heap T.x T.unit T.cols)) t t' ∧
      T.At r 0 T.cols[0] 0 t' := by
    clear hrow
    induction r with
    | zero => exact ⟨t, .nil _ _, ht⟩
    | succ r ih =>
      obtain ⟨t', h1, h2⟩ := ih (by omega) (fun r' h => hrows r' (by omega)) ht
      obtain ⟨t'', h3, h4⟩ := hT.gives_whole hr hmain (hrows r (by omega)) h0 h2
      refine ⟨t'', ?_, h4⟩
      rw [List.range_succ, List.flatMap_append]
      refine .append h1 ?_
      simpa using h3
  obtain ⟨t'', h3, h4⟩ := hT.gives_row hr hmain k hrow hk hlt h2
  exact ⟨t'', .append h1 h3, h4⟩

/-! ### Arrays that cannot be read -/

/-- The reader in the heap, before the `j`-th element from `o` on, `left` bytes being left by the account of the
reader. -/
def Tab.stray (T : Tab) (r k bo : Nat) (ty : ElemTy) (num o left j : Nat) : TableData :=
  { T.main r k 0 bo with
    rd := ⟨T.data, T.start + (o + j * elemBytes ty)⟩
    inHeap := some { ty, mainPos := T.start + bo, left, num, size := elemBytes ty } }

/-- An element is read. -/
theorem stray_read {T : Tab} {r k c bo num o left left' idx j : Nat} {ty : ElemTy}
    (h1 : usub T.p num (left / elemBytes ty) = .ok idx) (h2 : usub T.p left (elemBytes ty) = .ok left') (h3 : left' ≠ 0)
    (h4 : T.start + (o + (j + 1) * elemBytes ty) ≤ T.data.length) :
    (T.stray r k bo ty num o left j).nextInHeap T.p c
        { ty, mainPos := T.start + bo, left, num, size := elemBytes ty } =
      (.ok (some (.cell c idx (Cell.ofBytes ty (bytesAt T.unit (o + j * elemBytes ty) (elemBytes ty))))),
        T.stray r k bo ty num o left' (j + 1)) := by
  rw [Nat.succ_mul] at h4
  unfold TableData.nextInHeap
  dsimp only
  rw [h1]
  dsimp only
  rw [elemBytes_eq, show (T.stray r k bo ty num o left j).rd.readExact (elemBytes ty) = _ from read_unit (by omega)]
  dsimp only
  rw [h2]
  dsimp only
  rw [if_neg h3]
  unfold Tab.stray
  rw [Nat.succ_mul, ← Nat.add_assoc o]
  rfl

/-- The subtraction fails after the read. -/
theorem stray_panic {T : Tab} {r k c bo num o left idx j : Nat} {ty : ElemTy}
    (h1 : usub T.p num (left / elemBytes ty) = .ok idx) (h2 : usub T.p left (elemBytes ty) = .panic)
    (h4 : T.start + (o + (j + 1) * elemBytes ty) ≤ T.data.length) :
    ((T.stray r k bo ty num o left j).nextInHeap T.p c
        { ty, mainPos := T.start + bo, left, num, size := elemBytes ty }).1 = .panic := by
  rw [Nat.succ_mul] at h4
  unfold TableData.nextInHeap
  dsimp only
  rw [h1]
  dsimp only
  rw [elemBytes_eq, show (T.stray r k bo ty num o left j).rd.readExact (elemBytes ty) = _ from read_unit (by omega)]
  dsimp only
  rw [h2]

/-- The file ends. -/
theorem inHeap_eof {p : Profile} {c idx : Nat} {h : HeapState} {t : TableData}
    (h1 : usub p h.num (h.left / h.size) = .ok idx) (h2 : t.rd.data.length < t.rd.pos + elemBytes h.ty) :
    t.nextInHeap p c h = (.ok none, { t with rd := { t.rd with pos := max t.rd.pos t.rd.data.length } }) := by
  unfold TableData.nextInHeap
  rw [h1]
  dsimp only
  rw [elemBytes_eq, Reader.readExact_of_gt (elemBytes_pos _) h2]

/-- The file has ended in an array. -/
def Tab.Stuck (T : Tab) (c : Nat) (t : TableData) : Prop :=
  T.cols[t.col]? = some c ∧ t.cols = T.cols ∧ t.seekFirst = false ∧
    ∃ h, t.inHeap = some h ∧ (∃ idx, usub T.p h.num (h.left / h.size) = .ok idx) ∧ t.rd.data.length ≤ t.rd.pos

theorem nextAt_heap {p : Profile} {t : TableData} {c : Nat} {h : HeapState} (h1 : t.inHeap = some h) :
    t.nextAt p c = t.nextInHeap p c h := by
  unfold TableData.nextAt
  rw [h1]

theorem Tab.Stuck.next {T : Tab} {c : Nat} {t : TableData} (h : T.Stuck c t) : t.next T.p = (.ok none, t) := by
  obtain ⟨h1, h2, h3, s, h4, ⟨idx, h5⟩, h6⟩ := h
  have hp := elemBytes_pos s.ty
  rw [next_nextAt (T := T) h1 h2 rfl h3, nextAt_heap h4, inHeap_eof h5 (by omega), Nat.max_eq_left h6]

theorem Tab.Stuck.run {T : Tab} {c : Nat} {t : TableData} (h : T.Stuck c t) (n : Nat) : t.run T.p n = scan [] n := by
  induction n with
  | zero => rfl
  | succ n ih =>
    rw [TableData.run, h.next]
    dsimp only
    rw [ih]
    simp [scan, List.replicate_succ]

/-- Elements are read up to the end of the file, whatever the account of the bytes left. -/
theorem stray_run {T : Tab} {r k c bo num o m : Nat} {ty : ElemTy} (lefts idx : Nat → Nat) (hk : T.cols[k]? = some c)
    (h1 : ∀ j ≤ m, usub T.p num (lefts j / elemBytes ty) = .ok (idx j))
    (h2 : ∀ j < m, usub T.p (lefts j) (elemBytes ty) = .ok (lefts (j + 1)) ∧ lefts (j + 1) ≠ 0)
    (h3 : 0 < m → T.start + (o + m * elemBytes ty) ≤ T.data.length)
    (h4 : T.data.length < T.start + (o + (m + 1) * elemBytes ty)) (d : Nat) {j : Nat} (hd : m = j + d) (n : Nat) :
    (T.stray r k bo ty num o (lefts j) j).run T.p n = scan (((List.range m).drop j).map fun j =>
      .cell c (idx j) (Cell.ofBytes ty (bytesAt T.unit (o + j * elemBytes ty) (elemBytes ty)))) n := by
  induction d generalizing j n with
  | zero =>
    obtain rfl : m = j := by omega
    rw [List.drop_eq_nil_of_le (by simp), List.map_nil]
    cases n with
    | zero => rfl
    | succ n =>
      rw [Nat.succ_mul] at h4
      rw [TableData.run, next_nextAt (T := T) hk rfl rfl rfl,
        nextAt_heap (h := ⟨ty, T.start + bo, lefts m, num, elemBytes ty⟩) rfl,
        inHeap_eof (h1 m (Nat.le_refl _)) (by
          show T.data.length < T.start + (o + m * elemBytes ty) + elemBytes ty; omega)]
      dsimp only
      rw [Tab.Stuck.run (T := T) (c := c) ⟨hk, rfl, rfl, _, rfl, ⟨_, h1 m (Nat.le_refl _)⟩, Nat.le_max_right _ _⟩]
      simp [scan, List.replicate_succ]
  | succ d ih =>
    have hj : j < m := by omega
    have hle : (j + 1) * elemBytes ty ≤ m * elemBytes ty := Nat.mul_le_mul_right _ hj
    have h3 := h3 (by omega)
    rw [List.drop_eq_getElem_cons (by simpa using hj), List.getElem_range, List.map_cons]
    cases n with
    | zero => simp [TableData.run, scan]
    | succ n =>
      rw [TableData.run, next_nextAt (T := T) hk rfl rfl rfl,
        nextAt_heap (h := ⟨ty, T.start + bo, lefts j, num, elemBytes ty⟩) rfl,
        stray_read (h1 j (by omega)) (h2 j hj).1 (h2 j hj).2 (by omega)]
      dsimp only
      rw [ih (j := j + 1) (by omega)]
      simp [scan]

end Fitsrs

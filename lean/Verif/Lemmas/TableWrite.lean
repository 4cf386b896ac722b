import Verif.Lemmas.Table
/-
Helper lemmas on the bytes of a table.
-/

namespace Fitsrs
open Spec TableData

theorem cellBytes_length {ty : ElemTy} {v : Cell} (h : CellOk ty v) : (cellBytes v).length = elemBytes ty := by
  cases ty <;> cases v <;> first
    | exact False.elim h
    | skip
  all_goals first
    | exact bigEndian_length _ _
    | (show (bigEndian _ _ ++ bigEndian _ _).length = _; rw [List.length_append, bigEndian_length, bigEndian_length]; rfl)
    | (rename_i b; cases b <;> rfl)

/-- A value decoded from its own bytes. -/
theorem ofBytes_cellBytes {ty : ElemTy} {v : Cell} (h : CellOk ty v) (hf : v ≠ .logical false) :
    Cell.ofBytes ty (cellBytes v) = v := by
  cases ty <;> cases v <;> first
    | exact False.elim h
    | skip
  case L.logical b =>
    cases b
    · exact absurd rfl hf
    · rfl
  all_goals simp only [CellOk] at h
  case C.cfloat a b =>
    show Cell.cfloat (beNat ((bigEndian 4 a ++ bigEndian 4 b).take 4)) (beNat ((bigEndian 4 a ++ bigEndian 4 b).drop 4)) = _
    rw [List.take_left' (bigEndian_length _ _), List.drop_left' (bigEndian_length _ _), beNat_bigEndian, beNat_bigEndian]
    congr 1 <;> omega
  case M.cdouble a b =>
    show Cell.cdouble (beNat ((bigEndian 8 a ++ bigEndian 8 b).take 8)) (beNat ((bigEndian 8 a ++ bigEndian 8 b).drop 8)) = _
    rw [List.take_left' (bigEndian_length _ _), List.drop_left' (bigEndian_length _ _), beNat_bigEndian, beNat_bigEndian]
    congr 1 <;> omega
  all_goals simp only [cellBytes, Cell.ofBytes, beNat_bigEndian, toSigned]
  all_goals congr 1
  all_goals first
    | omega
    | (split <;> omega)

/-- The bytes `bs` are found at offset `o`. -/
def Holds (unit : List UInt8) (o : Nat) (bs : List UInt8) : Prop := ∃ a b, unit = a ++ bs ++ b ∧ a.length = o

theorem Holds.bytesAt {unit : List UInt8} {o : Nat} {bs : List UInt8} (h : Holds unit o bs) :
    bytesAt unit o bs.length = bs := by
  obtain ⟨a, b, rfl, rfl⟩ := h
  unfold Spec.bytesAt
  rw [List.append_assoc, List.drop_left, List.take_left]

theorem Holds.flatMap {α : Type} {unit : List UInt8} {o : Nat} {l : List α} {f : α → List UInt8}
    (h : Holds unit o (l.flatMap f)) (i : Nat) (hi : i < l.length) :
    Holds unit (o + ((l.take i).flatMap f).length) (f l[i]) := by
  obtain ⟨a, b, e, ha⟩ := h
  refine ⟨a ++ (l.take i).flatMap f, (l.drop (i + 1)).flatMap f ++ b, ?_, by simp [ha]⟩
  have : l = l.take i ++ l[i] :: l.drop (i + 1) := by
    rw [← List.drop_eq_getElem_cons hi, List.take_append_drop]
  have e2 : l.flatMap f = (l.take i).flatMap f ++ (f l[i] ++ (l.drop (i + 1)).flatMap f) := by
    conv => lhs; rw [this]
    rw [List.flatMap_append, List.flatMap_cons]
  rw [e, e2]
  simp only [List.append_assoc]

theorem flatMap_length_const {α : Type} {l : List α} {f : α → List UInt8} {w : Nat} (h : ∀ a ∈ l, (f a).length = w) :
    (l.flatMap f).length = l.length * w := by
  induction l with
  | nil => simp
  | cons a l ih =>
    rw [List.flatMap_cons, List.length_append, h a (by simp), ih (fun b hb => h b (by simp [hb])), List.length_cons,
      Nat.succ_mul, Nat.add_comm]

theorem cells_length {ty : ElemTy} {l : List Cell} (h : ∀ v ∈ l, CellOk ty v) :
    (l.flatMap cellBytes).length = l.length * elemBytes ty :=
  flatMap_length_const (fun v hv => cellBytes_length (h v hv))

theorem row_take_length {ts : List TForm} {row : List (List Cell)} (h : RowOk ts row) (c : Nat) (hc : c ≤ row.length) :
    ((row.take c).flatMap (·.flatMap cellBytes)).length = colStart ts c := by
  induction c with
  | zero => simp [colStart, total]
  | succ c ih =>
    obtain ⟨ty, rep, h1, h2, h3⟩ := h.2 c row[c] (List.getElem?_eq_getElem hc)
    rw [List.take_add_one, List.getElem?_eq_getElem hc, List.flatMap_append, List.length_append, ih (by omega),
      colStart_succ h1, colBytes_plain]
    simp only [Option.toList_some, List.flatMap_singleton]
    rw [cells_length h3, h2]

theorem row_length {ts : List TForm} {row : List (List Cell)} (h : RowOk ts row) :
    (rowBytes row).length = total (ts.map colBytes) := by
  have := row_take_length h row.length (Nat.le_refl _)
  rw [List.take_length] at this
  unfold rowBytes
  rw [this]
  unfold colStart
  rw [h.1, List.take_of_length_le (by simp)]

theorem flatMap_range {α β : Type} (l : List α) (g : Nat → List β) (h : α → List β)
    (e : ∀ i (hi : i < l.length), g i = h l[i]) : (List.range l.length).flatMap g = l.flatMap h := by
  rw [List.flatMap_def, List.flatMap_def]
  congr 1
  apply List.ext_getElem
  · simp
  · intro i h1 h2
    simp only [List.getElem_map, List.getElem_range]
    exact e i (by simpa using h1)

theorem flatMap_zipIdx {α β : Type} (l : List α) (g : Nat → List β) (h : α × Nat → List β)
    (e : ∀ i (hi : i < l.length), g i = h (l[i], i)) : (List.range l.length).flatMap g = l.zipIdx.flatMap h := by
  rw [List.flatMap_def, List.flatMap_def]
  congr 1
  apply List.ext_getElem
  · simp
  · intro i h1 h2
    simp only [List.getElem_map, List.getElem_range, List.getElem_zipIdx, Nat.zero_add]
    exact e i (by simpa using h1)

/-- The elements written one after the other. -/
theorem elements_written {unit : List UInt8} {ty : ElemTy} {c o : Nat} {cells : List Cell}
    (h : Holds unit o (cells.flatMap cellBytes)) (hok : ∀ v ∈ cells, CellOk ty v ∧ v ≠ .logical false) :
    elements unit ty c o cells.length = cells.zipIdx.map fun (v, i) => .cell c i v := by
  unfold elements
  apply List.ext_getElem
  · simp
  · intro i h1 h2
    have hi : i < cells.length := by simpa using h1
    simp only [List.getElem_map, List.getElem_range, List.getElem_zipIdx, Nat.zero_add]
    have h3 := h.flatMap i hi
    rw [cells_length (ty := ty) (fun v hv => (hok v (List.mem_of_mem_take hv)).1), List.length_take,
      Nat.min_eq_left (by omega)] at h3
    have h4 := h3.bytesAt
    obtain ⟨g1, g2⟩ := hok _ (List.getElem_mem hi)
    rw [cellBytes_length g1] at h4
    rw [h4, ofBytes_cellBytes g1 g2]

/-- The values of a table written from its rows. -/
theorem tableValues_written {heap : Bool} {x : BinTable} {unit after : List UInt8} {rows : List (List (List Cell))}
    (hw : x.naxis1 = total (x.tforms.map colBytes)) (hn : rows.length = x.naxis2)
    (hu : unit = mainBytes rows ++ after) (hr : ∀ row ∈ rows, RowOk x.tforms row)
    (hl : ∀ row ∈ rows, ∀ cells ∈ row, ∀ v ∈ cells, v ≠ .logical false) :
    tableValues heap x unit (List.range x.tforms.length) = tableOf rows := by
  unfold tableValues tableOf
  rw [← hn]
  apply flatMap_range
  intro r hrl
  have hrow := hr _ (List.getElem_mem hrl)
  have h0 : Holds unit 0 (rows.flatMap rowBytes) := ⟨[], after, by rw [hu]; rfl, rfl⟩
  have h1 := h0.flatMap r hrl
  rw [flatMap_length_const (w := x.naxis1) (fun row hm => by
    rw [row_length (hr row (List.mem_of_mem_take hm)), hw]), List.length_take, Nat.min_eq_left (by omega),
    Nat.zero_add] at h1
  unfold rowValues
  rw [← hrow.1]
  apply flatMap_zipIdx
  intro c hc
  have h2 := Holds.flatMap (f := (·.flatMap cellBytes)) h1 c hc
  rw [row_take_length hrow c (by omega)] at h2
  obtain ⟨ty, rep, g1, g2, g3⟩ := hrow.2 c _ (List.getElem?_eq_getElem hc)
  unfold cellValues
  simp only [g1]
  rw [← g2]
  exact elements_written h2 (fun v hv => ⟨g3 v hv, hl _ (List.getElem_mem hrl) _ (List.getElem_mem hc) v hv⟩)

/-- A strictly increasing list of columns. -/
theorem sorted_filter {n : Nat} {l : List Nat} (h : l.Pairwise (· < ·)) (hn : ∀ c ∈ l, c < n) :
    (List.range n).filter (fun c => decide (c ∈ l)) = l := by
  have h1 : ((List.range n).filter (fun c => decide (c ∈ l))).Pairwise (· < ·) := (range_lt n).filter _
  apply List.Perm.eq_of_pairwise (le := (· < ·)) _ h1 h
  · have nd1 : ((List.range n).filter (fun c => decide (c ∈ l))).Nodup := List.nodup_range.filter _
    have nd2 : l.Nodup := h.imp (fun hab => Nat.ne_of_lt hab)
    rw [List.perm_ext_iff_of_nodup nd1 nd2]
    intro a
    simp only [List.mem_filter, List.mem_range, decide_eq_true_eq]
    exact ⟨fun h => h.2, fun h => ⟨hn a h, h⟩⟩
  · intro a b _ _ h1 h2; omega

theorem elements_column {unit : List UInt8} {ty : ElemTy} {c o n : Nat} {v : DataValue}
    (h : v ∈ elements unit ty c o n) : column? v = some c := by
  unfold elements at h
  obtain ⟨i, -, rfl⟩ := List.mem_map.1 h
  rfl

theorem cellValues_column {x : BinTable} {unit : List UInt8} {r c : Nat} {v : DataValue}
    (h : v ∈ cellValues true x unit r c) : column? v = some c := by
  unfold cellValues at h
  dsimp only at h
  split at h
  · exact elements_column h
  · exact elements_column h
  · exact elements_column h
  · cases h

/-- The values of some columns are those of a full scan that belong to them. -/
theorem tableValues_filter {x : BinTable} {unit : List UInt8} {cols : List Nat} (h : cols.Pairwise (· < ·))
    (hn : ∀ c ∈ cols, c < x.tforms.length) :
    tableValues true x unit cols =
      (tableValues true x unit (List.range x.tforms.length)).filter
        (fun v => (column? v).any (fun c => decide (c ∈ cols))) := by
  unfold tableValues
  rw [List.filter_flatMap]
  congr 1
  funext r
  unfold rowValues
  rw [List.filter_flatMap]
  conv => lhs; rw [← sorted_filter h hn]
  induction List.range x.tforms.length with
  | nil => rfl
  | cons c l ih =>
    rw [List.flatMap_cons, ← ih, List.filter_cons]
    by_cases hc : c ∈ cols
    · rw [if_pos (by simpa using hc), List.flatMap_cons]
      congr 1
      symm
      rw [List.filter_eq_self]
      intro v hv
      rw [cellValues_column hv]
      simpa using hc
    · rw [if_neg (by simpa using hc)]
      have : (cellValues true x unit r c).filter (fun v => (column? v).any (fun c => decide (c ∈ cols))) = [] := by
        rw [List.filter_eq_nil_iff]
        intro v hv
        rw [cellValues_column hv]
        simpa using hc
      rw [this, List.nil_append]

end Fitsrs

import Verif.Lemmas.TableWrite
import Verif.Spec.Writer
/-
Lemmas about binary tables as they are written.
-/

namespace Fitsrs
open Spec

section
variable {t : WrittenTable}

theorem Spec.WrittenField.Ok.length {heap : List UInt8} {col : WrittenColumn} {f : WrittenField}
    (h : WrittenField.Ok heap col f) : f.bytes.length = colBytes col.form := by
  cases col with
  | plain ty rep =>
    cases f with
    | values vs =>
      show (vs.flatMap cellBytes).length = colBytes (.plain ty rep)
      rw [cells_length h.2, h.1, colBytes_plain]
    | array w o vs => exact h.elim
  | array wide ty =>
    cases f with
    | values vs => exact h.elim
    | array w o vs =>
      obtain ⟨rfl, -⟩ : _ ∧ _ := h
      show (bigEndian _ _ ++ bigEndian _ _).length = _
      rw [List.length_append, bigEndian_length, bigEndian_length]
      cases w <;> rfl

theorem forms_get {c : Nat} (h : c < t.columns.length) : t.forms[c]? = some t.columns[c].form := by
  unfold WrittenTable.forms
  rw [List.getElem?_map, List.getElem?_eq_getElem h]
  rfl

theorem fields_length (hr : t.RowsOk) {row : List WrittenField} (hm : row ∈ t.rows) (c : Nat) (hc : c ≤ row.length) :
    ((row.take c).flatMap WrittenField.bytes).length = colStart t.forms c := by
  obtain ⟨h1, h2⟩ := hr row hm
  induction c with
  | zero => simp [colStart, total]
  | succ c ih =>
    have hlt : c < t.columns.length := by omega
    rw [List.take_add_one, List.getElem?_eq_getElem hc, List.flatMap_append, List.length_append, ih (by omega),
      colStart_succ (forms_get hlt)]
    simp only [Option.toList_some, List.flatMap_singleton]
    rw [(h2 c hlt hc).length]

theorem row_width (hr : t.RowsOk) {row : List WrittenField} (hm : row ∈ t.rows) :
    (row.flatMap WrittenField.bytes).length = t.width := by
  have := fields_length hr hm row.length (Nat.le_refl _)
  rw [List.take_length] at this
  rw [this]
  unfold colStart WrittenTable.width
  rw [(hr row hm).1, List.take_of_length_le (by simp [WrittenTable.forms])]

theorem main_length (hr : t.RowsOk) : t.main.length = t.rows.length * t.width := by
  unfold WrittenTable.main
  exact flatMap_length_const (fun row hm => row_width hr hm)

/-- Where a field is found. -/
theorem field_at (hr : t.RowsOk) {unit after : List UInt8} (hu : unit = t.main ++ after) {r c : Nat} (h1 : r < t.rows.length)
    (h2 : c < t.rows[r].length) : Fitsrs.Holds unit (r * t.width + colStart t.forms c) t.rows[r][c].bytes := by
  have h0 : Fitsrs.Holds unit 0 (t.rows.flatMap (·.flatMap WrittenField.bytes)) := ⟨[], after, by rw [hu]; rfl, rfl⟩
  have h3 := h0.flatMap r h1
  rw [flatMap_length_const (w := t.width) (fun row hm => row_width hr (List.mem_of_mem_take hm)), List.length_take,
    Nat.min_eq_left (by omega), Nat.zero_add] at h3
  have h4 := Holds.flatMap h3 c h2
  rw [fields_length hr (List.getElem_mem h1) c (by omega)] at h4
  exact h4

theorem Holds.parts {unit a b : List UInt8} {o : Nat} (h : Fitsrs.Holds unit o (a ++ b)) :
    Fitsrs.Holds unit o a ∧ Fitsrs.Holds unit (o + a.length) b := by
  obtain ⟨x, y, e, hx⟩ := h
  exact ⟨⟨x, b ++ y, by rw [e]; simp only [List.append_assoc], hx⟩,
    ⟨x ++ a, y, by rw [e]; simp only [List.append_assoc], by rw [List.length_append, hx]⟩⟩

/-- The descriptor of an array, and the array in the heap. -/
theorem array_at (hr : t.RowsOk) {unit after : List UInt8} (hu : unit = t.data ++ after) {r c : Nat} {w : Bool}
    {ty : ElemTy} (h1 : r < t.rows.length) (h2 : c < t.columns.length) (h3 : c < t.rows[r].length)
    (hc : t.columns[c] = .array w ty) :
    ∃ off vs, t.rows[r][c] = .array w off vs ∧ (∀ v ∈ vs, CellOk ty v) ∧
      beNat (bytesAt unit (r * t.width + colStart t.forms c) (WrittenField.half w)) = vs.length ∧
      beNat (bytesAt unit (r * t.width + colStart t.forms c + WrittenField.half w) (WrittenField.half w)) = off ∧
      (vs ≠ [] → Fitsrs.Holds unit (t.main.length + t.gap.length + off) (vs.flatMap cellBytes) ∧
        t.main.length + t.gap.length + off + vs.length * elemBytes ty ≤ t.data.length) := by
  have hok := (hr _ (List.getElem_mem h1)).2 c h2 h3
  have hat := field_at hr (unit := unit) (after := t.gap ++ t.heap ++ after) (by rw [hu]; simp [WrittenTable.data]) h1 h3
  rw [hc] at hok
  cases hf : t.rows[r][c] with
  | values vs => rw [hf] at hok; exact hok.elim
  | array w' off vs =>
    rw [hf] at hok hat
    obtain ⟨rfl, hv, hn, ho, ⟨z, hz⟩⟩ : _ ∧ _ ∧ _ ∧ _ ∧ _ := hok
    have hp := Holds.parts (a := bigEndian (WrittenField.half w') vs.length)
      (b := bigEndian (WrittenField.half w') off) hat
    rw [bigEndian_length] at hp
    have b1 := hp.1.bytesAt
    have b2 := hp.2.bytesAt
    rw [bigEndian_length] at b1 b2
    have hlen : (vs.flatMap cellBytes).length = vs.length * elemBytes ty := cells_length hv
    refine ⟨off, vs, rfl, hv, ?_, ?_, fun hne => ?_⟩
    · rw [b1, beNat_bigEndian, Nat.mod_eq_of_lt hn]
    · rw [b2, beNat_bigEndian, Nat.mod_eq_of_lt ho]
    · have hsz : vs.length * elemBytes ty + z.length = t.heap.length - off := by
        rw [← hlen, ← List.length_append, hz, List.length_drop]
      have hpos : 0 < vs.length * elemBytes ty :=
        Nat.mul_pos (List.length_pos_iff.2 hne) (by cases ty <;> decide)
      have hdl : t.data.length = t.main.length + t.gap.length + t.heap.length := by
        unfold WrittenTable.data
        rw [List.length_append, List.length_append]
      refine ⟨⟨t.main ++ t.gap ++ t.heap.take off, z ++ after, ?_, ?_⟩, by omega⟩
      · rw [hu]
        unfold WrittenTable.data
        conv => lhs; rw [← List.take_append_drop off t.heap, ← hz]
        simp only [List.append_assoc]
      · simp only [List.length_append, List.length_take]
        omega

/-- The elements that are given. -/
theorem elements_given {unit : List UInt8} {ty : ElemTy} {c o : Nat} {cells : List Cell}
    (h : Fitsrs.Holds unit o (cells.flatMap cellBytes)) (hok : ∀ v ∈ cells, CellOk ty v) :
    elements unit ty c o cells.length = (cells.map WrittenTable.given).zipIdx.map fun (v, i) => .cell c i v := by
  unfold elements
  apply List.ext_getElem
  · simp
  · intro i h1 h2
    have hi : i < cells.length := by simpa using h1
    simp only [List.getElem_map, List.getElem_range, List.getElem_zipIdx, Nat.zero_add]
    have h3 := h.flatMap i hi
    rw [cells_length (ty := ty) (fun v hv => hok v (List.mem_of_mem_take hv)), List.length_take,
      Nat.min_eq_left (by omega)] at h3
    have h4 := h3.bytesAt
    have g1 := hok _ (List.getElem_mem hi)
    rw [cellBytes_length g1] at h4
    rw [h4]
    generalize cells[i] = v at g1 ⊢
    cases hv : v with
    | logical b => subst hv; cases ty <;> first | exact g1.elim | (cases b <;> rfl)
    | _ => rw [ofBytes_cellBytes (by rw [← hv]; exact g1) (fun h => by cases h)]; rfl

/-- The values of a table that are given. -/
theorem tableValues_given (hr : t.RowsOk) (hb : (Body.table t).Legible) {x : BinTable} {unit after : List UInt8}
    (hx : x.tforms = t.forms) (hw : x.naxis1 = t.width) (hn : x.naxis2 = t.rows.length)
    (hh : x.theap = t.main.length + t.gap.length) (hu : unit = t.data ++ after) :
    tableValues true x unit (List.range x.tforms.length) = t.givenCells := by
  obtain ⟨-, hb2⟩ := hb
  unfold tableValues WrittenTable.givenCells tableOf
  rw [hn]
  rw [List.flatMap_map]
  apply flatMap_range
  intro r h1
  have hrow := hr _ (List.getElem_mem h1)
  have hlen : x.tforms.length = t.rows[r].length := by
    rw [hx, hrow.1]
    unfold WrittenTable.forms
    rw [List.length_map]
  unfold rowValues
  rw [hlen, ← List.length_map (f := fun field : WrittenField => field.cells.map WrittenTable.given)]
  apply flatMap_zipIdx
  intro c hc
  rw [List.length_map] at hc
  have hcc : c < t.columns.length := by rw [← hrow.1]; exact hc
  simp only [List.getElem_map]
  have hok := hrow.2 c hcc hc
  have harr : ∀ (w : Bool) (ty : ElemTy) (k : Nat) (mk : Nat → Nat → DataValue), t.columns[c] = .array w ty →
      WrittenField.half w = k →
      arrayValues true unit ty x.theap c k (r * x.naxis1 + colStart x.tforms c) mk =
        (t.rows[r][c].cells.map WrittenTable.given).zipIdx.map fun (v, i) => .cell c i v := by
    rintro w ty k mk hcol rfl
    obtain ⟨off, vs, e, g1, g2, g3, g4⟩ := array_at hr hu h1 hcc hc hcol
    obtain ⟨g4, -⟩ := g4 (by
      rintro rfl
      exact hb2 _ (List.getElem_mem h1) w off (by rw [← e]; exact List.getElem_mem hc))
    rw [e]
    unfold arrayValues
    dsimp only
    rw [if_pos rfl, hx, hw, g2, g3, hh]
    exact elements_given g4 g1
  unfold cellValues
  dsimp only
  rw [show x.tforms[c]? = some t.columns[c].form by rw [hx]; exact forms_get hcc]
  cases hcol : t.columns[c] with
  | plain ty rep =>
    have hat := field_at hr (unit := unit) (after := t.gap ++ t.heap ++ after) (by rw [hu]; simp [WrittenTable.data]) h1 hc
    rw [hcol] at hok
    cases hf : t.rows[r][c] with
    | array w o vs => rw [hf] at hok; exact hok.elim
    | values vs =>
      rw [hf] at hok hat
      show elements unit ty c _ (Spec.count ty rep) = _
      rw [hx, hw, ← hok.1]
      exact elements_given hat hok.2
  | array w ty =>
    cases w with
    | false => exact harr false ty 4 _ hcol rfl
    | true => exact harr true ty 8 _ hcol rfl

/-- The cells of a written table can be read. -/
theorem cellIn_written (hr : t.RowsOk) (hb : (Body.table t).Legible) {x : BinTable} (hx : x.tforms = t.forms)
    (hw : x.naxis1 = t.width) (hn : x.naxis2 = t.rows.length) (hh : x.theap = t.main.length + t.gap.length) {r c : Nat}
    (h1 : r < x.naxis2) (h2 : c < x.tforms.length) : CellIn true x t.data r c := by
  obtain ⟨hb1, hb2⟩ := hb
  rw [hn] at h1
  have hcc : c < t.columns.length := by
    rw [hx] at h2
    unfold WrittenTable.forms at h2
    rwa [List.length_map] at h2
  have hc : c < t.rows[r].length := by rw [(hr _ (List.getElem_mem h1)).1]; exact hcc
  have harr : ∀ (w : Bool) (ty : ElemTy) (k : Nat), t.columns[c] = .array w ty → WrittenField.half w = k →
      ArrayIn t.data ty x.theap k (r * x.naxis1 + colStart x.tforms c) := by
    rintro w ty k hcol rfl
    obtain ⟨off, vs, e, g1, g2, g3, g4⟩ := array_at hr (after := []) (List.append_nil _).symm h1 hcc hc hcol
    have hne : vs ≠ [] := by
      rintro rfl
      exact hb2 _ (List.getElem_mem h1) w off (by rw [← e]; exact List.getElem_mem hc)
    obtain ⟨-, g4⟩ := g4 hne
    unfold ArrayIn
    rw [hx, hw, g2, g3, hh]
    exact ⟨List.length_pos_iff.2 hne, g4⟩
  unfold CellIn
  dsimp only
  rw [show x.tforms[c]? = some t.columns[c].form by rw [hx]; exact forms_get hcc]
  cases hcol : t.columns[c] with
  | plain ty rep =>
    obtain ⟨h3, h4⟩ := hb1 ty rep (by rw [← hcol]; exact List.getElem_mem hcc)
    exact ⟨h4, fun h => absurd h h3⟩
  | array w ty =>
    cases w with
    | false => exact fun _ => harr false ty 4 hcol rfl
    | true => exact fun _ => harr true ty 8 hcol rfl

end

end Fitsrs

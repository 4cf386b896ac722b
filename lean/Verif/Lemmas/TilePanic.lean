import Verif.Spec.TileSound
import Verif.Lemmas.NoPanic
import Verif.Lemmas.Table
import Verif.Props.C46
import Verif.Props.C44_C45
import Verif.Props.C40_C42
/-
Compressed images do not panic on arbitrary contents: the rows of their tables stay in step with the columns whatever
the reader does.
-/

namespace Fitsrs
open Spec TableData

namespace Spec

/-- A value is what a column holds. -/
def HeldBy : TForm → DataValue → Prop
  | .plain ty _, .cell _ _ v => ∃ bs, v = Cell.ofBytes ty bs
  | .P _, .vla32 _ o => o < 2 ^ 32
  | .Q _, .vla64 .. => True
  | _, _ => False

end Spec

/-- The parts of the state that do not change when the rows are read without the heap. -/
structure Quiet (x : BinTable) (t : TableData) : Prop where
  ctx : t.ctx = x
  cols : t.cols = List.range x.tforms.length
  offsets : t.offsets.length = x.tforms.length ∧ ∀ c < x.tforms.length, t.offsets[c]? = some (colStart x.tforms c)
  main : t.mainSize = x.naxis1 * x.naxis2
  inHeap : t.inHeap = none
  heap : t.heap = false
  first : t.seekFirst = false
  file : t.rd.data.length < 2 ^ 60

/-- At the beginning of column `k` of a row. -/
structure InRow (x : BinTable) (k : Nat) (t : TableData) : Prop where
  quiet : Quiet x t
  col : t.col = k
  lt : k < x.tforms.length
  item : t.item = 0
  row : t.row < x.naxis2
  place : t.byteOffset = t.row * x.naxis1 + colStart x.tforms k

/-- Nothing more is read. -/
structure Dead (x : BinTable) (t : TableData) : Prop where
  quiet : Quiet x t
  col : t.col < x.tforms.length
  over : t.byteOffset = t.mainSize ∨ t.rd.data.length ≤ t.rd.pos
  row : t.row ≤ x.naxis2

variable {p : Profile} {x : BinTable} {t : TableData}

theorem elem_pos (ty : ElemTy) : 0 < ty.bytes ∧ ty.bytes ≤ 16 := by cases ty <;> decide

/-- The column read and where it ends. -/
theorem Spec.PlainRows.plain (h : PlainRows x) {k : Nat} {ty : ElemTy} {rep : Nat} (hk : x.tforms[k]? = some (.plain ty rep)) :
    itemCount ty rep = 1 ∧ colStart x.tforms (k + 1) = colStart x.tforms k + ty.bytes := by
  obtain ⟨h1, h2⟩ := h.one ty rep (List.mem_of_getElem? hk)
  subst h1
  rw [colStart_succ hk]
  cases ty <;> first | exact absurd rfl h2 | exact ⟨rfl, rfl⟩

theorem readExact_short {n : Nat} {rd : Reader} (hn : 0 < n) (h : rd.data.length ≤ rd.pos) :
    ∃ e, rd.readExact n = (.err e, rd) := by
  unfold Reader.readExact
  dsimp only
  rw [if_neg (by rw [List.length_take, List.length_drop]; omega), Nat.max_eq_left h]
  exact ⟨_, rfl⟩

/-- In the dead state nothing changes. -/
theorem Dead.next (h : Dead x t) : t.next p = (.ok none, t) := by
  have hc : t.cols[t.col]? = some t.col := by
    rw [h.quiet.cols, List.getElem?_range h.col]
  unfold TableData.next
  rw [hc]
  dsimp only
  have hf : t.toFirstCol p t.col = (none, t) := by
    unfold toFirstCol
    rw [if_neg (by rw [h.quiet.first]; decide)]
  rw [hf]
  dsimp only
  unfold nextAt
  rw [h.quiet.inHeap]
  dsimp only
  rcases h.over with ho | ho
  · rw [if_pos ho]
  by_cases hb : t.byteOffset = t.mainSize
  · rw [if_pos hb]
  have hk := List.getElem?_eq_getElem (l := x.tforms) h.col
  generalize x.tforms[t.col]'h.col = f at hk
  rw [if_neg hb, h.quiet.ctx, hk]
  cases f with
  | plain ty rep =>
    dsimp only
    unfold nextPlain
    obtain ⟨e, he⟩ := readExact_short (elem_pos ty).1 ho
    rw [he]
  | P ty =>
    dsimp only
    unfold nextArray
    obtain ⟨e, he⟩ := readExact_short (n := 4 + 4) (by decide) ho
    rw [he]
  | Q ty =>
    dsimp only
    unfold nextArray
    obtain ⟨e, he⟩ := readExact_short (n := 8 + 8) (by decide) ho
    rw [he]

theorem advance_zero (h : t.byteOffset < 2 ^ 62) (hp : t.rd.pos < 2 ^ 62) : t.advance p 0 = (.ok (), t) :=
  advance_nat (p := p) (t := t) (off := 0) hp h

theorem nextOffset_zero (h : Quiet x t) {c : Nat} (hc : c < x.tforms.length) (hw : 0 < x.naxis1) (hn : x.naxis1 < 2 ^ 60)
    (hb : t.byteOffset < 2 ^ 62) (hm : t.byteOffset % x.naxis1 = colStart x.tforms c) : t.nextOffset p c = .ok 0 := by
  have hlt : t.byteOffset % x.naxis1 < x.naxis1 := Nat.mod_lt _ hw
  unfold nextOffset
  rw [h.cols, List.getElem?_range hc]
  dsimp only
  rw [h.offsets.2 c hc]
  dsimp only
  rw [h.ctx, if_neg (by omega), asI64_lt (n := colStart x.tforms c) (by omega), asI64_lt (n := t.byteOffset) (by omega),
    asI64_lt (n := x.naxis1) (by omega), ← Int.ofNat_tmod, hm, Int.sub_self, i64op_ok (by omega) (by omega)]
  rfl

theorem Quiet.set (h : Quiet x t) (r c i : Nat) : Quiet x { t with row := r, col := c, item := i } :=
  ⟨h.ctx, h.cols, h.offsets, h.main, h.inHeap, h.heap, h.first, h.file⟩

theorem colBytes_pos (h : PlainRows x) {k : Nat} {f : TForm} (hk : x.tforms[k]? = some f) : 0 < colBytes f := by
  cases f with
  | plain ty rep =>
    have h1 := (h.plain hk).2
    rw [colStart_succ hk] at h1
    have := (elem_pos ty).1
    omega
  | P ty => exact (by decide : 0 < 8)
  | Q ty => exact (by decide : 0 < 16)

theorem colStart_end (h : PlainRows x) : colStart x.tforms x.tforms.length = x.naxis1 := by
  rw [h.width]
  unfold colStart
  rw [List.take_of_length_le (by rw [List.length_map]; exact Nat.le_refl _)]

theorem colStart_inside (h : PlainRows x) {k : Nat} (hk : k < x.tforms.length) : colStart x.tforms k < x.naxis1 := by
  have h1 := List.getElem?_eq_getElem (l := x.tforms) hk
  have h2 := colBytes_pos h h1
  have h3 := colStart_lt h1 hk
  rw [colStart_end h] at h3
  omega

/-- After the value of column `k`, which has been read up to the start of the next column. -/
theorem seek_after (h : Quiet x t) (hp : PlainRows x) {k : Nat} (hk : k < x.tforms.length) (hc : t.col = k)
    (hr : t.row < x.naxis2) (hb : t.byteOffset = t.row * x.naxis1 + colStart x.tforms (k + 1))
    (hpos : t.rd.pos ≤ t.rd.data.length) :
    ∃ u, t.seekToNextCol p = (.ok (), u) ∧
      ((k + 1 < x.tforms.length ∧ InRow x (k + 1) u ∧ u.row = t.row) ∨
        (k + 1 = x.tforms.length ∧ u.row = t.row + 1 ∧ (InRow x 0 u ∨ Dead x u ∧ u.byteOffset = u.mainSize))) := by
  have hlen : t.cols.length = x.tforms.length := by rw [h.cols, List.length_range]
  have hfile := h.file
  have hW := hp.narrow
  have hW0 : 0 < x.naxis1 := by have := colStart_inside hp hk; omega
  have hend := colStart_end hp
  have hsize := hp.size
  have hrow : (t.row + 1) * x.naxis1 ≤ x.naxis1 * x.naxis2 := by
    rw [Nat.mul_comm x.naxis1]; exact Nat.mul_le_mul_right _ hr
  have hbo : t.byteOffset ≤ (t.row + 1) * x.naxis1 := by
    rw [hb, Nat.add_mul, Nat.one_mul, ← hend]
    exact Nat.add_le_add_left (colStart_mono (by omega)) _
  have hlt : t.byteOffset < 2 ^ 62 := by omega
  have hlp : t.rd.pos < 2 ^ 62 := by omega
  unfold seekToNextCol
  rw [hlen, h.ctx, usub_ok (by omega), usub_ok (by omega)]
  dsimp only
  by_cases hl : k + 1 = x.tforms.length
  · have hb' : t.byteOffset = (t.row + 1) * x.naxis1 := by
      rw [hb, hl, hend, Nat.add_mul, Nat.one_mul]
    by_cases hlr : t.row + 1 = x.naxis2
    · rw [show (t.col == x.tforms.length - 1) = true by rw [hc, beq_iff_eq]; omega,
        show (t.row == x.naxis2 - 1) = true by rw [beq_iff_eq]; omega]
      have hm : t.byteOffset = t.mainSize := by rw [hb', h.main, hlr, Nat.mul_comm]
      rw [seekNext_end (off := 0) t (by
        rw [← hm, Int.sub_self]; exact i64op_ok (by omega) (by omega))]
      exact ⟨{ t with row := t.row + 1 }, advance_zero (t := { t with row := t.row + 1 }) hlt hlp,
        Or.inr ⟨hl, rfl, Or.inr ⟨⟨h.set (t.row + 1) t.col t.item, (by show t.col < _; omega), Or.inl hm, hr⟩, hm⟩⟩⟩
    · rw [show (t.col == x.tforms.length - 1) = true by rw [hc, beq_iff_eq]; omega,
        show (t.row == x.naxis2 - 1) = false by rw [beq_eq_false_iff_ne]; omega]
      have hq := h.set (t.row + 1) 0 0
      rw [seekNext_row t (c := 0) (off := 0) (by rw [hlen, hc, hl, Nat.mod_self])
        (nextOffset_zero hq (by omega) hW0 hW hlt (by
          show t.byteOffset % x.naxis1 = colStart x.tforms 0
          rw [hb', Nat.mul_mod_left]; rfl))]
      refine ⟨{ t with row := t.row + 1, col := 0, item := 0 }, advance_zero (t := { t with row := t.row + 1, col := 0, item := 0 }) hlt hlp,
        Or.inr ⟨hl, rfl, Or.inl ⟨hq, rfl, by omega, rfl, ?_, ?_⟩⟩⟩
      · show t.row + 1 < _; omega
      · show t.byteOffset = (t.row + 1) * x.naxis1 + colStart x.tforms 0
        rw [hb']; rfl
  · rw [show (t.col == x.tforms.length - 1) = false by rw [hc, beq_eq_false_iff_ne]; omega]
    have hq := h.set t.row (k + 1) 0
    have hk1 : k + 1 < x.tforms.length := by omega
    rw [seekNext_same _ t (c := k + 1) (off := 0) (by rw [hlen, hc, Nat.mod_eq_of_lt hk1])
      (nextOffset_zero hq hk1 hW0 hW hlt (by
        show t.byteOffset % x.naxis1 = _
        rw [hb, Nat.mul_comm, Nat.mul_add_mod, Nat.mod_eq_of_lt (colStart_inside hp hk1)]))]
    exact ⟨{ t with col := k + 1, item := 0 }, advance_zero (t := { t with col := k + 1, item := 0 }) hlt hlp,
      Or.inl ⟨hk1, ⟨hq, rfl, hk1, rfl, hr, hb⟩, rfl⟩⟩

/-- A read that succeeds or leaves the reader at the end. -/
theorem readExact_end (n : Nat) (rd : Reader) :
    (∃ bs, rd.readExact n = (.ok bs, { rd with pos := rd.pos + n }) ∧ bs.length = n ∧ (0 < n → rd.pos + n ≤ rd.data.length)) ∨
      ∃ e r, rd.readExact n = (.err e, r) ∧ r.data = rd.data ∧ rd.data.length ≤ r.pos := by
  unfold Reader.readExact
  dsimp only
  by_cases h : ((rd.data.drop rd.pos).take n).length = n
  · left
    rw [if_pos h]
    refine ⟨_, rfl, h, fun hn => ?_⟩
    rw [List.length_take, List.length_drop] at h
    omega
  · right
    rw [if_neg h]
    exact ⟨_, _, rfl, rfl, Nat.le_max_right _ _⟩

/-- What reading a value at the start of column `k` gives. -/
def Stepped (x : BinTable) (k row : Nat) (r : Res (Option DataValue) × TableData) : Prop :=
  match r with
  | (.ok none, u) => Dead x u ∧ u.row = row
  | (.ok (some v), u) => (∃ f, x.tforms[k]? = some f ∧ HeldBy f v) ∧
      ((k + 1 < x.tforms.length ∧ InRow x (k + 1) u ∧ u.row = row) ∨
        (k + 1 = x.tforms.length ∧ u.row = row + 1 ∧ (InRow x 0 u ∨ Dead x u ∧ u.byteOffset = u.mainSize)))
  | _ => False

theorem InRow.readTo (h : InRow x k t) {rd : Reader} (hd : rd.data = t.rd.data) (b i : Nat) :
    Quiet x { t with rd, byteOffset := b, item := i } :=
  ⟨h.quiet.ctx, h.quiet.cols, h.quiet.offsets, h.quiet.main, h.quiet.inHeap, h.quiet.heap, h.quiet.first,
    by show rd.data.length < _; rw [hd]; exact h.quiet.file⟩

theorem InRow.step (h : InRow x k t) (hp : PlainRows x) : Stepped x k t.row (t.next p) := by
  have hq := h.quiet
  have hcol := h.col
  have hlt := h.lt
  have hc : t.cols[t.col]? = some k := by
    rw [hq.cols, hcol, List.getElem?_range hlt]
  unfold TableData.next
  rw [hc]
  dsimp only
  have hf : t.toFirstCol p k = (none, t) := by
    unfold toFirstCol
    rw [if_neg (by rw [hq.first]; decide)]
  rw [hf]
  dsimp only
  unfold nextAt
  rw [hq.inHeap]
  dsimp only
  have hk := List.getElem?_eq_getElem (l := x.tforms) hlt
  generalize x.tforms[k]'hlt = f at hk
  have hsize : (t.row + 1) * x.naxis1 ≤ x.naxis1 * x.naxis2 := by
    rw [Nat.mul_comm x.naxis1]; exact Nat.mul_le_mul_right _ h.row
  have hin := colStart_inside hp hlt
  rw [if_neg (by
    rw [h.place, hq.main]
    rw [Nat.add_mul, Nat.one_mul] at hsize
    omega), hq.ctx, hk]
  have dead : ∀ r : Reader, r.data = t.rd.data → t.rd.data.length ≤ r.pos → Stepped x k t.row (.ok none, { t with rd := r }) :=
    fun r h1 h2 => ⟨⟨⟨hq.ctx, hq.cols, hq.offsets, hq.main, hq.inHeap, hq.heap, hq.first,
      by show r.data.length < _; rw [h1]; exact hq.file⟩, by show t.col < _; omega,
      Or.inr (by show r.data.length ≤ r.pos; rw [h1]; exact h2), Nat.le_of_lt h.row⟩, rfl⟩
  have fin : ∀ (v : DataValue) (n i : Nat), HeldBy f v → t.rd.pos + n ≤ t.rd.data.length →
      colStart x.tforms (k + 1) = colStart x.tforms k + n →
      Stepped x k t.row (finish v (({ t with rd := { t.rd with pos := t.rd.pos + n }, byteOffset := t.byteOffset + n, item := i } :
        TableData).seekToNextCol p)) := by
    intro v n i hv hle hn
    obtain ⟨u, hu, hs⟩ := seek_after (p := p) (h.readTo (rd := { t.rd with pos := t.rd.pos + n }) rfl (t.byteOffset + n) i)
      hp hlt hcol h.row (by
        show t.byteOffset + n = t.row * x.naxis1 + _
        rw [h.place, hn, Nat.add_assoc]) hle
    rw [hu]
    exact ⟨⟨f, hk, hv⟩, hs⟩
  cases f with
  | plain ty rep =>
    dsimp only
    obtain ⟨h1, h2⟩ := hp.plain hk
    unfold nextPlain
    rcases readExact_end ty.bytes t.rd with ⟨bs, hr, hbs, hle⟩ | ⟨e, r, hr, hd, hle⟩
    · rw [hr]
      dsimp only
      rw [h.item, h1, if_pos rfl]
      exact fin _ ty.bytes (0 + 1) ⟨bs, rfl⟩ (hle (elem_pos ty).1) h2
    · rw [hr]
      exact dead r hd hle
  | P ty =>
    dsimp only
    unfold nextArray
    rcases readExact_end (4 + 4) t.rd with ⟨bs, hr, hbs, hle⟩ | ⟨e, r, hr, hd, hle⟩
    · rw [hr]
      dsimp only
      rw [if_neg (by rw [hq.heap]; decide)]
      exact fin _ (4 + 4) t.item (by
        have := beNat_lt (bs.drop 4)
        rw [List.length_drop, hbs] at this
        exact this) (hle (by decide)) (by rw [colStart_succ hk]; rfl)
    · rw [hr]
      exact dead r hd hle
  | Q ty =>
    dsimp only
    unfold nextArray
    rcases readExact_end (8 + 8) t.rd with ⟨bs, hr, hbs, hle⟩ | ⟨e, r, hr, hd, hle⟩
    · rw [hr]
      dsimp only
      rw [if_neg (by rw [hq.heap]; decide)]
      exact fin _ (8 + 8) t.item trivial (hle (by decide)) (by rw [colStart_succ hk]; rfl)
    · rw [hr]
      exact dead r hd hle

/-- The values of a row: one for each column. -/
def RowHeld (x : BinTable) (vs : List DataValue) : Prop :=
  vs.length = x.tforms.length ∧ ∀ (c : Nat) f v, x.tforms[c]? = some f → vs[c]? = some v → HeldBy f v

/-- What reading a row gives. -/
def RowRead (x : BinTable) (row : Nat) (r : Res (Option (List DataValue)) × TableData) : Prop :=
  match r with
  | (.ok none, u) => Dead x u ∧ u.row = row
  | (.ok (some vs), u) => RowHeld x vs ∧ u.row = row + 1 ∧ (InRow x 0 u ∨ Dead x u ∧ u.byteOffset = u.mainSize)
  | _ => False

theorem collect_held (hp : PlainRows x) : ∀ (fuel : Nat) {k : Nat} {t : TableData} {acc : List DataValue}
    {r : Res (Option (List DataValue)) × TableData}, InRow x k t → acc.length = k →
    (∀ (c : Nat) f v, x.tforms[c]? = some f → acc[c]? = some v → HeldBy f v) →
    TableRows.collect p fuel t.row t acc = some r → RowRead x t.row r := by
  intro fuel
  induction fuel with
  | zero => intro k t acc r _ _ _ h; cases h
  | succ fuel ih =>
    intro k t acc r h hl ha e
    unfold TableRows.collect at e
    rw [if_pos rfl] at e
    have hs := h.step (p := p) hp
    generalize t.next p = w at e hs
    rcases w with ⟨q, u⟩
    cases q with
    | panic => exact absurd hs id
    | err x => exact absurd hs id
    | ok q =>
      cases q with
      | none => cases e; exact hs
      | some v =>
        dsimp only at e
        obtain ⟨⟨f, hf, hv⟩, hs⟩ := hs
        have ha' : ∀ (c : Nat) g w, x.tforms[c]? = some g → (acc ++ [v])[c]? = some w → HeldBy g w := by
          intro c g w hg hw
          by_cases hc : c < k
          · rw [List.getElem?_append_left (by omega)] at hw
            exact ha c g w hg hw
          · rw [List.getElem?_append_right (by omega), hl] at hw
            by_cases hc' : c = k
            · subst hc'
              rw [Nat.sub_self] at hw
              cases hw
              rw [hf] at hg
              cases hg
              exact hv
            · rw [List.getElem?_eq_none (by rw [List.length_singleton]; omega)] at hw
              cases hw
        have hl' : (acc ++ [v]).length = k + 1 := by rw [List.length_append, hl]; rfl
        rcases hs with ⟨h1, h2, h3⟩ | ⟨h1, h2, h3⟩
        · rw [← h3] at e ⊢
          exact ih h2 hl' ha' e
        · cases fuel with
          | zero => cases e
          | succ fuel =>
            unfold TableRows.collect at e
            rw [if_neg (by omega)] at e
            cases e
            exact ⟨⟨by rw [hl', h1], ha'⟩, h2, h3⟩

/-- The rows of the table, at the start of a row or at the end for good. -/
structure RowsSafe (x : BinTable) (r : TableRows) : Prop where
  rows : PlainRows x
  state : InRow x 0 r.data ∨ Dead x r.data
  row : r.data.row = r.row

/-- Reading a row. -/
theorem RowsSafe.next {fuel : Nat} {r r' : TableRows} {q : Res (Option (List DataValue))} (h : RowsSafe x r)
    (e : r.next p fuel = some (q, r')) :
    RowsSafe x r' ∧ ((q = .ok none) ∨ ∃ vs, q = .ok (some vs) ∧ RowHeld x vs ∧ r'.row = r.row + 1 ∧
      (InRow x 0 r'.data ∨ Dead x r'.data ∧ r'.data.byteOffset = r'.data.mainSize)) := by
  unfold TableRows.next at e
  have key : ∀ w, TableRows.collect p fuel r.row r.data [] = some w → RowRead x r.row w := by
    intro w hw
    rw [← h.row] at hw ⊢
    rcases h.state with hs | hs
    · exact collect_held h.rows fuel hs rfl (fun c f v _ hv => by cases hv) hw
    · cases fuel with
      | zero => cases hw
      | succ fuel =>
        unfold TableRows.collect at hw
        rw [if_pos rfl, hs.next] at hw
        cases hw
        exact ⟨hs, rfl⟩
  cases hq : TableRows.collect p fuel r.row r.data [] with
  | none => rw [hq] at e; cases e
  | some w =>
    have hk := key w hq
    rw [hq] at e
    rcases w with ⟨q, u⟩
    cases q with
    | panic => exact absurd hk id
    | err y => exact absurd hk id
    | ok q =>
      cases q with
      | none => cases e; exact ⟨⟨h.rows, Or.inr hk.1, hk.2⟩, Or.inl rfl⟩
      | some vs => cases e; exact ⟨⟨h.rows, hk.2.2.imp id And.left, hk.2.1⟩, Or.inr ⟨vs, rfl, hk.1, rfl, hk.2.2⟩⟩

theorem Quiet.moved {r : Reader} (h : Quiet x t) (hd : r.data = t.rd.data) : Quiet x { t with rd := r } :=
  ⟨h.ctx, h.cols, h.offsets, h.main, h.inHeap, h.heap, h.first, by show r.data.length < _; rw [hd]; exact h.file⟩

/-! ### Tiles -/

/-- The keywords of a tile refer to columns of numbers. -/
structure KwSafe (p : Profile) (x : BinTable) (k : FloatKw) : Prop where
  scale : ColumnOf x k.scaleIdx [.E, .D]
  zero : ColumnOf x k.zeroIdx [.E, .D]
  blank : ∀ c, k.blankIdx = some c → ColumnOf x c [.B, .I, .J, .K]
  seed : p = .wrapping ∨ 0 ≤ k.dither0 ∧ k.dither0 < 2 ^ 63
  bounds : k.quantiz.InBounds

theorem KwSafe.new {h : Header BinTable} {z : TileCompressedImage} (hs : TileSound p h z) (hf : IsFloat z.zBitpix) :
    ∃ k, FloatKw.new h z = .ok k ∧ KwSafe p h.xtension k := by
  obtain ⟨c, hc, h1⟩ := hs.scale hf
  obtain ⟨d, hd, h2⟩ := hs.zero hf
  have e1 := findField_iff.2 hc
  have e2 := findField_iff.2 hd
  unfold FloatKw.new
  rw [e1, e2]
  refine ⟨_, rfl, h1, h2, fun b hb => ?_, hs.seed, trivial⟩
  exact hs.blank hf b (findField_iff.1 hb)

theorem held_number {x : BinTable} {vs : List DataValue} {c : Nat} {tys : List ElemTy} (h : RowHeld x vs)
    (hc : ColumnOf x c tys) : ∃ ty ∈ tys, ∃ i j bs, vs[c]? = some (.cell i j (Cell.ofBytes ty bs)) := by
  obtain ⟨ty, hty, rep, hx⟩ := hc
  have hlt : c < vs.length := by
    rw [h.1]
    exact (List.getElem?_eq_some_iff.1 hx).1
  have hv := List.getElem?_eq_getElem hlt
  have hh := h.2 c _ _ hx hv
  generalize vs[c] = v at hv hh
  cases v with
  | cell i j w =>
    obtain ⟨bs, rfl⟩ := hh
    exact ⟨ty, hty, i, j, bs, hv⟩
  | vla32 a b => exact absurd hh id
  | vla64 a b => exact absurd hh id

theorem scalarAt_ok {x : BinTable} {vs : List DataValue} {c : Nat} (h : RowHeld x vs) (hc : ColumnOf x c [.E, .D]) :
    ∃ s, FloatKw.scalarAt vs c = .ok s := by
  obtain ⟨ty, hty, i, j, bs, hv⟩ := held_number h hc
  unfold FloatKw.scalarAt
  rw [hv]
  simp only [List.mem_cons, List.not_mem_nil, or_false] at hty
  rcases hty with rfl | rfl
  · exact ⟨_, rfl⟩
  · exact ⟨_, rfl⟩

theorem blankAt_ok {x : BinTable} {vs : List DataValue} {c : Nat} (h : RowHeld x vs)
    (hc : ColumnOf x c [.B, .I, .J, .K]) : ∃ s, FloatKw.blankAt vs c = .ok s := by
  obtain ⟨ty, hty, i, j, bs, hv⟩ := held_number h hc
  unfold FloatKw.blankAt
  rw [hv]
  simp only [List.mem_cons, List.not_mem_nil, or_false] at hty
  rcases hty with rfl | rfl | rfl | rfl
  · exact ⟨_, rfl⟩
  · exact ⟨_, rfl⟩
  · exact ⟨_, rfl⟩
  · exact ⟨_, rfl⟩

theorem KwSafe.start {k : FloatKw} {row : Nat} {vs : List DataValue} (h : KwSafe p x k) (hv : RowHeld x vs)
    (hr : 0 < row) (hb : row < 2 ^ 62) : ∃ k', k.startTile p row vs = .ok k' ∧ KwSafe p x k' := by
  have hf : ∃ i, FloatKw.firstIndex p k.dither0 row = .ok i := by
    unfold FloatKw.firstIndex
    rw [usub_ok hr, Res.bind_ok]
    rcases h.seed with hp | ⟨h1, h2⟩
    · subst hp
      cases he : uadd .wrapping (row - 1) (asU64 k.dither0) with
      | ok b => exact ⟨_, rfl⟩
      | err e => exact absurd he uadd_not_err
      | panic => exact absurd he (uadd_wraps _ _)
    · have : asU64 k.dither0 < 2 ^ 63 := by
        unfold asU64
        omega
      rw [uadd_ok (by unfold two64; omega)]
      exact ⟨_, rfl⟩
  have hq : ∃ q, k.startQuantiz p row = .ok q := by
    obtain ⟨i, hi⟩ := hf
    unfold FloatKw.startQuantiz
    cases k.zQuantiz with
    | noDither => exact ⟨_, rfl⟩
    | subtractiveDither1 => rw [hi]; exact ⟨_, rfl⟩
    | subtractiveDither2 => rw [hi]; exact ⟨_, rfl⟩
  obtain ⟨q, hq⟩ := hq
  obtain ⟨s, hs⟩ := scalarAt_ok hv h.scale
  obtain ⟨o, ho⟩ := scalarAt_ok hv h.zero
  unfold FloatKw.startTile
  rw [hq, Res.bind_ok, hs, Res.bind_ok, ho, Res.bind_ok]
  cases hbl : k.blankIdx with
  | none => exact ⟨_, rfl, h.scale, h.zero, fun c hc => h.blank c (hbl ▸ hc), h.seed, startQuantiz_bounds hq⟩
  | some c =>
    obtain ⟨b, hb⟩ := blankAt_ok hv (h.blank c hbl)
    dsimp only
    rw [hb, Res.bind_ok]
    exact ⟨_, rfl, h.scale, h.zero, fun c hc => h.blank c (hbl ▸ hc), h.seed, startQuantiz_bounds hq⟩

theorem arrayOffset_held {h : Header BinTable} {z : TileCompressedImage} (hs : TileSound p h z) {vs : List DataValue}
    (hv : RowHeld h.xtension vs) : ∃ o, TileIt.arrayOffset vs z.dataCompressedIdx = .ok o ∧ (p = .wrapping ∨ o < 2 ^ 32) := by
  have get : ∀ f, h.xtension.tforms[z.dataCompressedIdx]? = some f →
      ∃ v, vs[z.dataCompressedIdx]? = some v ∧ HeldBy f v := by
    intro f hf
    have hlt : z.dataCompressedIdx < vs.length := by
      rw [hv.1]
      exact (List.getElem?_eq_some_iff.1 hf).1
    have he := List.getElem?_eq_getElem hlt
    exact ⟨_, he, hv.2 _ _ _ hf he⟩
  unfold TileIt.arrayOffset
  rcases hs.data with ⟨ty, hd⟩ | ⟨hp, ty, hd⟩
  · obtain ⟨v, he, hh⟩ := get _ hd
    rw [he]
    cases v with
    | cell i j w => exact absurd hh id
    | vla32 a b => exact ⟨b, rfl, Or.inr hh⟩
    | vla64 a b => exact absurd hh id
  · obtain ⟨v, he, hh⟩ := get _ hd
    rw [he]
    cases v with
    | cell i j w => exact absurd hh id
    | vla32 a b => exact absurd hh id
    | vla64 a b => exact ⟨b, rfl, Or.inl hp⟩

theorem tileOffset_ok {row naxis1 theap o : Nat} (h1 : row * naxis1 < 2 ^ 60) (h2 : p = .wrapping ∨ theap < 2 ^ 60)
    (h3 : p = .wrapping ∨ o < 2 ^ 32) : ∃ off, TileIt.tileOffset p row naxis1 theap o = .ok off := by
  unfold TileIt.tileOffset
  rw [umul_ok (by unfold two64; omega), Res.bind_ok]
  generalize row * naxis1 = m at h1
  have hw : p = .wrapping → ∃ off, heapOffset p m theap o = .ok off := by
    intro hp
    subst hp
    unfold heapOffset
    have op : ∀ v, ∃ w, i64op .wrapping v = .ok w := by
      intro v
      cases hv : i64op .wrapping v with
      | ok w => exact ⟨w, rfl⟩
      | err e => unfold i64op at hv; split at hv <;> cases hv
      | panic => exact absurd hv (i64op_wraps _)
    obtain ⟨a, ha⟩ := op (- asI64 m)
    rw [ha, Res.bind_ok]
    obtain ⟨b, hb⟩ := op (a + asI64 theap)
    rw [hb, Res.bind_ok]
    exact op _
  rcases h2 with hp | h2
  · exact hw hp
  rcases h3 with hp | h3
  · exact hw hp
  unfold heapOffset
  rw [asI64_lt (n := m) (by omega), asI64_lt (n := theap) (by omega), asI64_lt (n := o) (by omega),
    i64op_ok (by omega) (by omega), Res.bind_ok, i64op_ok (by omega) (by omega), Res.bind_ok, i64op_ok (by omega) (by omega)]
  exact ⟨_, rfl⟩

theorem read_more_fuel {q : Rice.Params} {room : Nat} {st : Rice.State} {r : Res (List Int × Rice.State)} (k : Nat)
    {fuel : Nat} (h : Rice.read p q fuel room st = some r) : Rice.read p q (fuel + k) room st = some r := by
  induction k with
  | zero => exact h
  | succ k ih => exact Rice.read_mono _ ih

/-- RICE decoding in builds without overflow checks, with any fuel. -/
theorem rice_tile_safe {fuel b n : Nat} {bytes : List UInt8} {r : Res (List Int)} (hb : 0 < b) (hn : n + b ≤ 2 ^ 31)
    (h : Rice.tile .wrapping fuel b n bytes = some r) : r ≠ .panic ∧ ∀ out, r = .ok out → out.length = n := by
  have hm : Rice.tile .wrapping (fuel + (2 * n + 1)) b n bytes = some r := by
    unfold Rice.tile at h ⊢
    by_cases h0 : n = 0
    · rw [if_pos h0] at h ⊢; exact h
    · rw [if_neg h0] at h ⊢
      cases hr : Rice.read .wrapping { nblock := b, nx := toSigned 32 (n % 2 ^ 32) } fuel n (.start bytes) with
      | none => rw [hr] at h; cases h
      | some w => rw [read_more_fuel (2 * n + 1) hr, ← hr]; exact h
  obtain ⟨r', h1, h2, h3⟩ := C41_release b n bytes (fuel + (2 * n + 1)) hb hn (by omega)
  rw [hm] at h1
  cases h1
  exact ⟨h2, fun out ho => (h3 out ho).1⟩

theorem littleEndian_length (l : List Int) : (l.flatMap littleEndian).length = 4 * l.length := by
  induction l with
  | nil => rfl
  | cons a l ih => rw [List.flatMap_cons, List.length_append, ih, List.length_cons]; show 4 + _ = _; omega

theorem decompress_safe {gz : Gunzip} {fuel n : Nat} {h : Header BinTable} {z : TileCompressedImage}
    {bytes : List UInt8} {r : Res (List UInt8)} (hs : TileSound p h z) (hn : n = product z.zTilen)
    (e : TileIt.decompress p gz fuel z.zCmpType n (4 * n) bytes = some r) :
    r ≠ .panic ∧ ∀ buf, r = .ok buf → buf.length = 4 * n := by
  have hm := hs.method
  have gzip : (if 4 * n ≤ (gz bytes).length then some (Res.ok ((gz bytes).take (4 * n))) else some (.err (.io .unexpectedEof))) =
      some r → r ≠ .panic ∧ ∀ buf, r = .ok buf → buf.length = 4 * n := by
    intro e
    by_cases hl : 4 * n ≤ (gz bytes).length
    · rw [if_pos hl] at e
      cases e
      refine ⟨fun h => (by cases h), fun buf hb => ?_⟩
      cases hb
      rw [List.length_take]
      omega
    · rw [if_neg hl] at e
      cases e
      exact ⟨fun h => (by cases h), fun buf hb => (by cases hb)⟩
  unfold TileIt.decompress at e
  cases hc : z.zCmpType with
  | gzip1 => rw [hc] at e; exact gzip e
  | gzip2 => rw [hc] at e; exact gzip e
  | plio1 => rw [hc] at hm; exact absurd hm id
  | hcompress1 => rw [hc] at hm; exact absurd hm id
  | rice b =>
    rw [hc] at hm e
    obtain ⟨hp, hb, hle⟩ := hm
    subst hp
    dsimp only at e
    cases hr : Rice.tile .wrapping fuel b n bytes with
    | none => rw [hr] at e; cases e
    | some w =>
      rw [hr] at e
      cases e
      obtain ⟨h1, h2⟩ := rice_tile_safe hb (by rw [hn]; exact hle) hr
      refine ⟨fun h => h1 (Res.map_eq_panic.1 h), fun buf hb => ?_⟩
      obtain ⟨out, ho, rfl⟩ := Res.map_eq_ok.1 hb
      rw [littleEndian_length, h2 out ho]

/-- The pixels of a compressed image that can be read without panic. -/
structure TilesSafe (p : Profile) (h : Header BinTable) (z : TileCompressedImage) (it : TileIt) : Prop where
  sound : TileSound p h z
  ty : it.ty = z.zBitpix
  cmp : it.cmp = z.zCmpType
  zTile : it.zTile = z.zTilen
  dataIdx : it.dataIdx = z.dataCompressedIdx
  rows : RowsSafe h.xtension it.rows
  buf : it.buf.length = 4 * product z.zTilen
  left : it.remaining ≤ it.nPixels
  number : it.nPixels ≤ product z.zTilen
  kw : ∀ k, it.kw = some k → KwSafe p h.xtension k

theorem bytesNat_ok {buf : List UInt8} {is : List Nat} {acc : Nat} (h : ∀ i ∈ is, i < buf.length) :
    ∃ n, bytesNat buf is acc = .ok n := by
  induction is generalizing acc with
  | nil => exact ⟨_, rfl⟩
  | cons i is ih =>
    unfold bytesNat byteAt
    rw [List.getElem?_eq_getElem (h i (List.mem_cons_self ..))]
    dsimp only
    rw [Res.bind_ok]
    exact ih fun j hj => h j (List.mem_cons_of_mem _ hj)

theorem indices_inside {ty : Bitpix} {cmp : ZCmpType} {n i : Nat} (hi : i < n) :
    ∀ j ∈ TileIt.indices ty cmp (4 * n) i, j < 4 * n := by
  have h4 : 4 * n / 4 = n := by omega
  intro j hj
  unfold TileIt.indices at hj
  rw [h4] at hj
  split at hj <;> simp only [List.mem_cons, List.not_mem_nil, or_false] at hj <;> omega

theorem pixel_safe {h : Header BinTable} {z : TileCompressedImage} {it : TileIt} (hs : TilesSafe p h z it)
    (h0 : 0 < it.remaining) : ∃ v it', it.pixel p = (.ok (some v), it') ∧ TilesSafe p h z it' := by
  have hl := hs.left
  have hn := hs.number
  unfold TileIt.pixel
  rw [usub_ok hl, Res.bind_ok]
  have hraw : ∃ v, TileIt.rawValue it.ty it.cmp it.buf (it.nPixels - it.remaining) = .ok v := by
    obtain ⟨m, hm⟩ := bytesNat_ok (buf := it.buf) (acc := 0)
      (is := TileIt.indices it.ty it.cmp it.buf.length (it.nPixels - it.remaining)) (by
        rw [hs.buf]
        exact indices_inside (by omega))
    have hmeth := hs.sound.method
    rw [← hs.cmp] at hmeth
    unfold TileIt.rawValue
    cases hc : it.cmp with
    | plio1 => rw [hc] at hmeth; exact absurd hmeth id
    | hcompress1 => rw [hc] at hmeth; exact absurd hmeth id
    | gzip1 => rw [hc] at hm; exact ⟨_, by dsimp only; rw [hm]; rfl⟩
    | gzip2 => rw [hc] at hm; exact ⟨_, by dsimp only; rw [hm]; rfl⟩
    | rice b => rw [hc] at hm; exact ⟨_, by dsimp only; rw [hm]; rfl⟩
  obtain ⟨v, hv⟩ := hraw
  rw [hv, Res.bind_ok]
  unfold TileIt.toPixel
  cases hk : it.kw with
  | none =>
    dsimp only
    rw [usub_ok (by omega)]
    refine ⟨_, _, rfl, hs.sound, hs.ty, hs.cmp, hs.zTile, hs.dataIdx, hs.rows, hs.buf, ?_, hn, fun k hk => (by cases hk)⟩
    show it.remaining - 1 ≤ it.nPixels
    omega
  | some k =>
    have hks := hs.kw k hk
    obtain ⟨y, k', hu, hb⟩ := C46_lookup k v hks.bounds
    dsimp only
    rw [hu]
    have hsame : k'.scaleIdx = k.scaleIdx ∧ k'.zeroIdx = k.zeroIdx ∧ k'.blankIdx = k.blankIdx ∧ k'.dither0 = k.dither0 := by
      unfold FloatKw.unquantize at hu
      split at hu
      · cases hu; exact ⟨rfl, rfl, rfl, rfl⟩
      · split at hu
        · cases hu; exact ⟨rfl, rfl, rfl, rfl⟩
        · split at hu
          · cases hu; exact ⟨rfl, rfl, rfl, rfl⟩
          · cases hu
        · split at hu
          · cases hu; exact ⟨rfl, rfl, rfl, rfl⟩
          · split at hu
            · cases hu; exact ⟨rfl, rfl, rfl, rfl⟩
            · cases hu
    obtain ⟨e1, e2, e3, e4⟩ := hsame
    rw [Res.map_ok]
    dsimp only
    rw [usub_ok (by omega)]
    refine ⟨_, _, rfl, hs.sound, hs.ty, hs.cmp, hs.zTile, hs.dataIdx, hs.rows, hs.buf, ?_, hn, fun k2 hk2 => ?_⟩
    · show it.remaining - 1 ≤ it.nPixels
      omega
    · cases hk2
      exact ⟨e1 ▸ hks.scale, e2 ▸ hks.zero, by rw [e3]; exact hks.blank, by rw [e4]; exact hks.seed, hb⟩

theorem overwrite_length (new buf : List UInt8) : (overwrite new buf).length = buf.length := by
  unfold overwrite
  rw [List.length_append, List.length_take, List.length_drop]
  omega

theorem decode_done {h : Header BinTable} {z : TileCompressedImage} {it it' : TileIt} {gz : Gunzip}
    {fuel : Nat} {off : Int} {r : Res Bool} (hs : TilesSafe p h z it) (hn : it.nPixels = product z.zTilen)
    (ha : InRow h.xtension 0 it.rows.data ∨ Dead h.xtension it.rows.data ∧ it.rows.data.byteOffset = it.rows.data.mainSize)
    (e : it.fill p gz fuel off = some (r, it')) :
    TilesSafe p h z it' ∧ r ≠ .panic ∧ (r = .ok true → it'.remaining = it.remaining) := by
  have moved : ∀ rd : Reader, rd.data = it.rows.data.rd.data →
      TilesSafe p h z { it with rows := { it.rows with data := { it.rows.data with rd } } } := by
    intro rd hd
    refine ⟨hs.sound, hs.ty, hs.cmp, hs.zTile, hs.dataIdx, ⟨hs.rows.rows, ?_, hs.rows.row⟩, hs.buf, hs.left, hs.number, hs.kw⟩
    rcases ha with ha | ⟨ha, hb⟩
    · exact Or.inl ⟨ha.quiet.moved hd, ha.col, ha.lt, ha.item, ha.row, ha.place⟩
    · exact Or.inr ⟨ha.quiet.moved hd, ha.col, Or.inl hb, ha.row⟩
  unfold TileIt.fill at e
  have hsk : ∃ q rd, it.rows.data.rd.seekRelative off = (q, rd) ∧ rd.data = it.rows.data.rd.data ∧ q ≠ .panic := by
    unfold Reader.seekRelative
    dsimp only
    split
    · exact ⟨_, _, rfl, rfl, fun h => (by cases h)⟩
    · exact ⟨_, _, rfl, rfl, fun h => (by cases h)⟩
  obtain ⟨q, rd, hq, hd, hnp⟩ := hsk
  rw [hq] at e
  cases q with
  | panic => exact absurd rfl hnp
  | err y =>
    cases e
    exact ⟨moved rd hd, fun h => (by cases h), fun h => (by cases h)⟩
  | ok _ =>
    dsimp only at e
    cases hdc : TileIt.decompress p gz fuel it.cmp it.nPixels it.buf.length (rd.data.drop rd.pos) with
    | none => rw [hdc] at e; cases e
    | some w =>
      rw [hdc] at e
      have hdc' := hdc
      rw [hs.cmp, hs.buf, ← hn] at hdc'
      obtain ⟨h1, h2⟩ := decompress_safe hs.sound hn hdc'
      cases w with
      | panic => exact absurd rfl h1
      | err y =>
        cases e
        have hm := moved { rd with pos := rd.pos + min (gz.left it.cmp (rd.data.drop rd.pos)).2 (rd.data.length - rd.pos) } hd
        exact ⟨⟨hm.sound, hm.ty, hm.cmp, hm.zTile, hm.dataIdx, hm.rows, (overwrite_length _ _).trans hm.buf, hm.left,
          hm.number, hm.kw⟩, fun h => (by cases h), fun h => (by cases h)⟩
      | ok buf =>
        cases e
        refine ⟨⟨hs.sound, hs.ty, hs.cmp, hs.zTile, hs.dataIdx, hs.rows, ?_, hs.left, hs.number, hs.kw⟩,
          fun h => (by cases h), fun _ => rfl⟩
        show buf.length = _
        rw [h2 buf rfl, hn]

theorem openTile_safe {h : Header BinTable} {z : TileCompressedImage} {it it' : TileIt} {gz : Gunzip}
    {fuel : Nat} {vs : List DataValue} {r : Res Bool} (hs : TilesSafe p h z it) (hv : RowHeld h.xtension vs)
    (hrow : 0 < it.rows.row)
    (ha : InRow h.xtension 0 it.rows.data ∨ Dead h.xtension it.rows.data ∧ it.rows.data.byteOffset = it.rows.data.mainSize)
    (e : it.openTile p gz fuel vs = some (r, it')) :
    TilesSafe p h z it' ∧ r ≠ .panic ∧ (r = .ok true → 0 < it'.remaining) := by
  obtain ⟨o, ho, hlt⟩ := arrayOffset_held hs.sound hv
  have hsm := hs.sound.small
  have hpos := product_pos hs.sound.tiles
  have hpr : TileIt.product p it.zTile 1 = .ok (product z.zTilen) := by
    rw [hs.zTile]
    have := product_ok (p := p) (ts := z.zTilen) (acc := 1) (by unfold two64; omega) hs.sound.tiles
    rw [Nat.one_mul] at this
    exact this
  have hq : Quiet h.xtension it.rows.data := by
    rcases ha with ha | ha
    · exact ha.quiet
    · exact ha.1.quiet
  have hle : it.rows.row ≤ h.xtension.naxis2 := by
    rw [← hs.rows.row]
    rcases ha with ha | ha
    · exact Nat.le_of_lt ha.row
    · exact ha.1.row
  have hsize := hs.sound.rows.size
  have hW : 0 < h.xtension.naxis1 := by
    have := colStart_inside hs.sound.rows (List.length_pos_iff.2 hs.sound.rows.columns)
    omega
  have hm : it.rows.row * h.xtension.naxis1 ≤ h.xtension.naxis1 * h.xtension.naxis2 := by
    rw [Nat.mul_comm]; exact Nat.mul_le_mul_left _ hle
  have hr1 : it.rows.row ≤ it.rows.row * h.xtension.naxis1 := Nat.le_mul_of_pos_right _ hW
  have hkw : ∃ kw, TileIt.tileKw p it.rows.row vs it.kw = .ok kw ∧ ∀ k, kw = some k → KwSafe p h.xtension k := by
    cases hk : it.kw with
    | none => exact ⟨none, rfl, fun k hk => (by cases hk)⟩
    | some k =>
      obtain ⟨k', h1, h2⟩ := (hs.kw k hk).start hv hrow (by omega)
      refine ⟨some k', by unfold TileIt.tileKw; dsimp only; rw [h1]; rfl, fun k2 hk2 => ?_⟩
      cases hk2
      exact h2
  obtain ⟨kw, hk1, hk2⟩ := hkw
  obtain ⟨off, hoff⟩ := tileOffset_ok (p := p) (row := it.rows.row) (naxis1 := h.xtension.naxis1)
    (theap := h.xtension.theap) (o := o) (by omega) hs.sound.heap hlt
  unfold TileIt.openTile at e
  rw [← hs.dataIdx] at ho
  rw [ho, hpr] at e
  dsimp only at e
  rw [hk1] at e
  dsimp only at e
  rw [hq.ctx, hoff] at e
  dsimp only at e
  have hs' : TilesSafe p h z { it with nPixels := product z.zTilen, remaining := product z.zTilen, kw } :=
    ⟨hs.sound, hs.ty, hs.cmp, hs.zTile, hs.dataIdx, hs.rows, hs.buf, Nat.le_refl _, Nat.le_refl _, hk2⟩
  obtain ⟨h1, h2, h3⟩ := decode_done hs' rfl ha e
  exact ⟨h1, h2, fun hr => by rw [h3 hr]; exact hpos⟩

/-- The next pixel of a compressed image, whatever the file contains. -/
theorem TilesSafe.next {h : Header BinTable} {z : TileCompressedImage} {it it' : TileIt} {gz : Gunzip}
    {fuel : Nat} {r : Res (Option TilePixel)} (hs : TilesSafe p h z it) (e : it.next p gz fuel = some (r, it')) :
    TilesSafe p h z it' ∧ r ≠ .panic := by
  have pix : ∀ {it : TileIt}, TilesSafe p h z it → 0 < it.remaining → it.pixel p = (r, it') →
      TilesSafe p h z it' ∧ r ≠ .panic := by
    intro it hs h0 e
    obtain ⟨v, it2, h1, h2⟩ := pixel_safe hs h0
    rw [h1] at e
    cases e
    exact ⟨h2, fun h => (by cases h)⟩
  unfold TileIt.next at e
  by_cases h0 : it.remaining = 0
  · rw [if_pos h0] at e
    have ld : ∀ q it2, it.load p gz fuel = some (q, it2) →
        TilesSafe p h z it2 ∧ q ≠ .panic ∧ (q = .ok true → 0 < it2.remaining) := by
      intro q it2 hl
      unfold TileIt.load at hl
      cases hn : it.rows.next p fuel with
      | none => rw [hn] at hl; cases hl
      | some w =>
        rcases w with ⟨w, rows⟩
        obtain ⟨h1, h2⟩ := hs.rows.next hn
        have hs' : TilesSafe p h z { it with rows } :=
          ⟨hs.sound, hs.ty, hs.cmp, hs.zTile, hs.dataIdx, h1, hs.buf, hs.left, hs.number, hs.kw⟩
        rw [hn] at hl
        rcases h2 with rfl | ⟨vs, rfl, h3, h4, h5⟩
        · cases hl
          exact ⟨hs', fun h => (by cases h), fun h => (by cases h)⟩
        · exact openTile_safe hs' h3 (by show 0 < rows.row; omega) h5 hl
    cases hl : it.load p gz fuel with
    | none => rw [hl] at e; cases e
    | some w =>
      rcases w with ⟨q, it2⟩
      obtain ⟨h1, h2, h3⟩ := ld q it2 hl
      rw [hl] at e
      cases q with
      | panic => exact absurd rfl h2
      | err y => cases e; exact ⟨h1, fun h => (by cases h)⟩
      | ok b =>
        cases b with
        | false => cases e; exact ⟨h1, fun h => (by cases h)⟩
        | true =>
          injection e with e
          exact pix h1 (h3 rfl) e
  · rw [if_neg h0] at e
    injection e with e
    exact pix hs (by omega) e

theorem RowsSafe.new {rd : Reader} {n : Nat} (hp : PlainRows x) (hf : rd.data.length < 2 ^ 60) :
    ∃ t, TableData.new p rd x n = .ok t ∧ RowsSafe x (TableRows.new (t.readTheHeap false)) := by
  have hw := hp.width
  have hnar := hp.narrow
  have hsize := hp.size
  obtain ⟨os, h1, h2, h3⟩ := columnOffsets_ok (p := p) x.tforms 0 (by omega)
  unfold TableData.new
  rw [h1, Res.bind_ok, umul_ok (by unfold two64; omega), Res.bind_ok]
  refine ⟨_, rfl, hp, ?_, rfl⟩
  have hq : Quiet x (TableData.readTheHeap false
      { rd, inHeap := none, cols := List.range x.tforms.length, offsets := os, ctx := x, col := 0, item := 0, byteOffset := 0
        mainSize := x.naxis1 * x.naxis2, startPos := n, seekFirst := false, row := 0, heap := true }) :=
    ⟨rfl, rfl, ⟨h2, fun c hc => (h3 c hc).trans (by rw [Nat.zero_add])⟩, rfl, rfl, rfl, rfl, hf⟩
  have hl := List.length_pos_iff.2 hp.columns
  by_cases h0 : x.naxis2 = 0
  · refine Or.inr ⟨hq, hl, Or.inl ?_, Nat.zero_le _⟩
    show 0 = x.naxis1 * x.naxis2
    rw [h0, Nat.mul_zero]
  · refine Or.inl ⟨hq, rfl, hl, rfl, by show 0 < x.naxis2; omega, ?_⟩
    show 0 = 0 * x.naxis1 + colStart x.tforms 0
    rw [Nat.zero_mul]
    rfl

theorem RowsSafe.steady {r : TableRows} (h : RowsSafe x r) (hn : x.ttypes.length = x.tforms.length) : Steady r.data := by
  have hW : 0 < x.naxis1 := by
    have := colStart_inside h.rows (List.length_pos_iff.2 h.rows.columns)
    omega
  have key : Quiet x r.data ∧ r.data.col < x.tforms.length := by
    rcases h.state with hs | hs
    · exact ⟨hs.quiet, by rw [hs.col]; exact hs.lt⟩
    · exact ⟨hs.quiet, hs.col⟩
  obtain ⟨hq, hc⟩ := key
  refine ⟨by rw [hq.ctx]; exact hq.offsets.1, by rw [hq.ctx]; exact hn, ?_, ?_, by rw [hq.ctx]; exact hW⟩
  · rw [hq.ctx, hq.cols]
    exact fun c hc => List.mem_range.1 hc
  · rw [hq.cols, List.length_range]
    exact hc

/-- Opening a compressed image. -/
theorem TilesSafe.new {h : Header BinTable} {z : TileCompressedImage} {t : TableData} {it : TileIt}
    (hs : TileSound p h z) (ht : RowsSafe h.xtension (TableRows.new (t.readTheHeap false)))
    (e : TileIt.new p t h z = .ok it) : TilesSafe p h z it := by
  unfold TileIt.new at e
  have hsm := hs.small
  have hpr : TileIt.product p z.zTilen 1 = .ok (product z.zTilen) := by
    have := product_ok (p := p) (ts := z.zTilen) (acc := 1) (by unfold two64; omega) hs.tiles
    rw [Nat.one_mul] at this
    exact this
  rw [hpr, Res.bind_ok, umul_ok (by unfold two64; omega), Res.bind_ok, if_neg (by omega)] at e
  obtain ⟨kw, h1, h2⟩ := Res.bind_eq_ok.1 e
  cases h2
  refine ⟨hs, rfl, rfl, rfl, rfl, ht, ?_, Nat.le_refl _, Nat.zero_le _, fun k hk => ?_⟩
  · show (List.replicate _ (0 : UInt8)).length = _
    rw [List.length_replicate, Nat.mul_comm]
  · dsimp only at hk
    subst hk
    have fl : ∀ (hf : IsFloat z.zBitpix), (FloatKw.new h z).map some = .ok (some k) → KwSafe p h.xtension k := by
      intro hf he
      obtain ⟨k2, h3, h4⟩ := KwSafe.new hs hf
      rw [h3] at he
      cases he
      exact h4
    cases hz : z.zBitpix with
    | u8 => rw [hz] at h1; cases h1
    | i16 => rw [hz] at h1; cases h1
    | i32 => rw [hz] at h1; cases h1
    | i64 => rw [hz] at h1; cases h1
    | f32 => rw [hz] at h1; exact fl (by rw [hz]; exact Or.inl rfl) h1
    | f64 => rw [hz] at h1; exact fl (by rw [hz]; exact Or.inr rfl) h1

theorem TileIt_new_ok {h : Header BinTable} {z : TileCompressedImage} {t : TableData} (hs : TileSound p h z) :
    ∃ it, TileIt.new p t h z = .ok it := by
  unfold TileIt.new
  have hsm := hs.small
  have hpr : TileIt.product p z.zTilen 1 = .ok (product z.zTilen) := by
    have := product_ok (p := p) (ts := z.zTilen) (acc := 1) (by unfold two64; omega) hs.tiles
    rw [Nat.one_mul] at this
    exact this
  rw [hpr, Res.bind_ok, umul_ok (by unfold two64; omega), Res.bind_ok, if_neg (by omega)]
  have fl : ∀ (hf : IsFloat z.zBitpix), ∃ k, (FloatKw.new h z).map some = .ok k := by
    intro hf
    obtain ⟨k2, h3, h4⟩ := KwSafe.new hs hf
    rw [h3]
    exact ⟨_, rfl⟩
  cases hz : z.zBitpix with
  | u8 => exact ⟨_, rfl⟩
  | i16 => exact ⟨_, rfl⟩
  | i32 => exact ⟨_, rfl⟩
  | i64 => exact absurd hz hs.long
  | f32 =>
    obtain ⟨k, hk⟩ := fl (by rw [hz]; exact Or.inl rfl)
    dsimp only
    rw [hk]
    exact ⟨_, rfl⟩
  | f64 =>
    obtain ⟨k, hk⟩ := fl (by rw [hz]; exact Or.inr rfl)
    dsimp only
    rw [hk]
    exact ⟨_, rfl⟩

theorem getTiles_safe {f : Fits} {h : Hdu BinTable} {z : TileCompressedImage} (hs : TileSound p h.header z)
    (hf : f.rd.data.length < 2 ^ 60) : ∃ it, f.getTiles p h z = .ok it ∧ TilesSafe p h.header z it := by
  obtain ⟨t, h1, h2⟩ := RowsSafe.new (p := p) (rd := f.rd) (n := f.posStart) hs.rows hf
  obtain ⟨it, h3⟩ := TileIt_new_ok (t := t) hs
  refine ⟨it, ?_, TilesSafe.new hs h2 h3⟩
  unfold Fits.getTiles
  rw [h1, Res.bind_ok]
  exact h3

theorem TilesSafe.run {h : Header BinTable} {z : TileCompressedImage} {gz : Gunzip} {fuel : Nat} :
    ∀ (n : Nat) {it : TileIt}, TilesSafe p h z it → some .panic ∉ it.run p gz fuel n := by
  intro n
  induction n with
  | zero => intro it _; exact List.not_mem_nil
  | succ n ih =>
    intro it hs
    unfold TileIt.run
    cases hq : it.next p gz fuel with
    | none => simp
    | some w =>
      rcases w with ⟨r, it'⟩
      obtain ⟨h1, h2⟩ := hs.next hq
      intro hm
      rcases List.mem_cons.1 hm with hm | hm
      · cases hm; exact h2 rfl
      · exact ih h1 hm

/-! ### Checking a header -/

/-- A check of the type of a column. -/
def columnOf (x : BinTable) (c : Nat) (tys : List ElemTy) : Bool :=
  match x.tforms[c]? with
  | some (.plain ty _) => decide (ty ∈ tys)
  | _ => false

theorem columnOf_ok {c : Nat} {tys : List ElemTy} (h : columnOf x c tys = true) : ColumnOf x c tys := by
  unfold columnOf at h
  unfold ColumnOf
  generalize x.tforms[c]? = o at h ⊢
  split at h
  · rename_i ty rep
    exact ⟨ty, of_decide_eq_true h, rep, rfl⟩
  · cases h

/-- The column of that name, if there is one, satisfies a condition. -/
def namedBy (x : BinTable) (s : String) (needed : Bool) (tys : List ElemTy) : Bool :=
  match findFieldByTtype x.ttypes s.toList with
  | some c => columnOf x c tys
  | none => !needed

/-- A check of the header of a compressed image. -/
def checkTile (p : Profile) (h : Header BinTable) (z : TileCompressedImage) : Bool :=
  (h.xtension.tforms.all fun f => match f with | .plain ty rep => decide (rep = 1 ∧ ty ≠ .X) | _ => true) &&
  decide (h.xtension.tforms ≠ []) && decide (h.xtension.naxis1 = total (h.xtension.tforms.map colBytes)) &&
  decide (h.xtension.naxis1 < 2 ^ 60) && decide (h.xtension.naxis1 * h.xtension.naxis2 < 2 ^ 60) &&
  decide (∀ n ∈ z.zTilen, 0 < n) && decide (product z.zTilen * 4 < 2 ^ 63) &&
  (match z.zCmpType with
    | .gzip1 | .gzip2 => true
    | .rice b => decide (p = .wrapping ∧ 0 < b ∧ product z.zTilen + b ≤ 2 ^ 31)
    | _ => false) &&
  (match h.xtension.tforms[z.dataCompressedIdx]? with
    | some (.P _) => true
    | some (.Q _) => decide (p = .wrapping)
    | _ => false) &&
  decide (p = .wrapping ∨ h.xtension.theap < 2 ^ 60) && decide (z.zBitpix ≠ .i64) &&
  decide (p = .wrapping ∨ 0 ≤ z.zDither0.getD 0 ∧ z.zDither0.getD 0 < 2 ^ 63) &&
  (!decide (IsFloat z.zBitpix) || namedBy h.xtension "ZSCALE" true [.E, .D] && namedBy h.xtension "ZZERO" true [.E, .D] &&
    namedBy h.xtension "ZBLANK" false [.B, .I, .J, .K])

theorem namedBy_some {s : String} {needed : Bool} {tys : List ElemTy} (h : namedBy x s needed tys = true) :
    (needed = true → ∃ c, Selects x (.name s.toList) c ∧ ColumnOf x c tys) ∧
      ∀ c, Selects x (.name s.toList) c → ColumnOf x c tys := by
  unfold namedBy at h
  cases hc : findFieldByTtype x.ttypes s.toList with
  | none =>
    rw [hc] at h
    refine ⟨fun hn => (by rw [hn] at h; cases h), fun c hs => ?_⟩
    have := findField_iff.2 hs
    rw [hc] at this
    cases this
  | some c =>
    rw [hc] at h
    have h := columnOf_ok h
    refine ⟨fun _ => ⟨c, findField_iff.1 hc, h⟩, fun d hs => ?_⟩
    have := findField_iff.2 hs
    rw [hc] at this
    cases this
    exact h

theorem checkTile_ok {h : Header BinTable} {z : TileCompressedImage} (e : checkTile p h z = true) : TileSound p h z := by
  unfold checkTile at e
  simp only [Bool.and_eq_true] at e
  obtain ⟨⟨⟨⟨⟨⟨⟨⟨⟨⟨⟨⟨h1, h2⟩, h3⟩, h4⟩, h5⟩, h6⟩, h7⟩, h8⟩, h9⟩, h10⟩, h11⟩, h12⟩, h13⟩ := e
  have fl : IsFloat z.zBitpix → namedBy h.xtension "ZSCALE" true [.E, .D] = true ∧
      namedBy h.xtension "ZZERO" true [.E, .D] = true ∧ namedBy h.xtension "ZBLANK" false [.B, .I, .J, .K] = true := by
    intro hf
    rw [decide_eq_true hf, Bool.not_true, Bool.false_or, Bool.and_eq_true, Bool.and_eq_true] at h13
    exact ⟨h13.1.1, h13.1.2, h13.2⟩
  refine ⟨⟨?_, of_decide_eq_true h2, of_decide_eq_true h3, of_decide_eq_true h4, of_decide_eq_true h5⟩, of_decide_eq_true h6,
    of_decide_eq_true h7, ?_, ?_, of_decide_eq_true h10, of_decide_eq_true h11, fun hf => (namedBy_some (fl hf).1).1 rfl,
    fun hf => (namedBy_some (fl hf).2.1).1 rfl, fun hf => (namedBy_some (fl hf).2.2).2, of_decide_eq_true h12⟩
  · intro ty rep hm
    have h1 := List.all_eq_true.1 h1 _ hm
    exact of_decide_eq_true h1
  · cases hc : z.zCmpType with
    | gzip1 => trivial
    | gzip2 => trivial
    | rice b => rw [hc] at h8; exact of_decide_eq_true h8
    | plio1 => rw [hc] at h8; cases h8
    | hcompress1 => rw [hc] at h8; cases h8
  · cases hd : h.xtension.tforms[z.dataCompressedIdx]? with
    | none => rw [hd] at h9; cases h9
    | some f =>
      rw [hd] at h9
      cases f with
      | plain ty rep => cases h9
      | P ty => exact Or.inl ⟨ty, rfl⟩
      | Q ty => exact Or.inr ⟨of_decide_eq_true h9, ty, rfl⟩

end Fitsrs

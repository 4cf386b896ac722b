import Verif.Spec.Table
import Verif.Lemmas.Extension
import Verif.Lemmas.Pixels
/-
Helper lemmas on the reading of binary tables.
-/

namespace Fitsrs
open Spec TableData

/-! ### Numbers -/

theorem i64op_ok {p : Profile} {x : Int} (h1 : -(2 ^ 63) ≤ x) (h2 : x < 2 ^ 63) : i64op p x = .ok x := by
  unfold i64op; rw [if_pos ⟨h1, h2⟩]

theorem asU64_nat {n : Nat} (h : n < 2 ^ 64) : asU64 (n : Int) = n := by
  unfold asU64; omega

theorem elemBytes_eq (t : ElemTy) : t.bytes = elemBytes t := by cases t <;> rfl

theorem elemBytes_pos (t : ElemTy) : 0 < elemBytes t := by cases t <;> decide

theorem elemBytes_le (t : ElemTy) : elemBytes t ≤ 16 := by cases t <;> decide

/-! ### Columns -/

theorem total_append (a b : List Nat) : total (a ++ b) = total a + total b := by
  induction a with
  | nil => simp [total]
  | cons x a ih =>
    have : total (x :: a ++ b) = x + total (a ++ b) := rfl
    rw [this, ih]
    have : total (x :: a) = x + total a := rfl
    omega

theorem total_take_le (l : List Nat) (c : Nat) : total (l.take c) ≤ total l := by
  conv => rhs; rw [← List.take_append_drop c l, total_append]
  omega

theorem total_take_mono (l : List Nat) {c d : Nat} (h : c ≤ d) : total (l.take c) ≤ total (l.take d) := by
  have := total_take_le (l.take d) c
  rw [List.take_take, Nat.min_eq_left h] at this
  exact this

theorem colStart_succ {ts : List TForm} {c : Nat} {t : TForm} (h : ts[c]? = some t) :
    colStart ts (c + 1) = colStart ts c + colBytes t := by
  unfold colStart
  have hc : (ts.map colBytes)[c]? = some (colBytes t) := by rw [List.getElem?_map, h]; rfl
  rw [List.take_add_one, hc, total_append]
  simp [total]

theorem colStart_mono {ts : List TForm} {c d : Nat} (h : c ≤ d) : colStart ts c ≤ colStart ts d :=
  total_take_mono _ h

theorem colStart_lt {ts : List TForm} {c d : Nat} {t : TForm} (h : ts[c]? = some t) (hcd : c < d) :
    colStart ts c + colBytes t ≤ colStart ts d := by
  rw [← colStart_succ h]; exact colStart_mono hcd

theorem colStart_le {ts : List TForm} {c : Nat} {t : TForm} (h : ts[c]? = some t) :
    colStart ts c + colBytes t ≤ total (ts.map colBytes) := by
  rw [← colStart_succ h]; exact total_take_le _ _

theorem numBytes_col {p : Profile} {t : TForm} (h : colBytes t < 2 ^ 60) : t.numBytes p = .ok (colBytes t) := by
  rw [colBytes_bits] at *
  have : t.numBits p = .ok t.bits := by
    cases t with
    | plain t r =>
      have e : (TForm.plain t r).bits = r * t.bits := rfl
      rw [e] at h ⊢
      show umul p r t.bits = _
      exact umul_ok (by unfold two64; omega)
    | P t => rfl
    | Q t => rfl
  unfold TForm.numBytes
  rw [this]
  rfl

theorem columnOffsets_ok {p : Profile} (ts : List TForm) (acc : Nat) (h : acc + total (ts.map colBytes) < 2 ^ 60) :
    ∃ os, columnOffsets p ts acc = .ok os ∧ os.length = ts.length ∧
      ∀ c < ts.length, os[c]? = some (acc + colStart ts c) := by
  induction ts generalizing acc with
  | nil => exact ⟨[], rfl, rfl, by simp⟩
  | cons t ts ih =>
    have e : total ((t :: ts).map colBytes) = colBytes t + total (ts.map colBytes) := rfl
    rw [e] at h
    obtain ⟨os, h1, h2, h3⟩ := ih (acc + colBytes t) (by omega)
    refine ⟨acc :: os, ?_, by simp [h2], ?_⟩
    · rw [columnOffsets, numBytes_col (by omega)]
      simp only [Res.bind_ok]
      rw [uadd_ok (by unfold two64; omega)]
      simp only [Res.bind_ok]
      rw [h1]
      rfl
    · intro c hc
      cases c with
      | zero => simp [colStart, total]
      | succ c =>
        rw [List.getElem?_cons_succ, h3 c (by simpa using hc)]
        have : colStart (t :: ts) (c + 1) = colBytes t + colStart ts c := rfl
        rw [this, Nat.add_assoc]

/-! ### States -/

/-- A table with its file. -/
structure Tab where
  p : Profile
  x : BinTable
  data : List UInt8
  start : Nat
  cols : List Nat
  heap : Bool
  offsets : List Nat

namespace Tab

/-- The bytes from the start of the data unit. -/
def unit (T : Tab) : List UInt8 := T.data.drop T.start

/-- What is assumed of it. -/
structure Ok (T : Tab) : Prop where
  readable : Readable T.heap T.x T.data T.start T.cols
  offsets : ∀ c < T.x.tforms.length, T.offsets[c]? = some (colStart T.x.tforms c)

/-- The reader in the main table at offset `bo`, in row `r` and `k`-th selected column. -/
def main (T : Tab) (r k i bo : Nat) : TableData :=
  { rd := ⟨T.data, T.start + bo⟩, inHeap := none, cols := T.cols, offsets := T.offsets, ctx := T.x, col := k
    item := i, byteOffset := bo, mainSize := T.x.naxis1 * T.x.naxis2, startPos := T.start, seekFirst := false
    row := r, heap := T.heap }

/-- The reader in the heap before element `i` of the array `(num, offset)`. -/
def inHeap (T : Tab) (r k bo : Nat) (ty : ElemTy) (num offset i : Nat) : TableData :=
  { T.main r k 0 bo with
    rd := ⟨T.data, T.start + (T.x.theap + offset + i * elemBytes ty)⟩
    inHeap := some { ty, mainPos := T.start + bo, left := (num - i) * elemBytes ty, num, size := elemBytes ty } }

/-- Offset of a cell. -/
def cellStart (T : Tab) (r c : Nat) : Nat := r * T.x.naxis1 + colStart T.x.tforms c

/-- The table is about to read value `i` of the cell at row `r` and column `c`, the `k`-th selected one. -/
def At (T : Tab) (r k c i : Nat) (t : TableData) : Prop :=
  match T.x.tforms[c]? with
  | some (.plain ty _) => t = T.main r k i (T.cellStart r c + i * elemBytes ty)
  | some (.P ty) =>
    if i = 0 then t = T.main r k 0 (T.cellStart r c)
    else T.heap = true ∧ t = T.inHeap r k (T.cellStart r c + 8) ty (beNat (bytesAt T.unit (T.cellStart r c) 4))
      (beNat (bytesAt T.unit (T.cellStart r c + 4) 4)) i
  | some (.Q ty) =>
    if i = 0 then t = T.main r k 0 (T.cellStart r c)
    else T.heap = true ∧ t = T.inHeap r k (T.cellStart r c + 16) ty (beNat (bytesAt T.unit (T.cellStart r c) 8))
      (beNat (bytesAt T.unit (T.cellStart r c + 8) 8)) i
  | none => False

/-- All the rows have been read. -/
def Fin (T : Tab) (t : TableData) : Prop :=
  ∃ k i, k < T.cols.length ∧ t = T.main T.x.naxis2 k i (T.x.naxis1 * T.x.naxis2)

/-- The cell at row `r` in the `k`-th selected column has been read. -/
def After (T : Tab) (r k : Nat) (t : TableData) : Prop :=
  if h : k + 1 < T.cols.length then T.At r (k + 1) T.cols[k + 1] 0 t
  else if r + 1 < T.x.naxis2 then ∃ h : 0 < T.cols.length, T.At (r + 1) 0 T.cols[0] 0 t
  else T.Fin t

theorem At_zero {T : Tab} {r k c : Nat} (h : c < T.x.tforms.length) (t : TableData) :
    T.At r k c 0 t ↔ t = T.main r k 0 (T.cellStart r c) := by
  unfold At
  rw [List.getElem?_eq_getElem h]
  cases T.x.tforms[c] with
  | plain ty rep => simp
  | P ty => simp
  | Q ty => simp

/-- What is assumed of it whatever its cells are. -/
structure Pre (T : Tab) : Prop where
  width : T.x.naxis1 = total (T.x.tforms.map colBytes)
  small : T.x.naxis1 < 2 ^ 60
  file : T.data.length < 2 ^ 60
  size : T.start + T.x.naxis1 * T.x.naxis2 < 2 ^ 60
  increasing : T.cols.Pairwise (· < ·)
  valid : ∀ c ∈ T.cols, c < T.x.tforms.length
  offsets : ∀ c < T.x.tforms.length, T.offsets[c]? = some (colStart T.x.tforms c)

theorem Ok.pre {T : Tab} (h : T.Ok) : T.Pre :=
  ⟨h.readable.width, h.readable.small, h.readable.file, h.readable.size, h.readable.increasing, h.readable.valid,
    h.offsets⟩

instance {T : Tab} : CoeOut T.Ok T.Pre := ⟨Ok.pre⟩

theorem Pre.form {T : Tab} (h : T.Pre) {c : Nat} (hc : c ∈ T.cols) : ∃ f, T.x.tforms[c]? = some f :=
  ⟨_, List.getElem?_eq_getElem (h.valid c hc)⟩

theorem Ok.form {T : Tab} (h : T.Ok) {c : Nat} (hc : c ∈ T.cols) : ∃ f, T.x.tforms[c]? = some f :=
  h.pre.form hc

theorem cell_bytes {heap : Bool} {x : BinTable} {unit : List UInt8} {r c : Nat} {f : TForm}
    (h : CellIn heap x unit r c) (hf : x.tforms[c]? = some f) : 0 < colBytes f := by
  unfold CellIn at h
  rw [hf] at h
  cases f with
  | plain ty rep =>
    dsimp only at h
    have h1 := h.1
    have h3 := Nat.mul_pos h1 (elemBytes_pos ty)
    cases ty <;> first | exact h3 | (show 0 < (rep + 7) / 8; omega)
  | P ty => simp [colBytes]
  | Q ty => simp [colBytes]
theorem Ok.pos {T : Tab} (h : T.Ok) {r c : Nat} (hr : r < T.x.naxis2) (hc : c ∈ T.cols) {f : TForm}
    (hf : T.x.tforms[c]? = some f) : 0 < colBytes f := cell_bytes (h.readable.cells r hr c hc) hf

end Tab

theorem seekRelative_nat {rd : Reader} {off : Int} (n : Nat) (h : (rd.pos : Int) + off = n) (hn : n < two64) :
    rd.seekRelative off = (.ok (), { rd with pos := n }) := by
  unfold Reader.seekRelative
  rw [h, if_pos ⟨Int.natCast_nonneg _, Int.ofNat_lt.2 hn⟩]
  rfl

theorem advance_ok {p : Profile} {t : TableData} {off : Int} {u : Nat} {rd : Reader}
    (h1 : t.rd.seekRelative off = (.ok (), rd)) (h2 : uadd p t.byteOffset (asU64 off) = .ok u) :
    t.advance p off = (.ok (), { t with rd, byteOffset := u }) := by
  unfold TableData.advance
  rw [h1]
  dsimp only
  rw [h2]

theorem uadd_asU64 {p : Profile} {a b : Nat} (h : a + b < 2 ^ 62) : uadd p a (asU64 (b : Int)) = .ok (a + b) := by
  rw [asU64_nat (by omega), uadd_ok (by unfold two64; omega)]

theorem advance_nat {p : Profile} {t : TableData} {off : Nat} (h1 : t.rd.pos + off < 2 ^ 62)
    (h2 : t.byteOffset + off < 2 ^ 62) :
    t.advance p (off : Int) =
      (.ok (), { t with rd := { t.rd with pos := t.rd.pos + off }, byteOffset := t.byteOffset + off }) :=
  advance_ok (seekRelative_nat (t.rd.pos + off) (by omega) (by unfold two64; omega)) (uadd_asU64 h2)

/-- Seeking forward. -/
theorem advance_main {T : Tab} {r k i bo off : Nat} (h : T.start + bo + off < 2 ^ 62) :
    (T.main r k i bo).advance T.p (off : Int) = (.ok (), T.main r k i (bo + off)) := by
  have h1 : (T.main r k i bo).rd.pos = T.start + bo := rfl
  have h2 : (T.main r k i bo).byteOffset = bo := rfl
  rw [advance_nat (by omega) (by omega), h1, h2, Nat.add_assoc]
  rfl

theorem sub_asI64 {a b : Nat} (h : b ≤ a) (ha : a < 2 ^ 62) (p : Profile) :
    i64op p (asI64 a - asI64 b) = .ok ((a - b : Nat) : Int) := by
  rw [asI64_lt (by omega), asI64_lt (by omega), i64op_ok (by omega) (by omega)]
  congr 1
  omega

/-- The relative offset to the next cell. -/
theorem nextOffset_main {T : Tab} (hT : T.Pre) {r k i bo c s : Nat} (hk : T.cols[k]? = some c)
    (hc : c < T.x.tforms.length) (hs : s = colStart T.x.tforms c) (hbo : bo < 2 ^ 62) (hN : 0 < T.x.naxis1)
    (hsN : s ≤ T.x.naxis1) :
    ∃ off : Nat, (T.main r k i bo).nextOffset T.p k = .ok (off : Int) ∧ off ≤ T.x.naxis1 ∧
      (bo % T.x.naxis1 ≤ s → off + bo % T.x.naxis1 = s) ∧
      (s < bo % T.x.naxis1 → off + bo % T.x.naxis1 = s + T.x.naxis1) := by
  have hsm := hT.small
  have hm : bo % T.x.naxis1 < T.x.naxis1 := Nat.mod_lt _ hN
  unfold TableData.nextOffset
  rw [show (T.main r k i bo).cols[k]? = some c from hk]
  dsimp only
  rw [show (T.main r k i bo).offsets[c]? = some s from hs ▸ hT.offsets c hc]
  dsimp only
  rw [if_neg (show ¬ (T.main r k i bo).ctx.naxis1 = 0 from by show ¬ T.x.naxis1 = 0; omega)]
  dsimp only [Tab.main]
  rw [asI64_lt (n := s) (by omega), asI64_lt (n := bo) (by omega), asI64_lt (n := T.x.naxis1) (by omega),
    ← Int.ofNat_tmod]
  rw [i64op_ok (by omega) (by omega)]
  simp only [Res.bind_ok]
  by_cases hle : bo % T.x.naxis1 ≤ s
  · rw [if_neg (by omega)]
    exact ⟨s - bo % T.x.naxis1, by congr 1; omega, by omega, by omega, by omega⟩
  · rw [if_pos (by omega), i64op_ok (by omega) (by omega)]
    exact ⟨s + T.x.naxis1 - bo % T.x.naxis1, by congr 1; omega, by omega, by omega, by omega⟩

theorem seekNext_same {p : Profile} (lr : Bool) (t : TableData) {c : Nat} {off : Nat}
    (hc : (t.col + 1) % t.cols.length = c)
    (h : ({ t with col := c, item := 0 } : TableData).nextOffset p c = .ok (off : Int)) :
    t.seekNext p false lr = ({ t with col := c, item := 0 } : TableData).advance p off := by
  unfold TableData.seekNext
  subst hc
  simp only [Bool.false_and, Bool.false_eq_true, if_false]
  rw [h]

theorem seekNext_row {p : Profile} (t : TableData) {c : Nat} {off : Nat} (hc : (t.col + 1) % t.cols.length = c)
    (h : ({ t with row := t.row + 1, col := c, item := 0 } : TableData).nextOffset p c = .ok (off : Int)) :
    t.seekNext p true false = ({ t with row := t.row + 1, col := c, item := 0 } : TableData).advance p off := by
  unfold TableData.seekNext
  subst hc
  simp only [Bool.and_false, Bool.false_eq_true, if_false, if_true]
  rw [h]

theorem seekNext_end {p : Profile} (t : TableData) {off : Nat}
    (h : i64op p (asI64 t.mainSize - asI64 t.byteOffset) = .ok (off : Int)) :
    t.seekNext p true true = ({ t with row := t.row + 1 } : TableData).advance p off := by
  unfold TableData.seekNext
  simp only [Bool.and_true, if_true]
  rw [h]

/-- The next selected column does not start at the end of the row, as one of width 0 might. -/
def Tab.Next (T : Tab) (k : Nat) : Prop :=
  ∀ h : k + 1 < T.cols.length, colStart T.x.tforms T.cols[k + 1] < T.x.naxis1

/-- Going to the next cell. -/
theorem seekToNextCol_main {T : Tab} (hT : T.Pre) {r k c it : Nat} {f : TForm} (hr : r < T.x.naxis2)
    (hk : T.cols[k]? = some c) (hf : T.x.tforms[c]? = some f) (hpos : 0 < colBytes f) (hnx : T.Next k) :
    ∃ t, (T.main r k it (T.cellStart r c + colBytes f)).seekToNextCol T.p = (.ok (), t) ∧ T.After r k t := by
  have hR := hT
  have hkl : k < T.cols.length := by
    rcases Nat.lt_or_ge k T.cols.length with h | h
    · exact h
    · rw [List.getElem?_eq_none h] at hk; cases hk
  have hck : T.cols[k] = c := by rw [List.getElem?_eq_getElem hkl] at hk; simpa using hk
  have hcm : c ∈ T.cols := by rw [← hck]; exact List.getElem_mem _
  have hle := colStart_le hf
  rw [← hR.width] at hle
  have hfile := hR.size
  have hrow : (r + 1) * T.x.naxis1 ≤ T.x.naxis1 * T.x.naxis2 := by
    rw [Nat.mul_comm T.x.naxis1]; exact Nat.mul_le_mul_right _ hr
  have hrs : (r + 1) * T.x.naxis1 = r * T.x.naxis1 + T.x.naxis1 := Nat.succ_mul _ _
  unfold TableData.seekToNextCol
  have e1 : usub T.p (T.main r k it (T.cellStart r c + colBytes f)).cols.length 1 = .ok (T.cols.length - 1) :=
    usub_ok (by show 1 ≤ T.cols.length; omega)
  have e2 : usub T.p (T.main r k it (T.cellStart r c + colBytes f)).ctx.naxis2 1 = .ok (T.x.naxis2 - 1) :=
    usub_ok (by show 1 ≤ T.x.naxis2; omega)
  rw [e1, e2]
  dsimp only
  show ∃ t, (T.main r k it (T.cellStart r c + colBytes f)).seekNext T.p (k == T.cols.length - 1)
    (r == T.x.naxis2 - 1) = (.ok (), t) ∧ T.After r k t
  unfold Tab.cellStart
  by_cases hlast : k + 1 < T.cols.length
  · -- same row
    have hkb : (k == T.cols.length - 1) = false := by simp; omega
    have hc' : T.cols[k + 1] ∈ T.cols := List.getElem_mem _
    have hlt : c < T.cols[k + 1] := by
      rw [← hck]; exact (List.pairwise_iff_getElem.1 hR.increasing) k (k + 1) hkl hlast (by omega)
    obtain ⟨f', hf'⟩ := hT.form hc'
    have hs' := colStart_lt hf hlt
    have hle' := colStart_le hf'
    rw [← hR.width] at hle'
    have hpos' := hnx hlast
    have hmod : (r * T.x.naxis1 + colStart T.x.tforms c + colBytes f) % T.x.naxis1 =
        colStart T.x.tforms c + colBytes f := by
      rw [Nat.add_assoc, Nat.add_comm, Nat.add_mul_mod_self_right, Nat.mod_eq_of_lt (by omega)]
    obtain ⟨off, g1, g2, g3, -⟩ := nextOffset_main (r := r) (k := k + 1) (i := 0)
      (bo := r * T.x.naxis1 + colStart T.x.tforms c + colBytes f) hT
      (List.getElem?_eq_getElem hlast) (hR.valid _ hc') rfl (by omega) (by omega) (by omega)
    rw [hmod] at g3
    have := g3 (by omega)
    rw [hkb, seekNext_same _ (T.main r k it _) (c := k + 1) (Nat.mod_eq_of_lt hlast) g1]
    refine ⟨_, advance_main (T := T) (r := r) (k := k + 1) (i := 0) (by omega), ?_⟩
    unfold Tab.After
    rw [dif_pos hlast, Tab.At_zero (hR.valid _ hc')]
    unfold Tab.cellStart
    congr 1
    omega
  · have hkb : (k == T.cols.length - 1) = true := by simp; omega
    have hcm0 : T.cols[0]'(by omega) ∈ T.cols := List.getElem_mem _
    by_cases hrl : r + 1 < T.x.naxis2
    · -- next row
      have hrb : (r == T.x.naxis2 - 1) = false := by simp; omega
      have hle0 : T.cols[0]'(by omega) ≤ c := by
        rcases Nat.eq_zero_or_pos k with h0 | h0
        · subst h0; omega
        · rw [← hck]; exact Nat.le_of_lt ((List.pairwise_iff_getElem.1 hR.increasing) 0 k (by omega) hkl h0)
      have hs0 := colStart_mono (ts := T.x.tforms) hle0
      obtain ⟨off, g1, g2, g3, g4⟩ := nextOffset_main (r := r + 1) (k := 0) (i := 0)
        (bo := r * T.x.naxis1 + colStart T.x.tforms c + colBytes f) hT
        (List.getElem?_eq_getElem (by omega)) (hR.valid _ hcm0) rfl (by omega) (by omega) (by omega)
      have hnew : r * T.x.naxis1 + colStart T.x.tforms c + colBytes f + off =
          (r + 1) * T.x.naxis1 + colStart T.x.tforms (T.cols[0]'(by omega)) := by
        rcases Nat.lt_or_ge (colStart T.x.tforms c + colBytes f) T.x.naxis1 with hlt | hge
        · have hmod : (r * T.x.naxis1 + colStart T.x.tforms c + colBytes f) % T.x.naxis1 =
              colStart T.x.tforms c + colBytes f := by
            rw [Nat.add_assoc, Nat.add_comm, Nat.add_mul_mod_self_right, Nat.mod_eq_of_lt (by omega)]
          rw [hmod] at g4
          have := g4 (by omega)
          omega
        · have hmod : (r * T.x.naxis1 + colStart T.x.tforms c + colBytes f) % T.x.naxis1 = 0 := by
            have : r * T.x.naxis1 + colStart T.x.tforms c + colBytes f = (r + 1) * T.x.naxis1 := by omega
            rw [this, Nat.mul_mod_left]
          rw [hmod] at g3
          have := g3 (by omega)
          omega
      have hz : (k + 1) % T.cols.length = 0 := by rw [show k + 1 = T.cols.length by omega, Nat.mod_self]
      rw [hkb, hrb, seekNext_row (T.main r k it _) (c := 0) hz g1]
      refine ⟨_, advance_main (T := T) (r := r + 1) (k := 0) (i := 0) (by omega), ?_⟩
      unfold Tab.After
      rw [dif_neg hlast, if_pos hrl]
      refine ⟨by omega, ?_⟩
      rw [Tab.At_zero (hR.valid _ hcm0), hnew]
      rfl
    · -- end of the table
      have hrb : (r == T.x.naxis2 - 1) = true := by simp; omega
      rw [hkb, hrb, seekNext_end (T.main r k it _) (sub_asI64 (a := T.x.naxis1 * T.x.naxis2)
        (b := r * T.x.naxis1 + colStart T.x.tforms c + colBytes f) (by omega) (by omega) T.p)]
      refine ⟨_, advance_main (T := T) (r := r + 1) (k := k) (i := it) (by omega), ?_⟩
      unfold Tab.After
      rw [dif_neg hlast, if_neg hrl]
      refine ⟨k, it, hkl, ?_⟩
      rw [show r + 1 = T.x.naxis2 by omega]
      congr 1
      omega


/-! ### Reading a value -/

theorem colBytes_plain {ty : ElemTy} {rep : Nat} : colBytes (.plain ty rep) = count ty rep * elemBytes ty := by
  cases ty <;> first | rfl | exact (Nat.mul_one _).symm

theorem itemCount_eq {ty : ElemTy} {rep : Nat} (h : ty = .X → rep % 8 ≠ 0) : itemCount ty rep = count ty rep := by
  cases ty <;> first | rfl | (have := h rfl; show rep / 8 + 1 = (rep + 7) / 8; omega)

theorem count_pos {ty : ElemTy} {rep : Nat} (h : 0 < rep) : 0 < count ty rep := by
  cases ty <;> first | exact h | (show 0 < (rep + 7) / 8; omega)

theorem read_unit {data : List UInt8} {start o n : Nat} (h : start + o + n ≤ data.length) :
    (Reader.mk data (start + o)).readExact n = (.ok (bytesAt (data.drop start) o n), ⟨data, start + (o + n)⟩) := by
  rw [Reader.readExact_of_le (by exact h)]
  unfold bytesAt
  rw [List.drop_drop, Nat.add_assoc]

theorem finish_ok {p : Profile} {v : DataValue} {t t' : TableData} (h : t.seekToNextCol p = (.ok (), t')) :
    TableData.finish v (t.seekToNextCol p) = (.ok (some v), t') := by
  rw [h]; rfl

theorem elements_get {unit : List UInt8} {ty : ElemTy} {c o n i : Nat}
    (h : i < (elements unit ty c o n).length) :
    (elements unit ty c o n)[i] =
      .cell c i (Cell.ofBytes ty (bytesAt unit (o + i * elemBytes ty) (elemBytes ty))) := by
  simp [elements]

theorem elements_length {unit : List UInt8} {ty : ElemTy} {c o n : Nat} : (elements unit ty c o n).length = n := by
  unfold elements; simp

/-- What is known of a cell of the table. -/
theorem Tab.Pre.cell {T : Tab} (hT : T.Pre) {r c : Nat} {f : TForm} (hr : r < T.x.naxis2)
    (hf : T.x.tforms[c]? = some f) :
    T.cellStart r c + colBytes f ≤ T.x.naxis1 * T.x.naxis2 := by
  have hle := colStart_le hf
  rw [← hT.width] at hle
  have hrow : (r + 1) * T.x.naxis1 ≤ T.x.naxis1 * T.x.naxis2 := by
    rw [Nat.mul_comm T.x.naxis1]; exact Nat.mul_le_mul_right _ hr
  have hrs : (r + 1) * T.x.naxis1 = r * T.x.naxis1 + T.x.naxis1 := Nat.succ_mul _ _
  unfold Tab.cellStart
  omega

theorem Tab.Ok.cell {T : Tab} (hT : T.Ok) {r c : Nat} {f : TForm} (hr : r < T.x.naxis2)
    (hf : T.x.tforms[c]? = some f) :
    T.cellStart r c + colBytes f ≤ T.x.naxis1 * T.x.naxis2 := hT.pre.cell hr hf

theorem mem_cols {T : Tab} {k c : Nat} (hk : T.cols[k]? = some c) : c ∈ T.cols := List.mem_of_getElem? hk

/-- After the last value of the cell at row `r` and column `c`, the `k`-th selected one, the reader goes to a state
where `A` holds. -/
def Tab.Leads (T : Tab) (r k c : Nat) (A : TableData → Prop) : Prop :=
  ∀ it f, T.x.tforms[c]? = some f →
    ∃ t, (T.main r k it (T.cellStart r c + colBytes f)).seekToNextCol T.p = (.ok (), t) ∧ A t

theorem Tab.Pre.leads {T : Tab} (hT : T.Pre) {r k c : Nat} (hr : r < T.x.naxis2) (hk : T.cols[k]? = some c)
    (hpos : ∀ f, T.x.tforms[c]? = some f → 0 < colBytes f) (hnx : T.Next k) : T.Leads r k c (T.After r k) :=
  fun _ _ hf => seekToNextCol_main hT hr hk hf (hpos _ hf) hnx

theorem Tab.Ok.next {T : Tab} (hT : T.Ok) {r : Nat} (hr : r < T.x.naxis2) (k : Nat) : T.Next k := by
  intro h
  have hc' : T.cols[k + 1] ∈ T.cols := List.getElem_mem _
  obtain ⟨f', hf'⟩ := hT.form hc'
  have hle' := colStart_le hf'
  rw [← hT.readable.width] at hle'
  have := hT.pos hr hc' hf'
  omega

theorem Tab.Ok.leads {T : Tab} (hT : T.Ok) {r k c : Nat} (hr : r < T.x.naxis2) (hk : T.cols[k]? = some c) :
    T.Leads r k c (T.After r k) :=
  hT.pre.leads hr hk (fun _ hf => hT.pos hr (mem_cols hk) hf) (hT.next hr k)

/-- Reading a plain value. -/
theorem nextPlain_main {T : Tab} (hT : T.Pre) {A : TableData → Prop} {r k c i rep : Nat} {ty : ElemTy} (hr : r < T.x.naxis2)
    (hk : T.cols[k]? = some c) (hA : T.Leads r k c A) (hf : T.x.tforms[c]? = some (.plain ty rep)) (hi : i < count ty rep)
    (hX : ty = .X → rep % 8 ≠ 0)
    (hread : T.start + (T.cellStart r c + i * elemBytes ty) + elemBytes ty ≤ T.data.length) :
    ∃ t', (T.main r k i (T.cellStart r c + i * elemBytes ty)).nextPlain T.p c ty rep =
        (.ok (some (.cell c i (Cell.ofBytes ty
          (bytesAt T.unit (T.cellStart r c + i * elemBytes ty) (elemBytes ty))))), t') ∧
      (if i + 1 < count ty rep then t' = T.main r k (i + 1) (T.cellStart r c + (i + 1) * elemBytes ty) else A t') := by
  have hcell := hT.cell hr hf
  rw [colBytes_plain] at hcell
  have hsz : (i + 1) * elemBytes ty ≤ count ty rep * elemBytes ty := Nat.mul_le_mul_right _ hi
  rw [Nat.succ_mul] at hsz
  unfold TableData.nextPlain
  rw [elemBytes_eq, show (T.main r k i (T.cellStart r c + i * elemBytes ty)).rd.readExact (elemBytes ty) = _ from
    read_unit hread]
  dsimp only
  rw [itemCount_eq hX]
  show ∃ t', (if i + 1 = count ty rep then TableData.finish _
      ((T.main r k (i + 1) (T.cellStart r c + i * elemBytes ty + elemBytes ty)).seekToNextCol T.p)
    else (.ok (some _), T.main r k (i + 1) (T.cellStart r c + i * elemBytes ty + elemBytes ty))) = _ ∧ _
  rw [Nat.add_assoc (T.cellStart r c), ← Nat.succ_mul]
  by_cases hlast : i + 1 = count ty rep
  · have hst2 : T.cellStart r c + (i + 1) * elemBytes ty = T.cellStart r c + colBytes (.plain ty rep) := by
      rw [colBytes_plain, hlast]
    obtain ⟨t', h1, h2⟩ := hA (i + 1) _ hf
    rw [← hst2] at h1
    refine ⟨t', ?_, by rw [if_neg (by omega)]; exact h2⟩
    rw [if_pos hlast]
    exact finish_ok h1
  · rw [if_neg hlast]
    exact ⟨_, rfl, by rw [if_pos (by omega)]⟩

/-- Reading a value in the heap. -/
theorem nextInHeap_main {T : Tab} (hT : T.Pre) {A : TableData → Prop} {r k c w num offset i : Nat} {f : TForm} {ty : ElemTy}
    (hr : r < T.x.naxis2) (hk : T.cols[k]? = some c) (hA : T.Leads r k c A) (hf : T.x.tforms[c]? = some f) (hw : colBytes f = w)
    (hi : i < num) (hin : T.x.theap + offset + num * elemBytes ty ≤ T.unit.length) :
    ∃ t', (T.inHeap r k (T.cellStart r c + w) ty num offset i).nextInHeap T.p c
        { ty, mainPos := T.start + (T.cellStart r c + w), left := (num - i) * elemBytes ty, num, size := elemBytes ty } =
        (.ok (some (.cell c i (Cell.ofBytes ty
          (bytesAt T.unit (T.x.theap + offset + i * elemBytes ty) (elemBytes ty))))), t') ∧
      (if i + 1 < num then t' = T.inHeap r k (T.cellStart r c + w) ty num offset (i + 1) else A t') := by
  have hp := elemBytes_pos ty
  have hsz : (i + 1) * elemBytes ty ≤ num * elemBytes ty := Nat.mul_le_mul_right _ hi
  rw [Nat.succ_mul] at hsz
  have hunit : T.unit.length = T.data.length - T.start := List.length_drop
  unfold TableData.nextInHeap
  dsimp only
  rw [Nat.mul_div_cancel _ hp, usub_ok (by omega)]
  dsimp only
  rw [elemBytes_eq, show (T.inHeap r k (T.cellStart r c + w) ty num offset i).rd.readExact (elemBytes ty) = _ from
    read_unit (by omega)]
  dsimp only
  have hleft : (num - i) * elemBytes ty = (num - (i + 1)) * elemBytes ty + elemBytes ty := by
    rw [show num - i = (num - (i + 1)) + 1 by omega, Nat.succ_mul]
  rw [hleft, usub_ok (by omega), Nat.add_sub_cancel, show num - (num - i) = i by omega]
  dsimp only
  by_cases hlast : i + 1 = num
  · obtain ⟨t', h1, h2⟩ := hA 0 _ hf
    rw [hw] at h1
    refine ⟨t', ?_, by rw [if_neg (by omega)]; exact h2⟩
    rw [if_pos (by rw [hlast, Nat.sub_self, Nat.zero_mul])]
    exact finish_ok h1
  · have : 0 < (num - (i + 1)) * elemBytes ty := Nat.mul_pos (by omega) hp
    rw [if_neg (by omega)]
    refine ⟨_, rfl, ?_⟩
    rw [if_pos (by omega)]
    unfold Tab.inHeap
    rw [Nat.succ_mul, ← Nat.add_assoc (T.x.theap + offset)]

theorem jumpToHeap_ok {p : Profile} {t : TableData} {ty : ElemTy} {offset num size : Nat} (n : Nat)
    (h0 : t.inHeap = none) (h1 : t.byteOffset < 2 ^ 62) (h2 : t.ctx.theap + offset < 2 ^ 62)
    (h3 : t.rd.pos + t.ctx.theap + offset = n + t.byteOffset) (h4 : n < 2 ^ 63) (h5 : num * size < 2 ^ 63) :
    t.jumpToHeap p ty offset num size = (.ok (), { t with
      rd := { t.rd with pos := n }
      inHeap := some { ty, mainPos := t.rd.pos, left := num * size, num, size } }) := by
  have hoff : heapOffset p t.byteOffset t.ctx.theap offset =
      .ok (- (t.byteOffset : Int) + (t.ctx.theap : Int) + (offset : Int)) := by
    unfold heapOffset
    rw [asI64_lt (by omega), asI64_lt (by omega), asI64_lt (by omega), i64op_ok (by omega) (by omega)]
    simp only [Res.bind_ok]
    rw [i64op_ok (by omega) (by omega)]
    simp only [Res.bind_ok]
    rw [i64op_ok (by omega) (by omega)]
  have hseek : t.rd.seekRelative (- (t.byteOffset : Int) + (t.ctx.theap : Int) + (offset : Int)) =
      (.ok (), { t.rd with pos := n }) := seekRelative_nat n (by omega) (by unfold two64; omega)
  have hmul : umul p num size = .ok (num * size) := umul_ok (by unfold two64; omega)
  unfold TableData.jumpToHeap
  rw [h0]
  dsimp only
  rw [hoff]
  dsimp only
  rw [hseek]
  dsimp only
  rw [hmul]

/-- Reading an array descriptor. -/
theorem nextArray_main {T : Tab} (hT : T.Pre) {A : TableData → Prop} {r k c d : Nat} {f : TForm} {ty : ElemTy} {mk : Nat → Nat → DataValue}
    (hr : r < T.x.naxis2) (hk : T.cols[k]? = some c) (hA : T.Leads r k c A) (hf : T.x.tforms[c]? = some f) (hd : colBytes f = d + d)
    (hin : T.heap = true → ArrayIn T.unit ty T.x.theap d (T.cellStart r c))
    (h0 : 0 < (arrayValues T.heap T.unit ty T.x.theap c d (T.cellStart r c) mk).length)
    (hmain : T.start + T.x.naxis1 * T.x.naxis2 ≤ T.data.length) :
    ∃ t', (T.main r k 0 (T.cellStart r c)).nextArray T.p c ty d mk =
        (.ok (some (arrayValues T.heap T.unit ty T.x.theap c d (T.cellStart r c) mk)[0]), t') ∧
      (if 1 < (arrayValues T.heap T.unit ty T.x.theap c d (T.cellStart r c) mk).length then
        T.heap = true ∧ t' = T.inHeap r k (T.cellStart r c + (d + d)) ty (beNat (bytesAt T.unit (T.cellStart r c) d))
          (beNat (bytesAt T.unit (T.cellStart r c + d) d)) 1
      else A t') := by
  have hcell := hT.cell hr hf
  rw [hd] at hcell
  have hfile := hT.file
  have htake : (bytesAt (T.data.drop T.start) (T.cellStart r c) (d + d)).take d =
      bytesAt T.unit (T.cellStart r c) d := by
    unfold bytesAt Tab.unit
    rw [List.take_take, Nat.min_eq_left (by omega)]
  have hdrop : (bytesAt (T.data.drop T.start) (T.cellStart r c) (d + d)).drop d =
      bytesAt T.unit (T.cellStart r c + d) d := by
    unfold bytesAt Tab.unit
    rw [List.drop_take, Nat.add_sub_cancel, List.drop_drop]
  unfold TableData.nextArray
  rw [show (T.main r k 0 (T.cellStart r c)).rd.readExact (d + d) = _ from read_unit (by omega)]
  dsimp only
  rw [htake, hdrop]
  unfold ArrayIn at hin
  unfold arrayValues at h0 ⊢
  dsimp only at h0 ⊢
  generalize beNat (bytesAt T.unit (T.cellStart r c) d) = num at *
  generalize beNat (bytesAt T.unit (T.cellStart r c + d) d) = offset at *
  rw [elemBytes_eq]
  by_cases hh : T.heap = true
  · simp only [if_pos hh] at h0 ⊢
    rw [if_pos (by exact hh)]
    obtain ⟨hnum, hlen⟩ := hin hh
    have hunit : T.unit.length = T.data.length - T.start := List.length_drop
    have hj := jumpToHeap_ok (p := T.p) (t := T.main r k 0 (T.cellStart r c + (d + d))) (ty := ty) (offset := offset)
      (num := num) (size := elemBytes ty) (T.start + (T.x.theap + offset)) rfl
      (by show T.cellStart r c + (d + d) < _; omega) (by show T.x.theap + offset < _; omega)
      (by show T.start + (T.cellStart r c + (d + d)) + T.x.theap + offset =
            T.start + (T.x.theap + offset) + (T.cellStart r c + (d + d)); omega)
      (by omega) (by omega)
    obtain ⟨t', g1, g2⟩ := nextInHeap_main (i := 0) hT hr hk hA hf hd hnum hlen
    have hst : ({ T.main r k 0 (T.cellStart r c + (d + d)) with
        rd := ⟨T.data, T.start + (T.x.theap + offset)⟩
        inHeap := some { ty, mainPos := T.start + (T.cellStart r c + (d + d)), left := num * elemBytes ty, num
                         size := elemBytes ty } } : TableData) =
        T.inHeap r k (T.cellStart r c + (d + d)) ty num offset 0 := by
      unfold Tab.inHeap
      rw [Nat.zero_mul, Nat.sub_zero, Nat.add_zero]
    have hj' : (T.main r k 0 (T.cellStart r c + (d + d))).jumpToHeap T.p ty offset num (elemBytes ty) =
        (.ok (), T.inHeap r k (T.cellStart r c + (d + d)) ty num offset 0) := by rw [hj, ← hst]; rfl
    refine ⟨t', ?_, ?_⟩
    · show (match (T.main r k 0 (T.cellStart r c + (d + d))).jumpToHeap T.p ty offset num (elemBytes ty) with
        | (.ok _, t) => (match t.inHeap with
          | some h => t.nextInHeap T.p c h
          | none => (.ok none, t))
        | (.err _, t) => (.ok none, t)
        | (.panic, t) => (.panic, t)) = _
      rw [hj', elements_get]
      exact g1
    · rw [elements_length]
      by_cases h1 : 1 < num
      · rw [if_pos h1]; rw [if_pos h1] at g2; exact ⟨hh, g2⟩
      · rw [if_neg h1]; rw [if_neg h1] at g2; exact g2
  · simp only [if_neg hh] at h0 ⊢
    rw [if_neg (by exact hh)]
    obtain ⟨t', h1, h2⟩ := hA 0 _ hf
    rw [hd] at h1
    exact ⟨t', finish_ok h1, by rw [if_neg (by simp)]; exact h2⟩

theorem next_nextAt {T : Tab} {t : TableData} {k c : Nat} (hk : T.cols[k]? = some c) (h1 : t.cols = T.cols)
    (h2 : t.col = k) (h3 : t.seekFirst = false) : t.next T.p = t.nextAt T.p c := by
  unfold TableData.next
  rw [h1, h2, hk]
  dsimp only
  unfold TableData.toFirstCol
  rw [h3]
  rfl

/-- The part of `next` that depends on the format of the column. -/
def TableData.nextForm (p : Profile) (c : Nat) (t : TableData) : TForm → Res (Option DataValue) × TableData
  | .plain ty rep => t.nextPlain p c ty rep
  | .P ty => t.nextArray p c ty 4 .vla32
  | .Q ty => t.nextArray p c ty 8 .vla64

theorem nextAt_form {p : Profile} {t : TableData} {c : Nat} {f : TForm} (h1 : t.inHeap = none)
    (h2 : t.byteOffset ≠ t.mainSize) (h3 : t.ctx.tforms[c]? = some f) : t.nextAt p c = t.nextForm p c f := by
  unfold TableData.nextAt
  rw [h1]
  dsimp only
  rw [if_neg h2, h3]
  cases f <;> rfl

theorem nextAt_main {T : Tab} {r k c i bo : Nat} {f : TForm} (hf : T.x.tforms[c]? = some f)
    (h : bo < T.x.naxis1 * T.x.naxis2) : (T.main r k i bo).nextAt T.p c = (T.main r k i bo).nextForm T.p c f :=
  nextAt_form rfl (Nat.ne_of_lt h) hf

/-- Reading a value. -/
theorem next_at_pre {T : Tab} (hT : T.Pre) {A : TableData → Prop} {r k c i : Nat} {t : TableData} (hr : r < T.x.naxis2)
    (hin : CellIn T.heap T.x T.unit r c) (hk : T.cols[k]? = some c) (hA : T.Leads r k c A) (ht : T.At r k c i t) (hi : i < (cellValues T.heap T.x T.unit r c).length)
    (hmain : T.start + T.x.naxis1 * T.x.naxis2 ≤ T.data.length) :
    ∃ t', t.next T.p = (.ok (some (cellValues T.heap T.x T.unit r c)[i]), t') ∧
      (if i + 1 < (cellValues T.heap T.x T.unit r c).length then T.At r k c (i + 1) t' else A t') := by
  have hcm := mem_cols hk
  obtain ⟨f, hf⟩ := hT.form hcm
  have hcell := hT.cell hr hf
  have hpos := Tab.cell_bytes hin hf
  unfold Tab.At at *
  unfold CellIn at hin
  unfold cellValues at *
  simp only [hf] at ht hin hi ⊢
  cases f with
  | plain ty rep =>
    dsimp only at ht hin hi ⊢
    rw [elements_length] at hi ⊢
    rw [colBytes_plain] at hcell
    have hsz : (i + 1) * elemBytes ty ≤ count ty rep * elemBytes ty := Nat.mul_le_mul_right _ hi
    rw [Nat.succ_mul] at hsz
    have hsz0 := elemBytes_pos ty
    obtain ⟨t', h1, h2⟩ := nextPlain_main hT hr hk hA hf hi hin.2 (by omega)
    refine ⟨t', ?_, h2⟩
    subst ht
    rw [next_nextAt (T := T) hk rfl rfl rfl, nextAt_main hf (by omega), elements_get]
    exact h1
  | P ty =>
    dsimp only at ht hin hi ⊢
    by_cases h0 : i = 0
    · subst h0
      rw [if_pos rfl] at ht
      obtain ⟨t', h1, h2⟩ := nextArray_main (mk := .vla32) hT hr hk hA hf (d := 4) rfl hin hi hmain
      refine ⟨t', ?_, ?_⟩
      · subst ht
        rw [next_nextAt (T := T) hk rfl rfl rfl, nextAt_main hf (by omega)]
        exact h1
      · exact h2
    · rw [if_neg h0] at ht
      obtain ⟨hh, rfl⟩ := ht
      obtain ⟨-, hlen⟩ := hin hh
      unfold arrayValues at hi ⊢
      simp only [if_pos hh] at hi ⊢
      rw [elements_length] at hi ⊢
      obtain ⟨t', h1, h2⟩ := nextInHeap_main hT hr hk hA hf (w := 8) rfl hi hlen
      refine ⟨t', ?_, ?_⟩
      · rw [next_nextAt (T := T) hk rfl rfl rfl, elements_get]
        exact h1
      · rw [if_neg (Nat.succ_ne_zero i)]
        unfold Tab.cellStart at h2 ⊢
        by_cases hl : i + 1 < beNat (bytesAt T.unit (r * T.x.naxis1 + colStart T.x.tforms c) 4)
        · rw [if_pos hl]; rw [if_pos hl] at h2; exact ⟨hh, h2⟩
        · rw [if_neg hl]; rw [if_neg hl] at h2; exact h2
  | Q ty =>
    dsimp only at ht hin hi ⊢
    by_cases h0 : i = 0
    · subst h0
      rw [if_pos rfl] at ht
      obtain ⟨t', h1, h2⟩ := nextArray_main (mk := .vla64) hT hr hk hA hf (d := 8) rfl hin hi hmain
      refine ⟨t', ?_, ?_⟩
      · subst ht
        rw [next_nextAt (T := T) hk rfl rfl rfl, nextAt_main hf (by omega)]
        exact h1
      · exact h2
    · rw [if_neg h0] at ht
      obtain ⟨hh, rfl⟩ := ht
      obtain ⟨-, hlen⟩ := hin hh
      unfold arrayValues at hi ⊢
      simp only [if_pos hh] at hi ⊢
      rw [elements_length] at hi ⊢
      obtain ⟨t', h1, h2⟩ := nextInHeap_main hT hr hk hA hf (w := 16) rfl hi hlen
      refine ⟨t', ?_, ?_⟩
      · rw [next_nextAt (T := T) hk rfl rfl rfl, elements_get]
        exact h1
      · rw [if_neg (Nat.succ_ne_zero i)]
        unfold Tab.cellStart at h2 ⊢
        by_cases hl : i + 1 < beNat (bytesAt T.unit (r * T.x.naxis1 + colStart T.x.tforms c) 8)
        · rw [if_pos hl]; rw [if_pos hl] at h2; exact ⟨hh, h2⟩
        · rw [if_neg hl]; rw [if_neg hl] at h2; exact h2

/-- Reading a value. -/
theorem next_at {T : Tab} (hT : T.Ok) {r k c i : Nat} {t : TableData} (hr : r < T.x.naxis2)
    (hk : T.cols[k]? = some c) (ht : T.At r k c i t) (hi : i < (cellValues T.heap T.x T.unit r c).length)
    (hmain : T.start + T.x.naxis1 * T.x.naxis2 ≤ T.data.length) :
    ∃ t', t.next T.p = (.ok (some (cellValues T.heap T.x T.unit r c)[i]), t') ∧
      (if i + 1 < (cellValues T.heap T.x T.unit r c).length then T.At r k c (i + 1) t' else T.After r k t') :=
  next_at_pre hT.pre hr (hT.readable.cells r hr c (mem_cols hk)) hk (hT.leads hr hk) ht hi hmain

/-- Nothing is left after the last row. -/
theorem next_fin {T : Tab} {t : TableData} (ht : T.Fin t) : t.next T.p = (.ok none, t) := by
  obtain ⟨k, i, hk, rfl⟩ := ht
  unfold TableData.next
  rw [show (T.main T.x.naxis2 k i (T.x.naxis1 * T.x.naxis2)).cols[
    (T.main T.x.naxis2 k i (T.x.naxis1 * T.x.naxis2)).col]? = some T.cols[k] from List.getElem?_eq_getElem hk]
  show (T.main T.x.naxis2 k i (T.x.naxis1 * T.x.naxis2)).nextAt T.p T.cols[k] = _
  unfold TableData.nextAt
  rw [show (T.main T.x.naxis2 k i (T.x.naxis1 * T.x.naxis2)).inHeap = none from rfl]
  dsimp only
  rw [if_pos (by rfl)]


/-! ### Reading a table -/

theorem Tab.Ok.cell_pos {T : Tab} (hT : T.Ok) {r c : Nat} (hr : r < T.x.naxis2) (hc : c ∈ T.cols) :
    0 < (cellValues T.heap T.x T.unit r c).length := by
  obtain ⟨f, hf⟩ := hT.form hc
  have hin := hT.readable.cells r hr c hc
  unfold CellIn at hin
  unfold cellValues
  simp only [hf] at hin ⊢
  cases f with
  | plain ty rep => dsimp only at hin ⊢; rw [elements_length]; exact count_pos hin.1
  | P ty =>
    dsimp only at hin ⊢
    unfold arrayValues
    by_cases hh : T.heap = true
    · simp only [if_pos hh]; rw [elements_length]; exact (hin hh).1
    · simp only [if_neg hh]; exact Nat.one_pos
  | Q ty =>
    dsimp only at hin ⊢
    unfold arrayValues
    by_cases hh : T.heap = true
    · simp only [if_pos hh]; rw [elements_length]; exact (hin hh).1
    · simp only [if_neg hh]; exact Nat.one_pos

/-- The values of a row, none after the last row. -/
def Tab.rowAt (T : Tab) (r : Nat) : List DataValue :=
  if r < T.x.naxis2 then rowValues T.heap T.x T.unit T.cols r else []

/-- The table is in row `r`, `cur` being the values of this row that have not been read; after the last row, `r` is
the number of rows. -/
def Tab.State (T : Tab) (r : Nat) (cur : List DataValue) (t : TableData) : Prop :=
  (r = T.x.naxis2 ∧ cur = [] ∧ T.Fin t) ∨
  (r < T.x.naxis2 ∧ ∃ k c i, T.cols[k]? = some c ∧ i < (cellValues T.heap T.x T.unit r c).length ∧ T.At r k c i t ∧
    cur = (cellValues T.heap T.x T.unit r c).drop i ++ (T.cols.drop (k + 1)).flatMap (cellValues T.heap T.x T.unit r))

theorem Tab.State.start {T : Tab} (hT : T.Ok) {r : Nat} (hr : r < T.x.naxis2) {t : TableData}
    (h : ∃ h : 0 < T.cols.length, T.At r 0 T.cols[0] 0 t) : T.State r (T.rowAt r) t := by
  obtain ⟨h0, h⟩ := h
  refine .inr ⟨hr, 0, T.cols[0], 0, List.getElem?_eq_getElem h0, hT.cell_pos hr (List.getElem_mem _), h, ?_⟩
  unfold Tab.rowAt rowValues
  rw [if_pos hr, List.drop_zero, ← List.flatMap_cons, ← List.drop_eq_getElem_cons h0, List.drop_zero]

theorem Tab.State.row {T : Tab} {r : Nat} {cur : List DataValue} {t : TableData} (h : T.State r cur t) :
    t.row = r := by
  rcases h with ⟨h1, -, k, i, -, rfl⟩ | ⟨-, k, c, i, -, -, h, -⟩
  · exact h1.symm
  · unfold Tab.At at h
    split at h
    · subst h; rfl
    · split at h
      · subst h; rfl
      · rw [h.2]; rfl
    · split at h
      · subst h; rfl
      · rw [h.2]; rfl
    · exact h.elim

theorem Tab.State.cur_ne {T : Tab} {r : Nat} {cur : List DataValue} {t : TableData} (h : T.State r cur t)
    (hr : r < T.x.naxis2) : cur ≠ [] := by
  rcases h with ⟨h1, -⟩ | ⟨-, k, c, i, -, h, -, rfl⟩
  · omega
  · intro h0
    have := (List.append_eq_nil_iff.1 h0).1
    rw [List.drop_eq_nil_iff] at this
    omega

theorem Tab.State.le {T : Tab} {r : Nat} {cur : List DataValue} {t : TableData} (h : T.State r cur t) :
    r ≤ T.x.naxis2 := by
  rcases h with ⟨h1, -⟩ | ⟨h1, -⟩ <;> omega

theorem Tab.State.move {T : Tab} (hT : T.Ok) {r k c i : Nat} {t' : TableData} (hr : r < T.x.naxis2)
    (hk : T.cols[k]? = some c)
    (h2 : if i + 1 < (cellValues T.heap T.x T.unit r c).length then T.At r k c (i + 1) t' else T.After r k t')
    {cur : List DataValue} (hcur : cur = (cellValues T.heap T.x T.unit r c).drop (i + 1) ++
      (T.cols.drop (k + 1)).flatMap (cellValues T.heap T.x T.unit r)) :
    (cur ≠ [] ∧ T.State r cur t') ∨ (cur = [] ∧ T.State (r + 1) (T.rowAt (r + 1)) t') := by
  subst hcur
  by_cases hl : i + 1 < (cellValues T.heap T.x T.unit r c).length
  · rw [if_pos hl] at h2
    have : T.State r _ t' := .inr ⟨hr, k, c, i + 1, hk, hl, h2, rfl⟩
    exact .inl ⟨this.cur_ne hr, this⟩
  · rw [if_neg hl] at h2
    rw [List.drop_eq_nil_of_le (by omega), List.nil_append]
    unfold Tab.After at h2
    by_cases hk1 : k + 1 < T.cols.length
    · rw [dif_pos hk1] at h2
      rw [List.drop_eq_getElem_cons hk1, List.flatMap_cons]
      have : T.State r _ t' := .inr ⟨hr, k + 1, T.cols[k + 1], 0, List.getElem?_eq_getElem hk1,
        hT.cell_pos hr (List.getElem_mem _), h2, rfl⟩
      rw [List.drop_zero] at this
      exact .inl ⟨this.cur_ne hr, this⟩
    · rw [dif_neg hk1] at h2
      rw [List.drop_eq_nil_of_le (by omega)]
      refine .inr ⟨rfl, ?_⟩
      by_cases hr1 : r + 1 < T.x.naxis2
      · rw [if_pos hr1] at h2
        exact .start hT hr1 h2
      · rw [if_neg hr1] at h2
        refine .inl ⟨by omega, ?_, h2⟩
        unfold Tab.rowAt
        rw [if_neg hr1]

/-- One call of `next`. -/
theorem Tab.State.step {T : Tab} (hT : T.Ok) (hmain : T.start + T.x.naxis1 * T.x.naxis2 ≤ T.data.length)
    {r : Nat} {v : DataValue} {cur : List DataValue} {t : TableData} (h : T.State r (v :: cur) t) :
    ∃ t', t.next T.p = (.ok (some v), t') ∧
      ((cur ≠ [] ∧ T.State r cur t') ∨ (cur = [] ∧ T.State (r + 1) (T.rowAt (r + 1)) t')) := by
  rcases h with ⟨-, h, -⟩ | ⟨hr, k, c, i, hk, hi, hat, hcur⟩
  · cases h
  · obtain ⟨t', h1, h2⟩ := next_at hT hr hk hat hi hmain
    rw [List.drop_eq_getElem_cons hi, List.cons_append] at hcur
    obtain ⟨rfl, hcur'⟩ := List.cons.inj hcur
    exact ⟨t', h1, Tab.State.move hT hr hk h2 hcur'⟩

/-- The values that have not been read, row by row. -/
def Tab.rest (T : Tab) (r : Nat) : List DataValue :=
  ((List.range T.x.naxis2).drop r).flatMap (rowValues T.heap T.x T.unit T.cols)

theorem Tab.rest_eq (T : Tab) (r : Nat) : T.rest r = T.rowAt r ++ T.rest (r + 1) := by
  unfold Tab.rest Tab.rowAt
  by_cases hr : r < T.x.naxis2
  · rw [if_pos hr, List.drop_eq_getElem_cons (by simpa using hr), List.flatMap_cons, List.getElem_range]
  · rw [if_neg hr, List.drop_eq_nil_of_le (by simp; omega), List.drop_eq_nil_of_le (by simp; omega)]
    rfl

theorem Tab.rest_end (T : Tab) {r : Nat} (h : T.x.naxis2 ≤ r) : T.rest r = [] := by
  unfold Tab.rest
  rw [List.drop_eq_nil_of_le (by simp; omega)]
  rfl

/-- The table still has to give the values `vs`. -/
def Tab.Left (T : Tab) (vs : List DataValue) (t : TableData) : Prop :=
  ∃ r cur, T.State r cur t ∧ vs = cur ++ T.rest (r + 1)

theorem Tab.Left.cons {T : Tab} (hT : T.Ok) (hmain : T.start + T.x.naxis1 * T.x.naxis2 ≤ T.data.length) {v : DataValue} {vs : List DataValue} {t : TableData}
    (h : T.Left (v :: vs) t) : ∃ t', t.next T.p = (.ok (some v), t') ∧ T.Left vs t' := by
  obtain ⟨r, cur, h, hv⟩ := h
  cases cur with
  | nil =>
    by_cases hr : r < T.x.naxis2
    · exact absurd rfl (h.cur_ne hr)
    · rw [T.rest_end (by omega)] at hv; cases hv
  | cons w cur =>
    obtain ⟨rfl, rfl⟩ := List.cons.inj hv
    obtain ⟨t', h1, h2⟩ := h.step hT hmain
    refine ⟨t', h1, ?_⟩
    rcases h2 with ⟨-, h2⟩ | ⟨rfl, h2⟩
    · exact ⟨r, cur, h2, rfl⟩
    · exact ⟨r + 1, _, h2, T.rest_eq _⟩

theorem Tab.Left.nil {T : Tab} {t : TableData} (h : T.Left [] t) : t.next T.p = (.ok none, t) := by
  obtain ⟨r, cur, h, hv⟩ := h
  rcases h with ⟨-, -, h⟩ | ⟨hr, h⟩
  · exact next_fin h
  · have hs : T.State r cur t := .inr ⟨hr, h⟩
    exact absurd (List.append_eq_nil_iff.1 hv.symm).1 (hs.cur_ne hr)

theorem Tab.Left.run {T : Tab} (hT : T.Ok) (hmain : T.start + T.x.naxis1 * T.x.naxis2 ≤ T.data.length) (n : Nat) {vs : List DataValue} {t : TableData} (h : T.Left vs t) :
    t.run T.p n = scan vs n ∧ T.Left (vs.drop n) (t.after T.p n) := by
  induction n generalizing vs t with
  | zero => exact ⟨by simp [TableData.run, scan], by simpa [TableData.after] using h⟩
  | succ n ih =>
    rw [TableData.run, TableData.after]
    cases vs with
    | nil =>
      rw [h.nil]
      dsimp only
      obtain ⟨h1, h2⟩ := ih h
      rw [h1]
      refine ⟨?_, by simpa using h2⟩
      simp [scan, List.replicate_succ]
    | cons v vs =>
      obtain ⟨t', h1, h2⟩ := h.cons hT hmain
      rw [h1]
      dsimp only
      obtain ⟨h3, h4⟩ := ih h2
      rw [h3]
      refine ⟨?_, by simpa using h4⟩
      simp [scan]

/-! ### Truncated files -/

/-- The bytes of the file are exhausted before the end of the table. -/
def Tab.Dead (T : Tab) (t : TableData) : Prop :=
  ∃ r k c i bo pos ty rep, T.cols[k]? = some c ∧ T.x.tforms[c]? = some (.plain ty rep) ∧
    bo < T.x.naxis1 * T.x.naxis2 ∧ T.data.length ≤ pos ∧ t = { T.main r k i bo with rd := ⟨T.data, pos⟩ }

theorem nextPlain_eof {p : Profile} {c rep : Nat} {ty : ElemTy} {t : TableData}
    (h : t.rd.data.length < t.rd.pos + elemBytes ty) : t.nextPlain p c ty rep =
      (.ok none, { t with rd := { t.rd with pos := max t.rd.pos t.rd.data.length } }) := by
  unfold TableData.nextPlain
  rw [elemBytes_eq, Reader.readExact_of_gt (elemBytes_pos ty) h]

theorem Tab.Dead.next {T : Tab} {t : TableData} (h : T.Dead t) : t.next T.p = (.ok none, t) := by
  obtain ⟨r, k, c, i, bo, pos, ty, rep, hk, hf, hbo, hpos, rfl⟩ := h
  rw [next_nextAt (T := T) hk rfl rfl rfl]
  rw [nextAt_form (f := .plain ty rep) rfl (Nat.ne_of_lt hbo) hf]
  show TableData.nextPlain T.p c ty rep _ = _
  have hp := elemBytes_pos ty
  rw [nextPlain_eof (by show T.data.length < pos + elemBytes ty; omega)]
  show (Res.ok none, ({ T.main r k i bo with rd := ⟨T.data, max pos T.data.length⟩ } : TableData)) = _
  rw [Nat.max_eq_left hpos]

/-- All the columns hold plain values. -/
def Tab.Plain (T : Tab) : Prop := ∀ c ∈ T.cols, ∃ ty rep, T.x.tforms[c]? = some (.plain ty rep)

/-- One call of `next` when the file may be truncated. -/
theorem Tab.Left.step_plain {T : Tab} (hT : T.Ok) (hp : T.Plain) {v : DataValue} {vs : List DataValue} {t : TableData}
    (h : T.Left (v :: vs) t) :
    ∃ t', (t.next T.p = (.ok (some v), t') ∧ T.Left vs t') ∨ (t.next T.p = (.ok none, t') ∧ T.Dead t') := by
  obtain ⟨r, cur, h, hv⟩ := h
  rcases h with ⟨rfl, rfl, -⟩ | ⟨hr, k, c, i, hk, hi, hat, hcur⟩
  · rw [T.rest_end (by omega)] at hv; cases hv
  · obtain ⟨ty, rep, hf⟩ := hp c (mem_cols hk)
    have hin := hT.readable.cells r hr c (mem_cols hk)
    have hcell := hT.cell hr hf
    rw [colBytes_plain] at hcell
    unfold Tab.At at hat
    unfold CellIn at hin
    simp only [hf] at hat hin
    have hcv : cellValues T.heap T.x T.unit r c = elements T.unit ty c (T.cellStart r c) (count ty rep) := by
      unfold cellValues; simp only [hf]; rfl
    rw [hcv, List.drop_eq_getElem_cons (by rw [← hcv]; exact hi), List.cons_append, elements_get] at hcur
    rw [hcv, elements_length] at hi
    have hsz : (i + 1) * elemBytes ty ≤ count ty rep * elemBytes ty := Nat.mul_le_mul_right _ hi
    rw [Nat.succ_mul] at hsz
    have hsz0 := elemBytes_pos ty
    subst hat hcur
    obtain ⟨rfl, rfl⟩ := List.cons.inj hv
    rw [next_nextAt (T := T) hk rfl rfl rfl, nextAt_main hf (by omega)]
    show ∃ t', ((T.main r k i (T.cellStart r c + i * elemBytes ty)).nextPlain T.p c ty rep = _ ∧ _) ∨
      ((T.main r k i (T.cellStart r c + i * elemBytes ty)).nextPlain T.p c ty rep = _ ∧ _)
    by_cases hread : T.start + (T.cellStart r c + i * elemBytes ty) + elemBytes ty ≤ T.data.length
    · obtain ⟨t', h1, h2⟩ := nextPlain_main hT hr hk (hT.leads hr hk) hf hi hin.2 hread
      refine ⟨t', .inl ⟨h1, ?_⟩⟩
      have h2' : if i + 1 < (cellValues T.heap T.x T.unit r c).length then T.At r k c (i + 1) t'
          else T.After r k t' := by
        rw [hcv, elements_length]
        unfold Tab.At
        simp only [hf]
        exact h2
      rcases Tab.State.move hT hr hk h2' rfl with ⟨-, h3⟩ | ⟨h3, h4⟩
      · exact ⟨r, _, h3, by rw [hcv]; rfl⟩
      · rw [hcv] at h3
        rw [h3]
        exact ⟨r + 1, _, h4, T.rest_eq _⟩
    · refine ⟨{ T.main r k i (T.cellStart r c + i * elemBytes ty) with
        rd := ⟨T.data, max (T.start + (T.cellStart r c + i * elemBytes ty)) T.data.length⟩ }, .inr ⟨?_, ?_⟩⟩
      · rw [nextPlain_eof (by
          show T.data.length < T.start + (T.cellStart r c + i * elemBytes ty) + elemBytes ty; omega)]
        rfl
      · exact ⟨r, k, c, i, _, _, ty, rep, hk, hf, by omega, Nat.le_max_right _ _, rfl⟩

theorem Tab.Dead.run {T : Tab} {t : TableData} (h : T.Dead t) (n : Nat) : t.run T.p n = scan [] n := by
  induction n with
  | zero => rfl
  | succ n ih =>
    rw [TableData.run, h.next]
    dsimp only
    rw [ih]
    simp [scan, List.replicate_succ]

/-- A truncated table gives the values before the truncation. -/
theorem Tab.Left.run_plain {T : Tab} (hT : T.Ok) (hp : T.Plain) {vs : List DataValue} {t : TableData}
    (h : T.Left vs t) : ∃ m, ∀ n, t.run T.p n = scan (vs.take m) n := by
  induction vs generalizing t with
  | nil =>
    refine ⟨0, fun n => ?_⟩
    induction n with
    | zero => rfl
    | succ n ih =>
      rw [TableData.run, h.nil]
      dsimp only
      rw [ih]
      simp [scan, List.replicate_succ]
  | cons v vs ih =>
    obtain ⟨t', h1 | h1⟩ := h.step_plain hT hp
    · obtain ⟨m, hm⟩ := ih h1.2
      refine ⟨m + 1, fun n => ?_⟩
      cases n with
      | zero => simp [TableData.run, scan]
      | succ n =>
        rw [TableData.run, h1.1]
        dsimp only
        rw [hm]
        simp [scan]
    · refine ⟨0, fun n => ?_⟩
      cases n with
      | zero => rfl
      | succ n =>
        rw [TableData.run, h1.1]
        dsimp only
        rw [h1.2.run]
        simp [scan, List.replicate_succ]

/-! ### Opening a table and selecting columns -/

theorem mem_insertSorted {x y : Nat} {l : List Nat} : y ∈ insertSorted x l ↔ y = x ∨ y ∈ l := by
  induction l with
  | nil => simp [insertSorted]
  | cons z l ih =>
    unfold insertSorted
    split
    · simp
    · simp only [List.mem_cons, ih]
      constructor
      · rintro (h | h | h)
        · exact .inr (.inl h)
        · exact .inl h
        · exact .inr (.inr h)
      · rintro (h | h | h)
        · exact .inr (.inl h)
        · exact .inl h
        · exact .inr (.inr h)

theorem mem_sort {y : Nat} {l : List Nat} : y ∈ sort l ↔ y ∈ l := by
  induction l with
  | nil => simp [sort]
  | cons x l ih =>
    show y ∈ insertSorted x (sort l) ↔ _
    rw [mem_insertSorted, ih, List.mem_cons]

theorem insertSorted_lt {x : Nat} {l : List Nat} (h : l.Pairwise (· < ·)) (hx : x ∉ l) :
    (insertSorted x l).Pairwise (· < ·) := by
  induction l with
  | nil => simp [insertSorted]
  | cons z l ih =>
    rw [List.pairwise_cons] at h
    simp only [List.mem_cons, not_or] at hx
    unfold insertSorted
    split
    · rw [List.pairwise_cons, List.pairwise_cons]
      refine ⟨?_, h⟩
      intro a ha
      rcases List.mem_cons.1 ha with rfl | ha
      · omega
      · have := h.1 a ha; omega
    · rw [List.pairwise_cons]
      refine ⟨?_, ih h.2 hx.2⟩
      intro a ha
      rcases mem_insertSorted.1 ha with rfl | ha
      · omega
      · exact h.1 a ha

theorem sort_lt {l : List Nat} (h : l.Nodup) : (sort l).Pairwise (· < ·) := by
  induction l with
  | nil => simp [sort]
  | cons x l ih =>
    rw [List.nodup_cons] at h
    exact insertSorted_lt (ih h.2) (fun hm => h.1 (mem_sort.1 hm))

theorem range_lt (n : Nat) : (List.range n).Pairwise (· < ·) := List.pairwise_lt_range

/-- A table just opened. -/
theorem new_ok {p : Profile} {x : BinTable} {rd : Reader} (h1 : x.naxis1 = total (x.tforms.map colBytes))
    (h2 : x.naxis1 < 2 ^ 60) (h3 : rd.pos + x.naxis1 * x.naxis2 < 2 ^ 60) :
    ∃ os, (∀ c < x.tforms.length, os[c]? = some (colStart x.tforms c)) ∧
      TableData.new p rd x rd.pos = .ok
        { rd, inHeap := none, cols := List.range x.tforms.length, offsets := os, ctx := x, col := 0, item := 0
          byteOffset := 0, mainSize := x.naxis1 * x.naxis2, startPos := rd.pos, seekFirst := false, row := 0
          heap := true } := by
  obtain ⟨os, g1, -, g3⟩ := columnOffsets_ok (p := p) x.tforms 0 (by omega)
  refine ⟨os, fun c hc => by rw [g3 c hc, Nat.zero_add], ?_⟩
  unfold TableData.new
  rw [g1]
  simp only [Res.bind_ok]
  rw [umul_ok (by unfold two64; omega)]
  rfl

/-- The first call of `next` after a selection. -/
theorem next_select {T : Tab} (hT : T.Ok) (h0 : 0 < T.cols.length) :
    ({ T.main 0 0 0 0 with seekFirst := true } : TableData).next T.p =
      (T.main 0 0 0 (T.cellStart 0 T.cols[0])).next T.p := by
  have hv := hT.readable.valid _ (List.getElem_mem h0)
  have hle := colStart_le (List.getElem?_eq_getElem hv)
  rw [← hT.readable.width] at hle
  have hsm := hT.readable.small
  have hsz := hT.readable.size
  have hc : T.cellStart 0 T.cols[0] = colStart T.x.tforms T.cols[0] := by
    unfold Tab.cellStart; rw [Nat.zero_mul, Nat.zero_add]
  rw [hc]
  have key : (T.main 0 0 0 0).advance T.p (asI64 (colStart T.x.tforms T.cols[0])) =
      (.ok (), T.main 0 0 0 (colStart T.x.tforms T.cols[0])) := by
    rw [asI64_lt (by omega), advance_main (by omega), Nat.zero_add]
  have h1 : ({ T.main 0 0 0 0 with seekFirst := true } : TableData).toFirstCol T.p T.cols[0] =
      (none, T.main 0 0 0 (colStart T.x.tforms T.cols[0])) := by
    unfold TableData.toFirstCol
    rw [if_pos rfl]
    dsimp only
    rw [show (T.main 0 0 0 0).offsets[T.cols[0]]? = some (colStart T.x.tforms T.cols[0]) from hT.offsets _ hv]
    dsimp only
    rw [show ({ T.main 0 0 0 0 with seekFirst := false } : TableData) = T.main 0 0 0 0 from rfl, key]
  unfold TableData.next
  rw [show ({ T.main 0 0 0 0 with seekFirst := true } : TableData).cols[
    ({ T.main 0 0 0 0 with seekFirst := true } : TableData).col]? = some T.cols[0] from List.getElem?_eq_getElem h0,
    show (T.main 0 0 0 (colStart T.x.tforms T.cols[0])).cols[
    (T.main 0 0 0 (colStart T.x.tforms T.cols[0])).col]? = some T.cols[0] from List.getElem?_eq_getElem h0]
  dsimp only
  rw [h1]
  rfl

theorem Tab.Left.start {T : Tab} (hT : T.Ok) {r : Nat} (hr : r < T.x.naxis2) (h0 : 0 < T.cols.length) :
    T.State r (T.rowAt r) (T.main r 0 0 (T.cellStart r T.cols[0])) :=
  .start hT hr ⟨h0, (Tab.At_zero (hT.readable.valid _ (List.getElem_mem h0)) _).2 rfl⟩

/-- Seeking to a row from the main table. -/
theorem seekToRow_main {T : Tab} (hT : T.Ok) {r r' k i bo : Nat} (hr : r' < T.x.naxis2) (h0 : 0 < T.cols.length)
    (hbo : bo ≤ T.x.naxis1 * T.x.naxis2) :
    (T.main r k i bo).seekToRow T.p r' = (.ok (), T.main r' 0 0 (T.cellStart r' T.cols[0])) := by
  have hv := hT.readable.valid _ (List.getElem_mem h0)
  have hcell := hT.cell hr (List.getElem?_eq_getElem hv)
  have hle := colStart_le (List.getElem?_eq_getElem hv)
  rw [← hT.readable.width] at hle
  have hsm := hT.readable.small
  have hsz := hT.readable.size
  unfold Tab.cellStart at *
  have hrn : r' < 2 ^ 60 ∨ T.x.naxis1 = 0 := by
    rcases Nat.eq_zero_or_pos T.x.naxis1 with h | h
    · exact .inr h
    · left
      have : r' * 1 ≤ r' * T.x.naxis1 := Nat.mul_le_mul_left _ h
      omega
  have e1 : (i64op T.p (asI64 r' * asI64 T.x.naxis1) >>= fun a =>
      i64op T.p (a + asI64 (colStart T.x.tforms T.cols[0]))) =
      .ok ((r' * T.x.naxis1 + colStart T.x.tforms T.cols[0] : Nat) : Int) := by
    have hm : asI64 r' * asI64 T.x.naxis1 = ((r' * T.x.naxis1 : Nat) : Int) := by
      rcases hrn with h | h
      · rw [asI64_lt (by omega), asI64_lt (by omega), Int.natCast_mul]
      · rw [h]; simp [asI64]
    rw [hm, i64op_ok (by omega) (by omega)]
    simp only [Res.bind_ok]
    rw [asI64_lt (by omega), i64op_ok (by omega) (by omega)]
    congr 1
  have e2 : (i64op T.p (- asI64 bo) >>= fun a =>
      i64op T.p (a + ((r' * T.x.naxis1 + colStart T.x.tforms T.cols[0] : Nat) : Int))) =
      .ok (- (bo : Int) + ((r' * T.x.naxis1 + colStart T.x.tforms T.cols[0] : Nat) : Int)) := by
    rw [asI64_lt (by omega), i64op_ok (by omega) (by omega)]
    simp only [Res.bind_ok]
    rw [i64op_ok (by omega) (by omega)]
  have e3 : (Reader.mk T.data (T.start + bo)).seekRelative
      (- (bo : Int) + ((r' * T.x.naxis1 + colStart T.x.tforms T.cols[0] : Nat) : Int)) =
      (.ok (), ⟨T.data, T.start + (r' * T.x.naxis1 + colStart T.x.tforms T.cols[0])⟩) :=
    seekRelative_nat _ (by dsimp only; omega) (by unfold two64; omega)
  have e4 : T.cols[0]?.bind (T.offsets[·]?) = some (colStart T.x.tforms T.cols[0]) := by
    rw [List.getElem?_eq_getElem h0]
    exact hT.offsets _ hv
  unfold TableData.seekToRow
  rw [if_neg (show ¬ r' ≥ (T.main r k i bo).ctx.naxis2 from by show ¬ r' ≥ T.x.naxis2; omega)]
  dsimp only [Tab.main]
  rw [e4]
  dsimp only
  rw [e1]
  dsimp only
  rw [e2]
  dsimp only
  rw [e3]
  dsimp only
  rw [asU64_nat (by omega)]

theorem seekToRow_err {p : Profile} {t : TableData} {r : Nat} (h : t.ctx.naxis2 ≤ r) :
    ∃ e, t.seekToRow p r = (.err e, t) := by
  unfold TableData.seekToRow
  rw [if_pos h]
  exact ⟨_, rfl⟩

/-! ### Row iteration -/

theorem collect_row {T : Tab} (hT : T.Ok) (hmain : T.start + T.x.naxis1 * T.x.naxis2 ≤ T.data.length)
    {r : Nat} {cur acc : List DataValue} {t : TableData} (hr : r < T.x.naxis2) (h : T.State r cur t) {fuel : Nat}
    (hf : cur.length < fuel) :
    ∃ t', TableRows.collect T.p fuel r t acc = some (.ok (some (acc ++ cur)), t') ∧
      T.State (r + 1) (T.rowAt (r + 1)) t' := by
  induction cur generalizing acc t fuel with
  | nil => exact absurd rfl (h.cur_ne hr)
  | cons v cur ih =>
    obtain ⟨fuel, rfl⟩ : ∃ m, fuel = m + 1 := ⟨fuel - 1, by omega⟩
    obtain ⟨t', h1, h2⟩ := h.step hT hmain
    rw [TableRows.collect, if_pos h.row, h1]
    dsimp only
    rcases h2 with ⟨-, h2⟩ | ⟨rfl, h2⟩
    · obtain ⟨t'', h3, h4⟩ := ih (acc := acc ++ [v]) h2 (fuel := fuel) (by simpa using hf)
      exact ⟨t'', by rw [h3]; simp, h4⟩
    · obtain ⟨fuel, rfl⟩ : ∃ m, fuel = m + 1 := ⟨fuel - 1, by simp at hf; omega⟩
      rw [TableRows.collect, if_neg (by rw [h2.row]; omega)]
      exact ⟨t', rfl, h2⟩

theorem collect_end {T : Tab} {t : TableData} (h : T.State T.x.naxis2 [] t) {fuel : Nat} (hf : 0 < fuel) :
    TableRows.collect T.p fuel T.x.naxis2 t [] = some (.ok none, t) := by
  obtain ⟨fuel, rfl⟩ : ∃ m, fuel = m + 1 := ⟨fuel - 1, by omega⟩
  have hfin : T.Fin t := by
    rcases h with ⟨-, -, h⟩ | ⟨h, -⟩
    · exact h
    · omega
  rw [TableRows.collect, if_pos h.row, next_fin hfin]

end Fitsrs

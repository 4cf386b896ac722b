import Verif.Lemmas.Final
import Verif.Lemmas.Session
import Verif.Props.C44_C45
import Verif.Spec.WriterSamples
/-
C77: the end of an iteration over data is final, whatever the file holds.
-/

namespace Fitsrs
open Spec

/-- What is seen says that the iteration is at its end. -/
def Spec.IsEnd : Seen → Prop
  | .pixel v => v = none
  | .byte v => v = none
  | .value v => v = none
  | .row v => v = none
  | .tilePixel v => v = none
  | _ => False

/-- In a sequence of answers, only ends come after an end. -/
def Spec.Final (l : List (Option (Res Seen))) : Prop :=
  ∀ i j s, i ≤ j → l[i]? = some (some (.ok s)) → IsEnd s → j < l.length →
    ∃ s', l[j]? = some (some (.ok s')) ∧ IsEnd s'

/-- What `n` calls of `next` give; nothing comes after a panic, or if a loop has not finished with the fuel. -/
def items (p : Profile) (gz : Gunzip) (fuel : Nat) : Nat → OpenUnit → List (Option (Res Seen))
  | 0, _ => []
  | n + 1, o =>
    match Session.nextItem p gz fuel o with
    | none => [none]
    | some (.panic, _) => [some .panic]
    | some (r, o) => some r :: items p gz fuel n o

/-- The iterator of HDUs after `k` calls of `next`. -/
def hdusTaken (p : Profile) : Nat → Fits → Fits
  | 0, f => f
  | k + 1, f => hdusTaken p k (f.next p).2

/-- Calls other than `next` on what is opened (a selection of columns, a seek to a row, `row_iter`, `table_data`, `bytes`,
`read_value`, ...), none of which panics, lead from `o` to `o'`. -/
inductive Spec.SetUp (p : Profile) : OpenUnit → OpenUnit → Prop where
  | refl (o) : SetUp p o o
  | call {o o₁ o₂ : OpenUnit} {c : Call} {r : Res Seen} : Session.onOpened p c o = (r, some o₁) → r ≠ .panic →
      SetUp p o₁ o₂ → SetUp p o o₂

/-- **C77**, in full: in any file of less than `2^60` bytes, for any HDU that is opened, and after any other calls, `None` is
followed by `None`s only. -/
def C77_statement : Prop :=
  ∀ (p : Profile) (gz : Gunzip) (fuel n k : Nat) (data : List UInt8) (h : HDU) (f' : Fits) (o o' : OpenUnit),
    data.length < 2 ^ 60 → (hdusTaken p k (Fits.fromReader ⟨data, 0⟩)).next p = (some (.ok h), f') →
    f'.getData p h = .ok o → SetUp p o o' → Final (items p gz fuel n o')

/-- A table whose sizes are moderate; they may disagree with one another and with the file.  Unless the table is that of a
compressed image, it has no columns of 64-bit array descriptors. -/
structure Moderate (h : HDU) : Prop where
  table : ∀ x, h = .binTable x → x.dataOffset < 2 ^ 60 ∧ total (x.header.xtension.tforms.map colBytes) < 2 ^ 59 ∧
    x.header.xtension.naxis1 < 2 ^ 59 ∧ x.header.xtension.naxis1 * x.header.xtension.naxis2 < 2 ^ 59 ∧
    x.header.xtension.theap < 2 ^ 60 ∧ (x.header.xtension.zImage = none → ∀ ty, .Q ty ∉ x.header.xtension.tforms)

/-- What is iterated over is not the pixels of a compressed image. -/
def NotTiles : OpenUnit → Prop
  | .tiles _ => False
  | _ => True

/-! A table before the first `next`. -/

structure Start (S : Nat) (x : BinTable) (t : TableData) : Prop where
  step : InStep S x { t with seekFirst := false }
  main : t.inHeap = none
  small : t.byteOffset < 2 ^ 60
  offsets : ∀ (c : Nat) (o : Nat), t.offsets[c]? = some o → o < 2 ^ 59
  size : x.naxis1 * x.naxis2 < 2 ^ 59
  width : x.naxis1 < 2 ^ 59

theorem Start.select {S : Nat} {x : BinTable} {t : TableData} (h : Start S x t) (cs : List TableData.ColumnId) :
    Start S x (t.selectFields cs) :=
  ⟨⟨h.step.ctx, h.step.data, h.step.start, h.step.offsets, h.step.width, h.step.main, h.step.theap, h.step.narrow, rfl,
    h.step.place⟩, h.main, h.small, h.offsets, h.size, h.width⟩

theorem Start.seek {p : Profile} {S : Nat} {x : BinTable} {t : TableData} (h : Start S x t) (idx : Nat)
    (hr : (t.seekToRow p idx).1 ≠ .panic) : Start S x (t.seekToRow p idx).2 := by
  revert hr
  unfold TableData.seekToRow
  by_cases hi : idx ≥ t.ctx.naxis2
  · rw [if_pos hi]
    exact fun _ => h
  · rw [if_neg hi]
    dsimp only
    cases ho : t.cols[0]?.bind (t.offsets[·]?) with
    | none => exact fun hr => absurd rfl hr
    | some o =>
      dsimp only
      obtain ⟨c, -, hc⟩ := Option.bind_eq_some_iff.1 ho
      have hol := h.offsets c o hc
      have hctx : t.ctx = x := h.step.ctx
      have hw := h.width
      have hsz : idx * x.naxis1 < 2 ^ 59 := by
        refine Nat.lt_of_le_of_lt ?_ h.size
        rw [Nat.mul_comm]
        refine Nat.mul_le_mul_left _ ?_
        rw [hctx] at hi
        omega
      have hsmall := h.small
      have hS := h.step.start
      have hp : t.rd.pos = S + t.byteOffset ∧ t.byteOffset < 2 ^ 61 := by
        have := h.step.place
        dsimp only at this
        rw [h.main] at this
        exact this
      have e1 : (asI64 idx * asI64 t.ctx.naxis1) = ((idx * x.naxis1 : Nat) : Int) ∨ x.naxis1 = 0 := by
        by_cases hz : x.naxis1 = 0
        · exact .inr hz
        · left
          have : idx ≤ idx * x.naxis1 := Nat.le_mul_of_pos_right _ (Nat.pos_of_ne_zero hz)
          rw [hctx, asI64_lt (by omega), asI64_lt (by omega)]
          push_cast
          rfl
      have e2 : (asI64 idx * asI64 t.ctx.naxis1) = ((idx * x.naxis1 : Nat) : Int) := by
        rcases e1 with e | e
        · exact e
        · rw [hctx, e, Nat.mul_zero, show asI64 0 = 0 from rfl, Int.mul_zero]
          rfl
      rw [e2]
      generalize idx * x.naxis1 = m at hsz
      rw [i64op_ok (by omega) (by omega), Res.bind_ok, asI64_lt (n := o) (by omega), asI64_lt (n := t.byteOffset) (by omega),
        i64op_ok (by omega) (by omega)]
      dsimp only
      rw [i64op_ok (by omega) (by omega), Res.bind_ok, i64op_ok (by omega) (by omega)]
      dsimp only
      rw [seekRelative_nat (S + (m + o)) (by rw [hp.1]; push_cast; omega) (by unfold two64; omega)]
      intro _
      have e3 : asU64 ((m : Int) + (o : Int)) = m + o := by
        unfold asU64
        omega
      dsimp only
      rw [e3]
      exact ⟨⟨h.step.ctx, h.step.data, h.step.start, h.step.offsets, h.step.width, h.step.main, h.step.theap, h.step.narrow,
        rfl, by
          show match t.inHeap with | none => _ | some h => _
          rw [h.main]
          exact ⟨rfl, by show m + o < 2 ^ 61; omega⟩⟩, h.main, by show m + o < 2 ^ 60; omega, h.offsets, h.size, h.width⟩

/-- What is opened is in order, before the first `next`. -/
def StartUnit (S : Nat) (x : BinTable) : OpenUnit → Prop
  | .table t => Start S x t
  | .rows r => Start S x r.data
  | .tiles it => Start S x it.rows.data
  | _ => True

theorem StartUnit.call {p : Profile} {S : Nat} {x : BinTable} {o o₁ : OpenUnit} {c : Call} {r : Res Seen}
    (h : StartUnit S x o) (hc : Session.onOpened p c o = (r, some o₁)) (hr : r ≠ .panic) : StartUnit S x o₁ := by
  have same : ∀ {q : Res Seen}, (q, some o) = (r, some o₁) → StartUnit S x o₁ := by
    intro q e
    cases e
    exact h
  cases c with
  | hdu => exact same hc
  | getData k => exact same hc
  | next => exact same hc
  | readValue i => cases o <;> first | exact same hc | (cases hc; trivial)
  | rawBytes => cases o <;> first | exact same hc | (cases hc; done)
  | seekRow i =>
    cases o with
    | table t =>
      cases hc
      exact Start.seek h i (fun e => hr (by rw [e]; rfl))
    | image d => exact same hc
    | bytes d => exact same hc
    | rows d => exact same hc
    | tiles d => exact same hc
  | select cs =>
    cases o with
    | table t =>
      cases hc
      exact Start.select h cs
    | image d => exact same hc
    | bytes d => exact same hc
    | rows d => exact same hc
    | tiles d => exact same hc
  | rowIter => cases o <;> first | exact same hc | (cases hc; exact h)
  | tableData => cases o <;> first | exact same hc | (cases hc; exact h)
  | bytes => cases o <;> first | exact same hc | (cases hc; trivial)

/-! The five iterators. -/

/-- What is opened, in the course of an iteration over something else than the pixels of a compressed image. -/
def Going (p : Profile) (S : Nat) (x : BinTable) : OpenUnit → Prop
  | .image _ | .bytes _ => True
  | .table t => InStep S x { t with seekFirst := false } ∧ (t.seekFirst = true → t.inHeap = none ∧ t.byteOffset < 2 ^ 60)
  | .rows r =>
    InStep S x { r.data with seekFirst := false } ∧
      (r.data.seekFirst = true → r.data.inHeap = none ∧ r.data.byteOffset < 2 ^ 60)
  | .tiles _ => False

theorem Start.going {S : Nat} {x : BinTable} {t : TableData} (h : Start S x t) :
    InStep S x { t with seekFirst := false } ∧ (t.seekFirst = true → t.inHeap = none ∧ t.byteOffset < 2 ^ 60) :=
  ⟨h.step, fun _ => ⟨h.main, h.small⟩⟩

theorem InStep.going {S : Nat} {x : BinTable} {t : TableData} (h : InStep S x t) :
    InStep S x { t with seekFirst := false } ∧ (t.seekFirst = true → t.inHeap = none ∧ t.byteOffset < 2 ^ 60) := by
  have ht : ({ t with seekFirst := false } : TableData) = t := by rw [← h.first]
  rw [ht]
  exact ⟨h, fun e => absurd (h.first.symm.trans e) (by decide)⟩

theorem collect_final {p : Profile} {S : Nat} {x : BinTable} {fuel row : Nat} {t t' : TableData} {acc : List DataValue}
    {r : Res (Option (List DataValue))}
    (h : InStep S x { t with seekFirst := false } ∧ (t.seekFirst = true → t.inHeap = none ∧ t.byteOffset < 2 ^ 60))
    (hc : TableRows.collect p fuel row t acc = some (r, t')) :
    (∀ vs, r = .ok (some vs) → InStep S x { t' with seekFirst := false } ∧
      (t'.seekFirst = true → t'.inHeap = none ∧ t'.byteOffset < 2 ^ 60)) ∧
    (r = .ok none → t'.next p = (.ok none, t') ∧ t'.row = row ∧ 0 < fuel) ∧ ∀ e, r ≠ .err e := by
  induction fuel generalizing t acc with
  | zero => cases hc
  | succ fuel ih =>
    unfold TableRows.collect at hc
    by_cases hr : t.row = row
    · rw [if_pos hr] at hc
      have hd := InStep.next (p := p) h.1 h.2
      rcases hn : t.next p with ⟨q, u⟩
      rw [hn] at hc hd
      match q, hc, hd with
      | .ok (some v), hc, hd =>
        obtain ⟨h1, h2, h3⟩ := ih (t := u) (InStep.going hd) hc
        exact ⟨h1, fun e => ⟨(h2 e).1, (h2 e).2.1, Nat.succ_pos _⟩, h3⟩
      | .ok none, hc, hd =>
        cases hc
        obtain ⟨g1, g2⟩ : _ ∧ _ := hd
        exact ⟨fun vs e => (by cases e), fun _ => ⟨g1, g2.trans hr, Nat.succ_pos _⟩, fun e he => (by cases he)⟩
      | .err e, hc, hd => exact (hd : False).elim
      | .panic, hc, hd =>
        cases hc
        exact ⟨fun vs e => (by cases e), fun e => (by cases e), fun e he => (by cases he)⟩
    · rw [if_neg hr] at hc
      cases hc
      exact ⟨fun vs _ => h, fun e => (by cases e), fun e he => (by cases he)⟩

/-- The rows: a row and the iteration goes on, or the end for good. -/
theorem rows_final {p : Profile} {S : Nat} {x : BinTable} {fuel : Nat} {r r' : TableRows} {q : Res (Option (List DataValue))}
    (h : InStep S x { r.data with seekFirst := false } ∧
      (r.data.seekFirst = true → r.data.inHeap = none ∧ r.data.byteOffset < 2 ^ 60))
    (hn : r.next p fuel = some (q, r')) :
    (∀ vs, q = .ok (some vs) → InStep S x { r'.data with seekFirst := false } ∧
      (r'.data.seekFirst = true → r'.data.inHeap = none ∧ r'.data.byteOffset < 2 ^ 60)) ∧
    (q = .ok none → r'.next p fuel = some (.ok none, r')) ∧ ∀ e, q ≠ .err e := by
  unfold TableRows.next at hn
  rcases hc : TableRows.collect p fuel r.row r.data [] with _ | ⟨q', t'⟩
  · rw [hc] at hn
    cases hn
  · rw [hc] at hn
    obtain ⟨h1, h2, h3⟩ := collect_final h hc
    match q', hn, h1, h2, h3 with
    | .ok (some vs), hn, h1, h2, h3 =>
      cases hn
      exact ⟨fun _ _ => h1 vs rfl, fun e => (by cases e), fun e he => (by cases he)⟩
    | .ok none, hn, h1, h2, h3 =>
      cases hn
      refine ⟨fun _ e => (by cases e), fun _ => ?_, fun e he => (by cases he)⟩
      obtain ⟨g1, g2, g3⟩ := h2 rfl
      obtain ⟨k, rfl⟩ : ∃ k, fuel = k + 1 := ⟨fuel - 1, by omega⟩
      unfold TableRows.next TableRows.collect
      dsimp only
      rw [if_pos g2, g1]
    | .err e, hn, h1, h2, h3 => exact absurd rfl (h3 e)
    | .panic, hn, h1, h2, h3 =>
      cases hn
      exact ⟨fun _ e => (by cases e), fun e => (by cases e), fun e he => (by cases he)⟩

/-- One call of `next`. -/
theorem going_next {p : Profile} {S : Nat} {x : BinTable} {gz : Gunzip} {fuel : Nat} {o o' : OpenUnit}
    {r : Res Seen} (h : Going p S x o) (hn : Session.nextItem p gz fuel o = some (r, o')) :
    r = .panic ∨ ∃ s, r = .ok s ∧ ((¬ IsEnd s ∧ Going p S x o') ∨
      (IsEnd s ∧ ∀ n, ∀ a ∈ items p gz fuel n o', ∃ s', a = some (.ok s') ∧ IsEnd s')) := by
  -- from a state that stays as it is
  have stuck : ∀ {o : OpenUnit} {s : Seen}, IsEnd s → Session.nextItem p gz fuel o = some (.ok s, o) →
      ∀ n, ∀ a ∈ items p gz fuel n o, ∃ s', a = some (.ok s') ∧ IsEnd s' := by
    intro o s hs e n
    induction n with
    | zero => exact fun a ha => absurd ha List.not_mem_nil
    | succ n ih =>
      intro a ha
      unfold items at ha
      rw [e] at ha
      rcases List.mem_cons.1 ha with rfl | ha
      · exact ⟨s, rfl, hs⟩
      · exact ih a ha
  cases o with
  | tiles it => exact h.elim
  | image d =>
    right
    cases hn
    refine ⟨_, rfl, ?_⟩
    have hb : 0 < d.pixels.ty.byteSize := by cases d.pixels.ty <;> decide
    rcases hp : d.pixels.next with ⟨v, it⟩
    cases v with
    | some v => exact .inl ⟨fun e => (by cases e), trivial⟩
    | none =>
      refine .inr ⟨rfl, ?_⟩
      -- the count is reached, or the reader is at its end
      have dead : ∀ n (d : ImageData), 0 < d.pixels.ty.byteSize →
          (d.pixels.cur = d.pixels.numItems ∨ d.pixels.rd.data.length ≤ d.pixels.rd.pos) →
          ∀ a ∈ items p gz fuel n (.image d), ∃ s', a = some (.ok s') ∧ IsEnd s' := by
        intro n
        induction n with
        | zero => exact fun d _ _ a ha => absurd ha List.not_mem_nil
        | succ n ih =>
          intro d hb hd a ha
          have hnext : d.pixels.next.1 = none ∧ d.pixels.next.2.ty = d.pixels.ty ∧
              (d.pixels.next.2.cur = d.pixels.next.2.numItems ∨ d.pixels.next.2.rd.data.length ≤ d.pixels.next.2.rd.pos) := by
            unfold It.next
            by_cases hc : d.pixels.cur = d.pixels.numItems
            · rw [if_pos hc]
              exact ⟨rfl, rfl, .inl hc⟩
            · rw [if_neg hc]
              have hle := hd.resolve_left hc
              rw [Reader.readExact_of_gt hb (by omega)]
              exact ⟨rfl, rfl, .inr (by show d.pixels.rd.data.length ≤ max _ _; omega)⟩
          unfold items at ha
          have e : Session.nextItem p gz fuel (.image d) =
            some (.ok (.pixel d.pixels.next.1), .image { d with pixels := d.pixels.next.2 }) := rfl
          rw [e] at ha
          rcases List.mem_cons.1 ha with rfl | ha
          · exact ⟨_, rfl, hnext.1⟩
          · exact ih { d with pixels := d.pixels.next.2 } (by rw [hnext.2.1]; exact hb) hnext.2.2 a ha
      intro n
      refine dead n { d with pixels := it } ?_ ?_
      · show 0 < it.ty.byteSize
        have : it.ty = d.pixels.ty := by
          have e : it = d.pixels.next.2 := by rw [hp]
          rw [e]
          unfold It.next
          by_cases hc : d.pixels.cur = d.pixels.numItems
          · rw [if_pos hc]
          · rw [if_neg hc]
            rcases d.pixels.rd.readExact d.pixels.ty.byteSize with ⟨q, rd⟩
            cases q <;> rfl
        rw [this]
        exact hb
      · show it.cur = it.numItems ∨ it.rd.data.length ≤ it.rd.pos
        unfold It.next at hp
        by_cases hc : d.pixels.cur = d.pixels.numItems
        · rw [if_pos hc] at hp
          cases hp
          exact .inl hc
        · rw [if_neg hc] at hp
          rcases readExact_split d.pixels.ty.byteSize hb d.pixels.rd with ⟨hle, bs, e⟩ | ⟨er, e, -⟩
          · rw [e] at hp
            cases hp
          · rw [e] at hp
            cases hp
            exact .inr (Nat.le_max_right _ _)
  | bytes b =>
    right
    cases hn
    refine ⟨_, rfl, ?_⟩
    rcases hb : b.next with ⟨v, b'⟩
    cases v with
    | some v => exact .inl ⟨fun e => (by cases e), trivial⟩
    | none =>
      refine .inr ⟨rfl, ?_⟩
      have e : b' = b := by
        unfold ByteStream.next at hb
        cases hbuf : b.buf with
        | cons c cs => rw [hbuf] at hb; cases hb
        | nil =>
          rw [hbuf] at hb
          dsimp only at hb
          cases hf : b.fill with
          | nil => rw [hf] at hb; cases hb; rfl
          | cons c cs => rw [hf] at hb; cases hb
      subst e
      refine stuck (s := .byte none) rfl ?_
      show some (Res.ok (Seen.byte b'.next.1), OpenUnit.bytes b'.next.2) = _
      rw [hb]
  | table t =>
    have hd := InStep.next (p := p) h.1 h.2
    rcases ht : t.next p with ⟨q, u⟩
    have e : Session.nextItem p gz fuel (.table t) = some ((t.next p).1.map .value, .table (t.next p).2) := rfl
    rw [e, ht] at hn
    rw [ht] at hd
    cases hn
    match q, hd with
    | .ok (some v), hd => exact .inr ⟨_, rfl, .inl ⟨fun e => (by cases e), InStep.going hd⟩⟩
    | .ok none, hd =>
      obtain ⟨g1, g2⟩ : _ ∧ _ := hd
      refine .inr ⟨_, rfl, .inr ⟨rfl, stuck (s := .value none) rfl ?_⟩⟩
      show some ((u.next p).1.map Seen.value, OpenUnit.table (u.next p).2) = _
      rw [g1]
      rfl
    | .err e, hd => exact (hd : False).elim
    | .panic, hd => exact .inl rfl
  | rows rr =>
    have e : Session.nextItem p gz fuel (.rows rr) = (rr.next p fuel).map fun x => (x.1.map .row, .rows x.2) := rfl
    rw [e] at hn
    rcases hr : rr.next p fuel with _ | ⟨q, r'⟩
    · rw [hr] at hn
      cases hn
    · rw [hr] at hn
      cases hn
      obtain ⟨h1, h2, h3⟩ := rows_final h hr
      match q, h1, h2, h3 with
      | .ok (some vs), h1, h2, h3 => exact .inr ⟨_, rfl, .inl ⟨fun e => (by cases e), h1 vs rfl⟩⟩
      | .ok none, h1, h2, h3 =>
        refine .inr ⟨_, rfl, .inr ⟨rfl, stuck (s := .row none) rfl ?_⟩⟩
        show (r'.next p fuel).map _ = _
        rw [h2 rfl]
        rfl
      | .err e, h1, h2, h3 => exact absurd rfl (h3 e)
      | .panic, h1, h2, h3 => exact .inl rfl

theorem going_final {p : Profile} {S : Nat} {x : BinTable} {gz : Gunzip} {fuel : Nat} (n : Nat)
    {o : OpenUnit} (h : Going p S x o) : Final (items p gz fuel n o) := by
  induction n generalizing o with
  | zero => exact fun i j s _ _ _ hj => absurd hj (Nat.not_lt_zero _)
  | succ n ih =>
    intro i j s hij hi hs hj
    unfold items at hi hj ⊢
    rcases hn : Session.nextItem p gz fuel o with _ | ⟨r, o'⟩
    · rw [hn] at hi
      cases i with
      | zero => cases hi
      | succ i => cases hi
    · rw [hn] at hi hj
      rcases going_next h hn with rfl | ⟨s₁, rfl, hg⟩
      · cases i with
        | zero => cases hi
        | succ i => cases hi
      · cases j with
        | zero =>
          obtain rfl : i = 0 := by omega
          exact ⟨s, hi, hs⟩
        | succ j =>
          have hj' : j < (items p gz fuel n o').length := by
            have : j + 1 < (items p gz fuel n o').length + 1 := hj
            omega
          rcases hg with ⟨he, hg⟩ | ⟨he, hg⟩
          · cases i with
            | zero =>
              cases hi
              exact absurd hs he
            | succ i => exact ih hg i j s (by omega) hi hs hj'
          · obtain ⟨s', e, hs'⟩ := hg n _ (List.getElem_mem hj')
            refine ⟨s', ?_, hs'⟩
            show (items p gz fuel n o')[j]? = _
            rw [List.getElem?_eq_getElem hj', e]

/-- The table just opened. -/
theorem start_new {p : Profile} {f : Fits} {x : Hdu BinTable} {t : TableData} (heap : Bool)
    (hd : f.rd.data.length < 2 ^ 60) (hp : f.rd.pos = x.dataOffset) (hm : Moderate (.binTable x))
    (hq : heap = true → x.header.xtension.zImage = none)
    (ht : TableData.new p f.rd x.header.xtension f.posStart = .ok t) :
    Start x.dataOffset x.header.xtension (t.readTheHeap heap) := by
  obtain ⟨h1, h2, h3, h4, h5, h6⟩ := hm.table x rfl
  obtain ⟨os, g1, g2, g3⟩ := columnOffsets_ok (p := p) x.header.xtension.tforms 0 (by omega)
  unfold TableData.new at ht
  rw [g1, Res.bind_ok, umul_ok (by unfold two64; omega), Res.bind_ok] at ht
  cases ht
  have ho : ∀ (c : Nat) (o : Nat), os[c]? = some o → o < 2 ^ 59 := by
    intro c o hc
    have hlt : c < x.header.xtension.tforms.length := by
      rw [← g2]
      exact (List.getElem?_eq_some_iff.1 hc).1
    have e := g3 c hlt
    rw [hc] at e
    have hle := colStart_le (List.getElem?_eq_getElem hlt)
    have : o = 0 + colStart x.header.xtension.tforms c := Option.some.inj e
    omega
  refine ⟨⟨rfl, hd, h1, fun c o hc => ?_, ?_, ?_, h5, fun hh => h6 (hq hh), rfl, ⟨?_, ?_⟩⟩, rfl, ?_, ho, h4, h3⟩
  · have := ho c o hc
    omega
  · omega
  · show x.header.xtension.naxis1 * x.header.xtension.naxis2 < 2 ^ 60
    omega
  · exact hp
  · show 0 < 2 ^ 61
    decide
  · show 0 < 2 ^ 60
    decide

/-- What `get_data` gives is in order. -/
theorem getData_start {p : Profile} {f f' : Fits} {h : HDU} {o : OpenUnit} (hn : f.next p = (some (.ok h), f'))
    (hd : f.rd.data.length < 2 ^ 60) (ho : f'.getData p h = .ok o) (hm : Moderate h) : ∃ S x, StartUnit S x o := by
  obtain ⟨h1, h2, h3, -⟩ := next_ok_state hn
  cases h with
  | primary x =>
    obtain ⟨d, -, rfl⟩ := Res.map_eq_ok.1 ho
    exact ⟨0, ⟨.u8, 0, 0, 0, 0, [], [], 0, 0, none⟩, trivial⟩
  | image x =>
    obtain ⟨d, -, rfl⟩ := Res.map_eq_ok.1 ho
    exact ⟨0, ⟨.u8, 0, 0, 0, 0, [], [], 0, 0, none⟩, trivial⟩
  | asciiTable x =>
    obtain ⟨d, -, rfl⟩ := Res.map_eq_ok.1 ho
    exact ⟨0, ⟨.u8, 0, 0, 0, 0, [], [], 0, 0, none⟩, trivial⟩
  | binTable x =>
    refine ⟨x.dataOffset, x.header.xtension, ?_⟩
    unfold Fits.getData at ho
    dsimp only at ho
    rw [← h1] at hd
    cases hz : x.header.xtension.zImage with
    | some z =>
      rw [hz] at ho
      obtain ⟨it, hi, rfl⟩ := Res.map_eq_ok.1 ho
      obtain ⟨t, ht, hi⟩ := Res.bind_eq_ok.1 hi
      have hs := start_new (p := p) false hd h2 hm (fun e => (by cases e)) ht
      unfold TileIt.new at hi
      obtain ⟨n, -, hi⟩ := Res.bind_eq_ok.1 hi
      obtain ⟨size, -, hi⟩ := Res.bind_eq_ok.1 hi
      by_cases hb : 2 ^ 63 ≤ size
      · rw [if_pos hb] at hi
        cases hi
      · rw [if_neg hb] at hi
        obtain ⟨kw, -, hi⟩ := Res.bind_eq_ok.1 hi
        cases hi
        exact hs
    | none =>
      rw [hz] at ho
      obtain ⟨t, hi, rfl⟩ := Res.map_eq_ok.1 ho
      obtain ⟨t₁, ht, hi⟩ := Res.bind_eq_ok.1 hi
      have hs := start_new (p := p) t₁.heap hd h2 hm (fun _ => hz) ht
      rw [hz] at hi
      cases hi
      exact hs

/-- **C77**, partial: `None` is followed by `None`s only, for pixels of images that are not compressed, bytes, values and rows
of tables of moderate sizes without 64-bit array descriptors; the contents of the file are arbitrary, so are the other
calls made before, and the iterator of HDUs may be in any state.  Missing: the pixels of compressed images, for which see
`C77_tiles`, and 64-bit array descriptors. -/
theorem C77_partial (p : Profile) (gz : Gunzip) (fuel n : Nat) (f f' : Fits) (h : HDU) (o o' : OpenUnit)
    (hd : f.rd.data.length < 2 ^ 60) (hn : f.next p = (some (.ok h), f')) (ho : f'.getData p h = .ok o) (hm : Moderate h)
    (hs : SetUp p o o') (ht : NotTiles o') : Final (items p gz fuel n o') := by
  obtain ⟨S, x, hst⟩ := getData_start hn hd ho hm
  have hst' : StartUnit S x o' := by
    clear ho ht
    induction hs with
    | refl o => exact hst
    | call hc hr _ ih => exact ih (hst.call hc hr)
  refine going_final (S := S) (x := x) n ?_
  cases o' with
  | image d => trivial
  | bytes b => trivial
  | table t => exact Start.going hst'
  | rows r => exact Start.going hst'
  | tiles it => exact ht.elim

/-! Compressed images. -/

/-- Calls of `next` that give pixels lead from `it` to `it'`. -/
inductive Spec.Delivers (p : Profile) (gz : Gunzip) (fuel : Nat) : TileIt → TileIt → Prop where
  | refl (it) : Delivers p gz fuel it it
  | next {it it₁ it₂ : TileIt} {v : TilePixel} : it.next p gz fuel = some (.ok (some v), it₁) → Delivers p gz fuel it₁ it₂ →
      Delivers p gz fuel it it₂

theorem pixel_same (p : Profile) (it : TileIt) : (it.pixel p).2.rows = it.rows ∧ (it.pixel p).2.zTile = it.zTile := by
  unfold TileIt.pixel
  rcases usub p it.nPixels it.remaining >>= fun i => TileIt.rawValue it.ty it.cmp it.buf i >>= TileIt.toPixel it.kw with ⟨x, kw⟩ | _ | _
  · dsimp only
    cases usub p it.remaining 1 <;> exact ⟨rfl, rfl⟩
  · exact ⟨rfl, rfl⟩
  · exact ⟨rfl, rfl⟩

theorem pixel_some {p : Profile} {it it' : TileIt} {v : Option TilePixel} (h : it.pixel p = (.ok v, it')) : v ≠ none := by
  unfold TileIt.pixel at h
  rcases hq : usub p it.nPixels it.remaining >>= fun i => TileIt.rawValue it.ty it.cmp it.buf i >>= TileIt.toPixel it.kw with
    ⟨x, kw⟩ | _ | _
  · rw [hq] at h
    dsimp only at h
    cases hu : usub p it.remaining 1 with
    | ok r => rw [hu] at h; cases h; exact Option.some_ne_none _
    | err r => rw [hu] at h; cases h
    | panic => rw [hu] at h; cases h
  · rw [hq] at h
    cases h
  · rw [hq] at h
    cases h

theorem fill_same {p : Profile} {gz : Gunzip} {fuel : Nat} {off : Int} {it it' : TileIt} {r : Res Bool}
    (h : it.fill p gz fuel off = some (r, it')) : it'.zTile = it.zTile ∧ it'.remaining = it.remaining ∧
      (r = .ok true → it'.rows = it.rows) := by
  unfold TileIt.fill at h
  dsimp only at h
  rcases hq : it.rows.data.rd.seekRelative off with ⟨q, rd⟩
  rw [hq] at h
  cases q with
  | ok _ =>
    dsimp only at h
    rcases hb : TileIt.decompress p gz fuel it.cmp it.nPixels it.buf.length (rd.data.drop rd.pos) with _ | (buf | e | _)
    · rw [hb] at h
      cases h
    · rw [hb] at h
      cases h
      exact ⟨rfl, rfl, fun _ => rfl⟩
    · rw [hb] at h
      cases h
      exact ⟨rfl, rfl, fun e => (by cases e)⟩
    · rw [hb] at h
      cases h
      exact ⟨rfl, rfl, fun e => (by cases e)⟩
  | err e =>
    cases h
    exact ⟨rfl, rfl, fun e => (by cases e)⟩
  | panic =>
    cases h
    exact ⟨rfl, rfl, fun e => (by cases e)⟩

theorem openTile_same {p : Profile} {gz : Gunzip} {fuel : Nat} {vs : List DataValue} {it it' : TileIt}
    {r : Res Bool} (h : it.openTile p gz fuel vs = some (r, it')) : it'.zTile = it.zTile ∧
      (r = .ok true → it'.rows = it.rows) ∧ (r ≠ .panic → TileIt.product p it.zTile 1 = .ok it'.remaining) := by
  unfold TileIt.openTile at h
  cases ha : TileIt.arrayOffset vs it.dataIdx with
  | err e =>
    rw [ha] at h
    cases h
    exact ⟨rfl, fun e => (by cases e), fun e => absurd rfl e⟩
  | panic =>
    rw [ha] at h
    cases h
    exact ⟨rfl, fun e => (by cases e), fun e => absurd rfl e⟩
  | ok offset =>
    rw [ha] at h
    cases hp : TileIt.product p it.zTile 1 with
    | err e =>
      rw [hp] at h
      cases h
      exact ⟨rfl, fun e => (by cases e), fun e => absurd rfl e⟩
    | panic =>
      rw [hp] at h
      cases h
      exact ⟨rfl, fun e => (by cases e), fun e => absurd rfl e⟩
    | ok n =>
      rw [hp] at h
      dsimp only at h
      cases hk : TileIt.tileKw p it.rows.row vs it.kw with
      | err e =>
        rw [hk] at h
        cases h
        exact ⟨rfl, fun e => (by cases e), fun e => absurd rfl e⟩
      | panic =>
        rw [hk] at h
        cases h
        exact ⟨rfl, fun e => (by cases e), fun e => absurd rfl e⟩
      | ok kw =>
        rw [hk] at h
        dsimp only at h
        cases ho : TileIt.tileOffset p it.rows.row it.rows.data.ctx.naxis1 it.rows.data.ctx.theap offset with
        | err e =>
          rw [ho] at h
          cases h
          exact ⟨rfl, fun e => (by cases e), fun e => absurd rfl e⟩
        | panic =>
          rw [ho] at h
          cases h
          exact ⟨rfl, fun e => (by cases e), fun e => absurd rfl e⟩
        | ok off =>
          rw [ho] at h
          obtain ⟨h1, h2, h3⟩ := fill_same h
          exact ⟨h1, h3, fun _ => by rw [h2]⟩

theorem openTile_not_err {p : Profile} {gz : Gunzip} {fuel : Nat} {vs : List DataValue} {it it' : TileIt}
    {e : Err} (h : it.openTile p gz fuel vs = some (.err e, it')) : False := by
  unfold TileIt.openTile at h
  cases ha : TileIt.arrayOffset vs it.dataIdx with
  | err e => rw [ha] at h; cases h
  | panic => rw [ha] at h; cases h
  | ok offset =>
    rw [ha] at h
    cases hp : TileIt.product p it.zTile 1 with
    | err e => rw [hp] at h; cases h
    | panic => rw [hp] at h; cases h
    | ok n =>
      rw [hp] at h
      dsimp only at h
      cases hk : TileIt.tileKw p it.rows.row vs it.kw with
      | err e => rw [hk] at h; cases h
      | panic => rw [hk] at h; cases h
      | ok kw =>
        rw [hk] at h
        dsimp only at h
        cases ho : TileIt.tileOffset p it.rows.row it.rows.data.ctx.naxis1 it.rows.data.ctx.theap offset with
        | err e => rw [ho] at h; cases h
        | panic => rw [ho] at h; cases h
        | ok off =>
          rw [ho] at h
          dsimp only at h
          unfold TileIt.fill at h
          dsimp only at h
          rcases hq : it.rows.data.rd.seekRelative off with ⟨q, rd⟩
          rw [hq] at h
          cases q with
          | err e => cases h
          | panic => cases h
          | ok _ =>
            dsimp only at h
            rcases hb : TileIt.decompress p gz fuel it.cmp n it.buf.length (rd.data.drop rd.pos) with _ | (buf | e | _) <;>
              rw [hb] at h <;> cases h

/-- The rows are in order as long as pixels are given. -/
theorem delivers_rows {p : Profile} {gz : Gunzip} {fuel S : Nat} {x : BinTable} {it it' : TileIt}
    (h : InStep S x { it.rows.data with seekFirst := false } ∧
      (it.rows.data.seekFirst = true → it.rows.data.inHeap = none ∧ it.rows.data.byteOffset < 2 ^ 60))
    (hd : Delivers p gz fuel it it') : (InStep S x { it'.rows.data with seekFirst := false } ∧
      (it'.rows.data.seekFirst = true → it'.rows.data.inHeap = none ∧ it'.rows.data.byteOffset < 2 ^ 60)) ∧
      it'.zTile = it.zTile := by
  induction hd with
  | refl it => exact ⟨h, rfl⟩
  | @next it it₁ it₂ v hn _ ih =>
    have key : (InStep S x { it₁.rows.data with seekFirst := false } ∧
        (it₁.rows.data.seekFirst = true → it₁.rows.data.inHeap = none ∧ it₁.rows.data.byteOffset < 2 ^ 60)) ∧
        it₁.zTile = it.zTile := by
      unfold TileIt.next at hn
      by_cases hr : it.remaining = 0
      · rw [if_pos hr] at hn
        rcases hl : it.load p gz fuel with _ | ⟨q, it₃⟩
        · rw [hl] at hn
          cases hn
        · rw [hl] at hn
          match q, hn, hl with
          | .ok true, hn, hl =>
            have e := pixel_same p it₃
            rw [Option.some.inj hn] at e
            rw [e.1, e.2]
            unfold TileIt.load at hl
            rcases hrow : it.rows.next p fuel with _ | ⟨q, rows⟩
            · rw [hrow] at hl
              cases hl
            · rw [hrow] at hl
              match q, hl, hrow with
              | .ok (some vs), hl, hrow =>
                obtain ⟨g1, g2, -⟩ := openTile_same hl
                rw [g2 rfl, g1]
                exact ⟨(rows_final h hrow).1 vs rfl, rfl⟩
              | .ok none, hl, _ => cases hl
              | .err e, hl, _ => cases hl
              | .panic, hl, _ => cases hl
          | .ok false, hn, _ => cases hn
          | .err e, hn, _ => cases hn
          | .panic, hn, _ => cases hn
      · rw [if_neg hr] at hn
        have e := pixel_same p it
        rw [Option.some.inj hn] at e
        rw [e.1, e.2]
        exact ⟨h, rfl⟩
    obtain ⟨g1, g2⟩ := ih key.1
    exact ⟨g1, g2.trans key.2⟩

/-- **C77** for the pixels of a compressed image: after pixels have been given, `None` comes either because there is no further
row, and then it is final; or because the tile of a row cannot be decompressed, and then it is not: the next call is not at the
end. -/
theorem C77_tiles (p : Profile) (gz : Gunzip) (fuel : Nat) (f f' : Fits) (h : HDU) (it it₁ it₂ : TileIt)
    (hd : f.rd.data.length < 2 ^ 60) (hn : f.next p = (some (.ok h), f')) (ho : f'.getData p h = .ok (.tiles it))
    (hm : Moderate h) (hz : ∀ n ∈ it.zTile, 0 < n) (hsz : product it.zTile < 2 ^ 60)
    (hs : Delivers p gz fuel it it₁) (he : it₁.next p gz fuel = some (.ok none, it₂)) :
    (it₁.rows.next p fuel = some (.ok none, it₂.rows) ∧ it₂.next p gz fuel = some (.ok none, it₂)) ∨
    ((∃ vs rows, it₁.rows.next p fuel = some (.ok (some vs), rows)) ∧
      ∀ v it₃, it₂.next p gz fuel = some (.ok v, it₃) → v ≠ none) := by
  obtain ⟨S, x, hst⟩ := getData_start hn hd ho hm
  obtain ⟨h1, h2⟩ := delivers_rows (Start.going hst) hs
  unfold TileIt.next at he
  by_cases hr : it₁.remaining = 0
  · rw [if_pos hr] at he
    rcases hl : it₁.load p gz fuel with _ | ⟨q, it₃⟩
    · rw [hl] at he
      cases he
    · rw [hl] at he
      have hno : ∀ (r : TableRows) (e : Err), it₁.rows.next p fuel ≠ some (.err e, r) :=
        fun r e hrow => (rows_final h1 hrow).2.2 e rfl
      match q, he, hl with
      | .ok true, he, _ => exact absurd rfl (pixel_some (Option.some.inj he))
      | .ok false, he, hl =>
        cases he
        unfold TileIt.load at hl
        rcases hrow : it₁.rows.next p fuel with _ | ⟨q, rows⟩
        · rw [hrow] at hl
          cases hl
        · rw [hrow] at hl
          match q, hl, hrow with
          | .ok (some vs), hl, hrow =>
            refine .inr ⟨⟨vs, rows, rfl⟩, fun v it₃ hv => ?_⟩
            obtain ⟨-, -, g⟩ := openTile_same hl
            have hrem := g (by intro e; cases e)
            have hprod : TileIt.product p it₁.zTile 1 = .ok (1 * product it₁.zTile) :=
              product_ok (by rw [h2]; unfold two64; omega) (by rw [h2]; exact hz)
            have hpos : 0 < product it₁.zTile := product_pos (by rw [h2]; exact hz)
            have e : it₂.remaining = 1 * product it₁.zTile := Res.ok.inj (hrem.symm.trans hprod)
            unfold TileIt.next at hv
            rw [if_neg (by rw [e]; omega)] at hv
            exact pixel_some (Option.some.inj hv)
          | .ok none, hl, hrow =>
            cases hl
            refine .inl ⟨rfl, ?_⟩
            unfold TileIt.next
            dsimp only
            rw [if_pos hr]
            unfold TileIt.load
            dsimp only
            rw [(rows_final h1 hrow).2.1 rfl]
          | .err e, hl, hrow => exact absurd hrow (hno _ e)
          | .panic, hl, _ => cases hl
      | .err e, he, hl =>
        unfold TileIt.load at hl
        exfalso
        rcases hrow : it₁.rows.next p fuel with _ | ⟨q, rows⟩
        · rw [hrow] at hl
          cases hl
        · rw [hrow] at hl
          match q, hl, hrow with
          | .ok (some vs), hl, hrow => exact openTile_not_err hl
          | .ok none, hl, hrow => cases hl
          | .err e, hl, hrow => cases hl
          | .panic, hl, _ => cases hl
      | .panic, he, _ => cases he
  · rw [if_neg hr] at he
    exact absurd rfl (pixel_some (Option.some.inj he))

/-! Examples and counterexamples. -/

/-- A compressed image whose file ends before the last tile. -/
def tilesCut : List UInt8 := (fileBytes [writtenPrimary, writtenEdge]).take 8661

/-- A table of two arrays with 64-bit descriptors, the first of which is damaged. -/
def writtenFar : WrittenHdu :=
  { heading := ⟨xtensionLine .binTable, tableLines 16 2 1 1 ++ [strLine "TFORM1" "1QB"]⟩
    headerFill := blanks (2880 - 10 * 80)
    body := .table
      { columns := [.array true .B], rows := [[.array true (2 ^ 63) [.ubyte 7]], [.array true 0 [.ubyte 7]]], gap := []
        heap := [7] }
    dataFill := [] }

/-- What `n` calls of `next` give on the second HDU of a file; none if it cannot be opened. -/
def secondItems (data : List UInt8) (fuel n : Nat) : List (Option (Res Seen)) :=
  match (hdusTaken .wrapping 1 (Fits.fromReader ⟨data, 0⟩)).next .wrapping with
  | (some (.ok h), f) =>
    match f.getData .wrapping h with
    | .ok o => items .wrapping (.of fun _ => []) fuel n o
    | _ => []
  | _ => []

/-- The column is not one of 64-bit array descriptors. -/
def narrowForm : TForm → Bool
  | .Q _ => false
  | _ => true

/-- The second HDU is a table that meets the hypotheses of `C77_partial`. -/
def secondModerate (data : List UInt8) : Bool :=
  match (hdusTaken .wrapping 1 (Fits.fromReader ⟨data, 0⟩)).next .wrapping with
  | (some (.ok (.binTable x)), _) =>
    decide ((hdusTaken .wrapping 1 (Fits.fromReader ⟨data, 0⟩)).rd.data.length < 2 ^ 60 ∧ x.dataOffset < 2 ^ 60 ∧
      total (x.header.xtension.tforms.map colBytes) < 2 ^ 59 ∧ x.header.xtension.naxis1 < 2 ^ 59 ∧
      x.header.xtension.naxis1 * x.header.xtension.naxis2 < 2 ^ 59 ∧ x.header.xtension.theap < 2 ^ 60 ∧
      x.header.xtension.zImage = none ∧ x.header.xtension.tforms.all narrowForm = true)
  | _ => false

theorem second_final {data : List UInt8} (h : secondModerate data = true) (fuel n : Nat) :
    Final (secondItems data fuel n) := by
  unfold secondModerate at h
  unfold secondItems
  have nil : Final [] := fun i j s _ _ _ hj => absurd hj (Nat.not_lt_zero _)
  rcases hn : (hdusTaken .wrapping 1 (Fits.fromReader ⟨data, 0⟩)).next .wrapping with ⟨q, f⟩
  rw [hn] at h
  match q, h, hn with
  | none, h, _ => exact nil
  | some (.err e), h, _ => exact nil
  | some .panic, h, _ => exact nil
  | some (.ok (.primary _)), h, _ => cases h
  | some (.ok (.image _)), h, _ => cases h
  | some (.ok (.asciiTable _)), h, _ => cases h
  | some (.ok (.binTable x)), h, hn =>
    obtain ⟨g0, g1, g2, g3, g4, g5, g6, g7⟩ := of_decide_eq_true h
    dsimp only
    cases ho : f.getData .wrapping (.binTable x) with
    | err e => exact nil
    | panic => exact nil
    | ok o =>
      refine C77_partial _ _ _ _ _ _ _ o o g0 hn ho ⟨fun y e => ?_⟩ (.refl o) ?_
      · cases e
        exact ⟨g1, g2, g3, g4, g5, fun _ ty hm => (by
          have := List.all_eq_true.1 g7 _ hm
          cases this)⟩
      · unfold Fits.getData at ho
        dsimp only at ho
        rw [g6] at ho
        obtain ⟨t, -, rfl⟩ := Res.map_eq_ok.1 ho
        trivial

/-- A table whose file ends in the second array of its heap. -/
def arraysCut : List UInt8 := (fileBytes [writtenPrimary, writtenArrays]).take 8664

set_option maxRecDepth 20000 in
example : secondModerate arraysCut = true := by decide +kernel

set_option maxRecDepth 20000 in
example : secondItems arraysCut 50 7 =
    [some (.ok (.value (some (.cell 0 0 (.short 5))))), some (.ok (.value (some (.cell 0 1 (.short 6))))),
     some (.ok (.value (some (.cell 1 0 (.ubyte 9))))), some (.ok (.value (some (.cell 0 0 (.short 6))))),
     some (.ok (.value none)), some (.ok (.value none)), some (.ok (.value none))] := by
  decide +kernel

/-- The end is not final for the second HDU of a file. -/
theorem not_final {data : List UInt8} {fuel n i j : Nat} {s s' : Seen} (hd : data.length < 2 ^ 60) (hij : i ≤ j)
    (hi : (secondItems data fuel n)[i]? = some (some (.ok s))) (hs : IsEnd s)
    (hj : (secondItems data fuel n)[j]? = some (some (.ok s'))) (hs' : ¬ IsEnd s') : ¬ C77_statement := by
  intro h
  unfold secondItems at hi hj
  rcases hn : (hdusTaken .wrapping 1 (Fits.fromReader ⟨data, 0⟩)).next .wrapping with ⟨q, f⟩
  rw [hn] at hi hj
  match q, hi, hj, hn with
  | none, hi, _, _ => cases hi
  | some (.err e), hi, _, _ => cases hi
  | some .panic, hi, _, _ => cases hi
  | some (.ok x), hi, hj, hn =>
    dsimp only at hi hj
    cases ho : f.getData .wrapping x with
    | err e => rw [ho] at hi; cases hi
    | panic => rw [ho] at hi; cases hi
    | ok o =>
      rw [ho] at hi hj
      dsimp only at hi hj
      obtain ⟨s'', e, hs''⟩ := h .wrapping (.of fun _ => []) fuel n 1 data x f o o hd hn ho (.refl o) i j s hij hi hs
        (List.getElem?_eq_some_iff.1 hj).1
      rw [hj] at e
      cases e
      exact hs' hs''

set_option maxRecDepth 20000 in
theorem tilesCut_items : (secondItems tilesCut 50 7) =
    [some (.ok (.tilePixel (some (.int 7)))), some (.ok (.tilePixel (some (.int 7)))), some (.ok (.tilePixel none)),
     some (.ok (.tilePixel (some (.int 7)))), some (.ok (.tilePixel (some (.int 7)))), some (.ok (.tilePixel none)),
     some (.ok (.tilePixel none))] := by
  decide +kernel

set_option maxRecDepth 20000 in
theorem writtenFar_items : (secondItems (fileBytes [writtenPrimary, writtenFar]) 50 4) =
    [some (.ok (.value none)), some (.ok (.value (some (.cell 0 0 (.ubyte 7))))), some (.ok (.value none)),
     some (.ok (.value none))] := by
  decide +kernel

set_option maxRecDepth 20000 in
/-- A compressed image that is complete. -/
example : ((secondItems (fileBytes [writtenPrimary, writtenEdge]) 50 7).drop 4) =
    [some (.ok (.tilePixel none)), some (.ok (.tilePixel none)), some (.ok (.tilePixel none))] := by
  decide +kernel

/-- **C77** fails: when a compressed image is cut before its last tile, `None` is followed by two pixels, those of the tile
before. -/
theorem C77_fails : ¬ C77_statement :=
  not_final (data := tilesCut) (fuel := 50) (n := 7) (i := 2) (j := 3) (s := .tilePixel none)
    (s' := .tilePixel (some (.int 7))) (by
      refine Nat.lt_of_le_of_lt (List.length_take_le _ _) ?_
      decide) (by decide) (by rw [tilesCut_items]; rfl) rfl (by rw [tilesCut_items]; rfl) (fun e => (by cases e))

set_option maxRecDepth 20000 in
theorem writtenFar_length : (fileBytes [writtenPrimary, writtenFar]).length < 2 ^ 60 := by decide +kernel

/-- **C77** also fails for a table: when a 64-bit array descriptor points too far, `None` is followed by the value of the next
row. -/
theorem C77_fails_far : ¬ C77_statement :=
  not_final (data := fileBytes [writtenPrimary, writtenFar]) (fuel := 50) (n := 4) (i := 0) (j := 1) (s := .value none)
    (s' := .value (some (.cell 0 0 (.ubyte 7)))) writtenFar_length (by decide) (by rw [writtenFar_items]; rfl) rfl
    (by rw [writtenFar_items]; rfl) (fun e => (by cases e))

end Fitsrs

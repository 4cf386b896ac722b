import Verif.Lemmas.Table
import Verif.Lemmas.Pixels
/-
Iterators over tables of arbitrary contents: an invariant that holds until the end of the iteration.
-/

namespace Fitsrs
open Spec

/-- The byte offset is in step with the reader (or with the place where it comes back from the heap), and the sizes are
moderate. -/
structure InStep (S : Nat) (x : BinTable) (t : TableData) : Prop where
  ctx : t.ctx = x
  data : t.rd.data.length < 2 ^ 60
  start : S < 2 ^ 60
  offsets : ∀ (c : Nat) (o : Nat), t.offsets[c]? = some o → o < 2 ^ 60
  width : x.naxis1 < 2 ^ 60
  main : t.mainSize < 2 ^ 60
  theap : x.theap < 2 ^ 60
  narrow : t.heap = true → ∀ ty, .Q ty ∉ x.tforms
  first : t.seekFirst = false
  place : match t.inHeap with
    | none => t.rd.pos = S + t.byteOffset ∧ t.byteOffset < 2 ^ 61
    | some h => h.mainPos = S + t.byteOffset ∧ h.mainPos ≤ t.rd.data.length

/-- A step that succeeds or panics, keeping the invariant. -/
def InStep.Good (S : Nat) (x : BinTable) (r : Res Unit × TableData) : Prop :=
  match r with
  | (.ok _, t) => InStep S x t ∧ t.inHeap = none
  | (.err _, _) => False
  | (.panic, _) => True

/-- What `next` does: a value and the invariant, or the end for good. -/
def InStep.Done (p : Profile) (S : Nat) (x : BinTable) (row : Nat) (r : Res (Option DataValue) × TableData) : Prop :=
  match r with
  | (.ok (some _), t) => InStep S x t
  | (.ok none, t) => t.next p = (.ok none, t) ∧ t.row = row
  | (.err _, _) => False
  | (.panic, _) => True

variable {p : Profile} {S : Nat} {x : BinTable} {t : TableData}

theorem InStep.advance (h : InStep S x t) (hh : t.inHeap = none) {off : Int}
    (h0 : 0 ≤ (t.byteOffset : Int) + off) (h1 : (t.byteOffset : Int) + off < 2 ^ 61) :
    Good S x (t.advance p off) := by
  have hp := h.place
  rw [hh] at hp
  obtain ⟨hp, hb⟩ : _ ∧ _ := hp
  have hS := h.start
  obtain ⟨n, hn⟩ := Int.eq_ofNat_of_zero_le h0
  have hseek : t.rd.seekRelative off = (.ok (), { t.rd with pos := S + n }) :=
    seekRelative_nat (S + n) (by rw [hp]; push_cast; omega) (by unfold two64; omega)
  have hadd : uadd p t.byteOffset (asU64 off) = .ok n ∨ uadd p t.byteOffset (asU64 off) = .panic := by
    unfold uadd
    have h64 : two64 = 2 ^ 64 := rfl
    by_cases hneg : 0 ≤ off
    · left
      have : t.byteOffset + asU64 off = n := by
        unfold asU64
        omega
      rw [this, if_pos (by omega)]
    · have : t.byteOffset + asU64 off = n + 2 ^ 64 := by
        unfold asU64
        omega
      rw [this, if_neg (by omega)]
      cases p
      · exact .inr rfl
      · left
        show Res.ok ((n + 2 ^ 64) % two64) = .ok n
        rw [h64, show (n + 2 ^ 64) % 2 ^ 64 = n by omega]
  unfold TableData.advance
  rw [hseek]
  dsimp only
  rcases hadd with e | e
  · rw [e]
    exact ⟨⟨h.ctx, h.data, h.start, h.offsets, h.width, h.main, h.theap, h.narrow, h.first, by
      show match t.inHeap with | none => _ | some h => _
      rw [hh]
      exact ⟨rfl, by show n < _; omega⟩⟩, hh⟩
  · rw [e]
    trivial

theorem InStep.seekToNextCol (h : InStep S x t) (hh : t.inHeap = none) (hb : t.byteOffset < 2 ^ 60) :
    Good S x (t.seekToNextCol p) := by
  unfold TableData.seekToNextCol
  cases hl : usub p t.cols.length 1 with
  | err e => trivial
  | panic => trivial
  | ok lc =>
  cases hr : usub p t.ctx.naxis2 1 with
  | err e => trivial
  | panic => trivial
  | ok lr =>
  dsimp only
  generalize (t.col == lc) = a, (t.row == lr) = b
  have hm := h.main
  have key : ∀ t : TableData, InStep S x t → t.inHeap = none → t.byteOffset < 2 ^ 60 → t.mainSize < 2 ^ 60 →
      Good S x (if (a && b) = true then
        match i64op p (asI64 t.mainSize - asI64 t.byteOffset) with
        | .ok off => t.advance p off
        | .err e => (.err e, t)
        | .panic => (.panic, t)
      else
        match ({ t with col := (t.col + 1) % t.cols.length, item := 0 } : TableData).nextOffset p ((t.col + 1) % t.cols.length) with
        | .ok off => ({ t with col := (t.col + 1) % t.cols.length, item := 0 } : TableData).advance p off
        | .err e => (.err e, ({ t with col := (t.col + 1) % t.cols.length, item := 0 } : TableData))
        | .panic => (.panic, ({ t with col := (t.col + 1) % t.cols.length, item := 0 } : TableData))) := by
    clear h hh hb hm hl hr
    intro t h hh hb hm
    by_cases hab : (a && b) = true
    · rw [if_pos hab, asI64_lt (by omega), asI64_lt (by omega), i64op_ok (by omega) (by omega)]
      exact h.advance hh (by omega) (by omega)
    · rw [if_neg hab]
      generalize (t.col + 1) % t.cols.length = col
      have h' : InStep S x { t with col, item := 0 } :=
        ⟨h.ctx, h.data, h.start, h.offsets, h.width, h.main, h.theap, h.narrow, h.first, h.place⟩
      have hoff : ∀ u : TableData, InStep S x u → u.byteOffset < 2 ^ 60 →
          (∃ o : Nat, u.nextOffset p col = .ok o ∧ o < 2 ^ 60) ∨ u.nextOffset p col = .panic := by
        intro u hu hbu
        unfold TableData.nextOffset
        cases hc : u.cols[col]? with
        | none => exact .inr rfl
        | some c =>
          dsimp only
          cases ho : u.offsets[c]? with
          | none => exact .inr rfl
          | some o =>
            dsimp only
            by_cases hz : u.ctx.naxis1 = 0
            · rw [if_pos hz]
              exact .inr rfl
            · rw [if_neg hz]
              left
              have hol := hu.offsets c o ho
              have hw := hu.width
              rw [← hu.ctx] at hw
              rw [asI64_lt (n := o) (by omega), asI64_lt (n := u.byteOffset) (by omega),
                asI64_lt (n := u.ctx.naxis1) (by omega)]
              have hm : (u.byteOffset : Int).tmod (u.ctx.naxis1 : Int) = ((u.byteOffset % u.ctx.naxis1 : Nat) : Int) := by
                rw [Int.tmod_eq_emod_of_nonneg (Int.natCast_nonneg _)]
                exact (Int.natCast_emod _ _).symm
              have hlt := Nat.mod_lt u.byteOffset (Nat.pos_of_ne_zero hz)
              rw [hm]
              generalize u.byteOffset % u.ctx.naxis1 = m at hlt
              rw [i64op_ok (by omega) (by omega), Res.bind_ok]
              by_cases hneg : (o : Int) - (m : Int) < 0
              · rw [if_pos hneg, i64op_ok (by omega) (by omega)]
                exact ⟨((o : Int) - m + u.ctx.naxis1).toNat, congrArg Res.ok (Int.toNat_of_nonneg (by omega)).symm, by omega⟩
              · rw [if_neg hneg]
                exact ⟨((o : Int) - m).toNat, congrArg Res.ok (Int.toNat_of_nonneg (by omega)).symm, by omega⟩
      rcases hoff _ h' hb with ⟨o, e, ho⟩ | e
      · rw [e]
        refine h'.advance hh ?_ ?_
        · dsimp only
          omega
        · dsimp only
          omega
      · rw [e]
        trivial
  unfold TableData.seekNext
  cases a with
  | false => exact key t h hh hb hm
  | true =>
    exact key { t with row := t.row + 1 } ⟨h.ctx, h.data, h.start, h.offsets, h.width, h.main, h.theap, h.narrow, h.first, h.place⟩
      hh hb hm

theorem InStep.finish {row : Nat} {r : Res Unit × TableData} (h : Good S x r) (v : DataValue) :
    Done p S x row (TableData.finish v r) := by
  obtain ⟨r, t⟩ := r
  cases r with
  | ok _ => exact h.1
  | err e => exact h.elim
  | panic => trivial

theorem elemTy_pos (ty : ElemTy) : 0 < ty.bytes := by cases ty <;> decide

theorem readExact_split (n : Nat) (hn : 0 < n) (r : Reader) :
    (r.pos + n ≤ r.data.length ∧ ∃ bs, r.readExact n = (.ok bs, { r with pos := r.pos + n })) ∨
    ∃ e, r.readExact n = (.err e, { r with pos := max r.pos r.data.length }) ∧
      Reader.readExact n { r with pos := max r.pos r.data.length } = (.err e, { r with pos := max r.pos r.data.length }) := by
  by_cases h : r.pos + n ≤ r.data.length
  · exact .inl ⟨h, _, Reader.readExact_of_le h⟩
  · refine .inr ⟨_, Reader.readExact_of_gt hn (by omega), ?_⟩
    rw [Reader.readExact_of_gt hn (by show r.data.length < max _ _ + n; omega)]
    dsimp only
    rw [Nat.max_eq_left (b := r.data.length) (by omega)]

/-- The end of the table, or a read that fails: this goes on. -/
theorem next_again {t : TableData} {c : Nat} (hc : t.cols[t.col]? = some c) (hs : t.seekFirst = false)
    (h : t.nextAt p c = (.ok none, t)) : t.next p = (.ok none, t) := by
  unfold TableData.next
  rw [hc]
  dsimp only
  unfold TableData.toFirstCol
  rw [if_neg (by rw [hs]; decide)]
  exact h

theorem InStep.nextInHeap {c : Nat} {h' : HeapState} (h : InStep S x t) (hh : t.inHeap = some h')
    (hc : t.cols[t.col]? = some c): Done p S x t.row (t.nextInHeap p c h') := by
  have hp := h.place
  rw [hh] at hp
  obtain ⟨hp, hb⟩ : _ ∧ _ := hp
  unfold TableData.nextInHeap
  cases hu : usub p h'.num (h'.left / h'.size) with
  | err e => exact (usub_not_err hu).elim
  | panic => trivial
  | ok idx =>
    dsimp only
    rcases readExact_split h'.ty.bytes (elemTy_pos _) t.rd with ⟨hle, bs, e⟩ | ⟨er, e, e'⟩
    · rw [e]
      dsimp only
      cases hl : usub p h'.left h'.ty.bytes with
      | err e => exact (usub_not_err hl).elim
      | panic => trivial
      | ok left =>
        dsimp only
        by_cases hz : left = 0
        · rw [if_pos hz]
          refine InStep.finish ?_ _
          have hd := h.data
          refine InStep.seekToNextCol ⟨h.ctx, h.data, h.start, h.offsets, h.width, h.main, h.theap, h.narrow, h.first, ?_⟩ rfl
            (by show t.byteOffset < _; omega)
          show h'.mainPos = S + t.byteOffset ∧ t.byteOffset < 2 ^ 61
          exact ⟨hp, by omega⟩
        · rw [if_neg hz]
          exact ⟨h.ctx, h.data, h.start, h.offsets, h.width, h.main, h.theap, h.narrow, h.first, hp, hb⟩
    · rw [e]
      refine ⟨next_again (c := c) hc h.first ?_, rfl⟩
      unfold TableData.nextAt
      dsimp only
      rw [hh]
      dsimp only
      unfold TableData.nextInHeap
      rw [hu]
      dsimp only
      rw [e']

theorem InStep.nextAt {c : Nat} (h : InStep S x t) (hc : t.cols[t.col]? = some c) :
    Done p S x t.row (t.nextAt p c) := by
  unfold TableData.nextAt
  cases hh : t.inHeap with
  | some h' => exact h.nextInHeap hh hc
  | none =>
    dsimp only
    have hp := h.place
    rw [hh] at hp
    obtain ⟨hp, hb⟩ : _ ∧ _ := hp
    have hd := h.data
    by_cases hm : t.byteOffset = t.mainSize
    · rw [if_pos hm]
      refine ⟨next_again (c := c) hc h.first ?_, rfl⟩
      unfold TableData.nextAt
      rw [hh]
      dsimp only
      rw [if_pos hm]
    · rw [if_neg hm]
      -- the same call, with the reader at its end
      have again : ∀ rd : Reader, TableData.nextAt p c { t with rd } = (.ok none, { t with rd }) →
          Done p S x t.row (.ok none, { t with rd }) := fun rd e => ⟨next_again (c := c) hc h.first e, rfl⟩
      have arr : ∀ (ty : ElemTy) (k : Nat) (mk : Nat → Nat → DataValue), 0 < k →
          (∀ rd : Reader, TableData.nextArray p c ty k mk { t with rd } = (.ok none, { t with rd }) →
            Done p S x t.row (.ok none, { t with rd })) → (t.heap = true → k ≤ 4) →
          Done p S x t.row (t.nextArray p c ty k mk) := by
        intro ty k mk hk ag h4
        rcases readExact_split (k + k) (by omega) t.rd with ⟨hle, bs, e⟩ | ⟨er, e, e'⟩
        · have hlen : (bs.drop k).length ≤ k := by
            have := (Reader.readExact_ok_iff.1 e).2.1
            rw [List.length_drop]
            omega
          unfold TableData.nextArray
          rw [e]
          dsimp only
          have h1 : InStep S x { t with rd := { t.rd with pos := t.rd.pos + (k + k) }, byteOffset := t.byteOffset + (k + k) } :=
            ⟨h.ctx, h.data, h.start, h.offsets, h.width, h.main, h.theap, h.narrow, h.first, by
              show match t.inHeap with | none => _ | some h => _
              rw [hh]
              exact ⟨by show t.rd.pos + (k + k) = S + (t.byteOffset + (k + k)); omega, by show t.byteOffset + (k + k) < _; omega⟩⟩
          have hb1 : t.byteOffset + (k + k) < 2 ^ 60 := by omega
          by_cases hheap : t.heap = true
          · rw [if_pos hheap]
            have hk4 := h4 hheap
            have hoff : beNat (bs.drop k) < 2 ^ 32 := by
              refine Nat.lt_of_lt_of_le (beNat_lt _) ?_
              exact Nat.le_trans (Nat.pow_le_pow_right (by decide) (Nat.le_trans hlen hk4)) (by decide)
            generalize beNat (bs.drop k) = offset at hoff
            generalize beNat (bs.take k) = num
            unfold TableData.jumpToHeap
            dsimp only
            rw [hh]
            dsimp only
            have hth := h.theap
            have hctx := h.ctx
            have hS := h.start
            have ho : TableData.heapOffset p (t.byteOffset + (k + k)) t.ctx.theap offset =
                .ok ((t.ctx.theap : Int) + offset - (t.byteOffset + (k + k) : Nat)) := by
              unfold TableData.heapOffset
              rw [hctx, asI64_lt (by omega), asI64_lt (by omega), asI64_lt (by omega)]
              rw [i64op_ok (by omega) (by omega), Res.bind_ok, i64op_ok (by omega) (by omega), Res.bind_ok,
                i64op_ok (by omega) (by omega)]
              congr 1
              omega
            rw [ho]
            dsimp only
            rw [seekRelative_nat (S + t.ctx.theap + offset) (by
              show ((t.rd.pos + (k + k) : Nat) : Int) + _ = _
              push_cast
              omega) (by unfold two64; rw [hctx]; omega)]
            dsimp only
            cases hmul : umul p num ty.bytes with
            | err e => exact (umul_not_err hmul).elim
            | panic => trivial
            | ok left =>
              dsimp only
              refine InStep.nextInHeap (t := { t with
                rd := { t.rd with pos := S + t.ctx.theap + offset }, byteOffset := t.byteOffset + (k + k)
                inHeap := some { ty, mainPos := t.rd.pos + (k + k), left, num, size := ty.bytes } }) ?_ rfl hc
              exact ⟨h.ctx, h.data, h.start, h.offsets, h.width, h.main, h.theap, h.narrow, h.first,
                by show t.rd.pos + (k + k) = S + (t.byteOffset + (k + k)); omega, hle⟩
          · rw [if_neg hheap]
            exact InStep.finish (h1.seekToNextCol hh hb1) _
        · have : t.nextArray p c ty k mk = (.ok none, { t with rd := { t.rd with pos := max t.rd.pos t.rd.data.length } }) := by
            unfold TableData.nextArray
            rw [e]
          rw [this]
          refine ag _ ?_
          unfold TableData.nextArray
          dsimp only
          rw [e']
      cases ht : t.ctx.tforms[c]? with
      | none => trivial
      | some fm =>
        cases fm with
        | P ty =>
          refine arr ty 4 _ (by omega) (fun rd e => again rd ?_) (fun _ => Nat.le_refl _)
          exact (nextAt_form (t := { t with rd }) hh hm ht).trans e
        | Q ty =>
          refine arr ty 8 _ (by omega) (fun rd e => again rd ?_) (fun hheap => ?_)
          · exact (nextAt_form (t := { t with rd }) hh hm ht).trans e
          · refine absurd ?_ (h.narrow hheap ty)
            rw [← h.ctx]
            exact List.mem_of_getElem? ht
        | plain ty rep =>
          dsimp only
          rcases readExact_split ty.bytes (elemTy_pos _) t.rd with ⟨hle, bs, e⟩ | ⟨er, e, e'⟩
          · unfold TableData.nextPlain
            rw [e]
            dsimp only
            have h1 : InStep S x { t with rd := { t.rd with pos := t.rd.pos + ty.bytes }, byteOffset := t.byteOffset + ty.bytes, item := t.item + 1 } :=
              ⟨h.ctx, h.data, h.start, h.offsets, h.width, h.main, h.theap, h.narrow, h.first, by
                show match t.inHeap with | none => _ | some h => _
                rw [hh]
                exact ⟨by show t.rd.pos + ty.bytes = S + (t.byteOffset + ty.bytes); omega,
                  by show t.byteOffset + ty.bytes < _; omega⟩⟩
            by_cases hi : t.item + 1 = TableData.itemCount ty rep
            · rw [if_pos hi]
              exact InStep.finish (h1.seekToNextCol hh (by show t.byteOffset + ty.bytes < _; omega)) _
            · rw [if_neg hi]
              exact h1
          · have : t.nextPlain p c ty rep = (.ok none, { t with rd := { t.rd with pos := max t.rd.pos t.rd.data.length } }) := by
              unfold TableData.nextPlain
              rw [e]
            rw [this]
            refine again _ ?_
            refine (nextAt_form (t := { t with rd := { t.rd with pos := max t.rd.pos t.rd.data.length } }) hh hm ht).trans ?_
            show TableData.nextPlain p c ty rep _ = _
            unfold TableData.nextPlain
            dsimp only
            rw [e']

theorem InStep.Good.ok {u : Unit} (h : InStep.Good S x (.ok u, t)) : InStep S x t := h.1

theorem InStep.Good.err {e : Err} (h : InStep.Good S x (.err e, t)) : False := h

attribute [local irreducible] InStep.Good

theorem InStep.advance_nat {o : Nat} (h : InStep S x t) (hh : t.inHeap = none) (ho : o < 2 ^ 60)
    (hb : t.byteOffset < 2 ^ 60) : Good S x (TableData.advance p (o : Int) t) := by
  refine h.advance hh ?_ ?_
  · omega
  · omega

theorem advance_same (p : Profile) (o : Int) (t : TableData) : (t.advance p o).2.cols = t.cols ∧
    (t.advance p o).2.col = t.col ∧ (t.advance p o).2.row = t.row := by
  unfold TableData.advance
  rcases t.rd.seekRelative o with ⟨r, rd⟩
  cases r with
  | ok _ =>
    dsimp only
    cases uadd p t.byteOffset (asU64 o) with
    | ok b => exact ⟨rfl, rfl, rfl⟩
    | err b => exact ⟨rfl, rfl, rfl⟩
    | panic => exact ⟨rfl, rfl, rfl⟩
  | err b => exact ⟨rfl, rfl, rfl⟩
  | panic => exact ⟨rfl, rfl, rfl⟩

/-- `next` either gives a value and keeps the invariant, or ends the iteration for good (or panics). -/
theorem InStep.next (h : InStep S x { t with seekFirst := false })
    (hf : t.seekFirst = true → t.inHeap = none ∧ t.byteOffset < 2 ^ 60) : Done p S x t.row (t.next p) := by
  unfold TableData.next
  cases hc : t.cols[t.col]? with
  | none => trivial
  | some c =>
    dsimp only
    unfold TableData.toFirstCol
    by_cases hs : t.seekFirst = true
    · rw [if_pos hs]
      dsimp only
      obtain ⟨hh, hb⟩ := hf hs
      cases ho : t.offsets[c]? with
      | none => trivial
      | some o =>
        dsimp only
        have hol := h.offsets c o ho
        have hg : Good S x (TableData.advance p (asI64 o) { t with seekFirst := false }) := by
          rw [asI64_lt (by omega)]
          exact h.advance_nat hh hol hb
        have hsame := advance_same p (asI64 o) { t with seekFirst := false }
        revert hg hsame
        generalize TableData.advance p (asI64 o) { t with seekFirst := false } = w
        intro hg hsame
        obtain ⟨r, u⟩ := w
        cases r with
        | err e => exact hg.err.elim
        | panic => trivial
        | ok _ =>
          dsimp only
          obtain ⟨e1, e2, e3⟩ : u.cols = t.cols ∧ u.col = t.col ∧ u.row = t.row := hsame
          rw [← e3]
          exact InStep.nextAt hg.ok (by rw [e1, e2]; exact hc)
    · rw [if_neg hs]
      have hs : t.seekFirst = false := by
        cases hx : t.seekFirst with
        | true => exact absurd hx hs
        | false => rfl
      have ht : ({ t with seekFirst := false } : TableData) = t := by rw [← hs]
      rw [ht] at h
      exact h.nextAt hc

end Fitsrs

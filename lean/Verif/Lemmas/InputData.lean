import Verif.Model.InputData
import Verif.Lemmas.Basic
/-
The methods of the iterators as programs (Model/InputData.lean) are the functions of the rest of the model.
-/

namespace Fitsrs

theorem moves (off : Int) (r : Reader) :
    (∃ r', r.seekRelative off = (.ok (), r')) ∨ ∃ e r', r.seekRelative off = (.err e, r') := by
  unfold Reader.seekRelative
  dsimp only
  split
  · exact .inl ⟨_, rfl⟩
  · exact .inr ⟨_, _, rfl⟩

theorem reads (n : Nat) (r : Reader) :
    (∃ bs r', r.readExact n = (.ok bs, r')) ∨ ∃ e r', r.readExact n = (.err e, r') := by
  unfold Reader.readExact
  dsimp only
  split
  · exact .inl ⟨_, _, rfl⟩
  · exact .inr ⟨_, _, rfl⟩

namespace Prog
variable {α β : Type}

theorem read_ok {n : Nat} {no : Err → α} {k : List UInt8 → Prog α} {r r' : Reader} {bs : List UInt8}
    (h : r.readExact n = (.ok bs, r')) : (read n no k).val r = (k bs).val r' := by
  conv => lhs; unfold val
  rw [h]

theorem read_err {n : Nat} {no : Err → α} {k : List UInt8 → Prog α} {r r' : Reader} {e : Err}
    (h : r.readExact n = (.err e, r')) : (read n no k).val r = (no e, r') := by unfold val; rw [h]

theorem move_ok {off : Int} {no : Err → α} {k : Prog α} {r r' : Reader} (h : r.seekRelative off = (.ok (), r')) :
    (move off no k).val r = k.val r' := by
  conv => lhs; unfold val
  rw [h]

theorem move_err {off : Int} {no : Err → α} {k : Prog α} {r r' : Reader} {e : Err} (h : r.seekRelative off = (.err e, r')) :
    (move off no k).val r = (no e, r') := by unfold val; rw [h]

theorem map_val (f : α → β) (x : Prog α) (r : Reader) : (x.map f).val r = (f (x.val r).1, (x.val r).2) := by
  induction x generalizing r with
  | done a => rfl
  | read n no k ih =>
    unfold map val
    rcases reads n r with ⟨bs, r', h⟩ | ⟨e, r', h⟩ <;> rw [h]
    · exact ih bs r'
    · rfl
  | move off no k ih =>
    unfold map val
    rcases moves off r with ⟨r', h⟩ | ⟨e, r', h⟩ <;> rw [h]
    · exact ih r'
    · rfl
  | tell k ih => exact ih _ r
  | goto pos no k ih => exact ih _

/-- What a program returns when a call fails is bad. -/
def FailsAs (bad : α → Prop) : Prog α → Prop
  | done _ => True
  | read _ no k => (∀ e, bad (no e)) ∧ ∀ bs, (k bs).FailsAs bad
  | move _ no k => (∀ e, bad (no e)) ∧ k.FailsAs bad
  | tell k => ∀ pos, (k pos).FailsAs bad
  | goto _ no k => (∀ e, bad (no e)) ∧ k.FailsAs bad

theorem FailsAs.map {bad : α → Prop} {bad' : β → Prop} {f : α → β} (hf : ∀ a, bad a → bad' (f a)) {x : Prog α}
    (h : x.FailsAs bad) : (x.map f).FailsAs bad' := by
  induction x with
  | done a => trivial
  | read n no k ih => exact ⟨fun e => hf _ (h.1 e), fun bs => ih bs (h.2 bs)⟩
  | move off no k ih => exact ⟨fun e => hf _ (h.1 e), ih h.2⟩
  | tell k ih => exact fun pos => ih pos (h pos)
  | goto pos no k ih => exact ⟨fun e => hf _ (h.1 e), ih h.2⟩

theorem andThen_val {bad : α → Prop} {x : Prog α} (hx : x.FailsAs bad) {g : α → β} {f : α → Prog β}
    (hg : ∀ a, bad a → f a = done (g a)) (r : Reader) :
    (x.andThen g f).val r = (f (x.val r).1).val (x.val r).2 := by
  induction x generalizing r with
  | done a => rfl
  | read n no k ih =>
    unfold andThen
    rcases reads n r with ⟨bs, r', h⟩ | ⟨e, r', h⟩
    · rw [read_ok h, read_ok h]
      exact ih bs (hx.2 bs) r'
    · rw [read_err h, read_err h, hg _ (hx.1 e)]
      rfl
  | move off no k ih =>
    unfold andThen
    rcases moves off r with ⟨r', h⟩ | ⟨e, r', h⟩
    · rw [move_ok h, move_ok h]
      exact ih hx.2 r'
    · rw [move_err h, move_err h, hg _ (hx.1 e)]
      rfl
  | tell k ih => exact ih _ (hx _) r
  | goto pos no k ih => exact ih hx.2 _

theorem FailsAs.andThen {bad : α → Prop} {bad' : β → Prop} {x : Prog α} (hx : x.FailsAs bad) {g : α → β} {f : α → Prog β}
    (hg : ∀ a, bad a → bad' (g a)) (hf : ∀ a, (f a).FailsAs bad') : (x.andThen g f).FailsAs bad' := by
  induction x with
  | done a => exact hf a
  | read n no k ih => exact ⟨fun e => hg _ (hx.1 e), fun bs => ih bs (hx.2 bs)⟩
  | move off no k ih => exact ⟨fun e => hg _ (hx.1 e), ih hx.2⟩
  | tell k ih => exact fun pos => ih pos (hx pos)
  | goto pos no k ih => exact ⟨fun e => hg _ (hx.1 e), ih hx.2⟩

end Prog

/-! ### Pixels -/

theorem It.nextP_val (it : It) (r : Reader) :
    (it.nextP).val r = ((({ it with rd := r } : It).next.1, { ({ it with rd := r } : It).next.2 with rd := it.rd }),
      ({ it with rd := r } : It).next.2.rd) := by
  unfold It.nextP It.next
  dsimp only
  split
  · rfl
  · unfold Prog.val
    rcases reads it.ty.byteSize r with ⟨bs, r', h⟩ | ⟨e, r', h⟩ <;> rw [h] <;> rfl

theorem It.readValueP_val (p : Profile) (idx : Nat) (it : It) (r : Reader) :
    (it.readValueP p idx).val r = (((({ it with rd := r } : It).readValue p idx).1,
      { (({ it with rd := r } : It).readValue p idx).2 with rd := it.rd }), (({ it with rd := r } : It).readValue p idx).2.rd) := by
  unfold It.readValueP It.readValue
  dsimp only
  split
  · rfl
  · rw [show ({ it with rd := r } : It).readOffset p idx = it.readOffset p idx from rfl]
    cases it.readOffset p idx with
    | ok off =>
      unfold It.readAt
      dsimp only
      unfold Prog.val
      rcases moves off r with ⟨r', h⟩ | ⟨e, r', h⟩ <;> rw [h]
      · dsimp only
        rw [Prog.map_val, It.nextP_val]
        dsimp only
        generalize hy : ({ it with rd := r', cur := idx } : It).next = y
        obtain ⟨o, it'⟩ := y
        cases o <;> rfl
    | err e => rfl
    | panic => rfl

/-! ### Tables -/

namespace TableData
variable {α : Type}

/-- What follows a method that moves the reader. -/
def followed (f : Res Unit × TableData → α) (k : TableData → Prog α) (rd0 : Reader) (x : Res Unit × TableData) : α × Reader :=
  match x with
  | (.ok _, t) => (k { t with rd := rd0 }).val t.rd
  | (.err e, t) => (f (.err e, { t with rd := rd0 }), t.rd)
  | (.panic, t) => (f (.panic, { t with rd := rd0 }), t.rd)

theorem advanceP_val (p : Profile) (off : Int) (f : Res Unit × TableData → α) (k : TableData → Prog α) (t : TableData)
    (r : Reader) : (t.advanceP p off f k).val r = followed f k t.rd (({ t with rd := r } : TableData).advance p off) := by
  unfold advanceP advance Prog.val
  dsimp only
  rcases moves off r with ⟨r', h⟩ | ⟨e, r', h⟩ <;> rw [h]
  · dsimp only
    cases uadd p t.byteOffset (asU64 off) <;> rfl
  · rfl

theorem seekNextP_val (p : Profile) (lc lr : Bool) (f : Res Unit × TableData → α) (k : TableData → Prog α) (t : TableData)
    (r : Reader) : (t.seekNextP p lc lr f k).val r = followed f k t.rd (({ t with rd := r } : TableData).seekNext p lc lr) := by
  have step : ∀ (u : TableData) (x : Res Int), u.rd = t.rd →
      (match x with
        | .ok off => u.advanceP p off f k
        | .err e => .done (f (.err e, u))
        | .panic => .done (f (.panic, u))).val r =
      followed f k t.rd (match x with
        | .ok off => ({ u with rd := r } : TableData).advance p off
        | .err e => (.err e, ({ u with rd := r } : TableData))
        | .panic => (.panic, ({ u with rd := r } : TableData))) := by
    intro u x hu
    cases x with
    | ok off => dsimp only; rw [advanceP_val, hu]
    | err e => dsimp only [followed]; rw [← hu]; rfl
    | panic => dsimp only [followed]; rw [← hu]; rfl
  unfold seekNextP seekNext
  cases lc <;> cases lr
  · exact step { t with col := (t.col + 1) % t.cols.length, item := 0 } _ rfl
  · exact step { t with col := (t.col + 1) % t.cols.length, item := 0 } _ rfl
  · exact step { t with row := t.row + 1, col := (t.col + 1) % t.cols.length, item := 0 } _ rfl
  · exact step { t with row := t.row + 1 } _ rfl

theorem seekToNextColP_val (p : Profile) (f : Res Unit × TableData → α) (k : TableData → Prog α) (t : TableData)
    (r : Reader) : (t.seekToNextColP p f k).val r = followed f k t.rd (({ t with rd := r } : TableData).seekToNextCol p) := by
  unfold seekToNextColP seekToNextCol
  dsimp only
  cases usub p t.cols.length 1 with
  | ok lc =>
    cases usub p t.ctx.naxis2 1 with
    | ok lr => exact seekNextP_val p _ _ f k t r
    | err e => rfl
    | panic => rfl
  | err e => rfl
  | panic => rfl

theorem seekToRowP_val (p : Profile) (idx : Nat) (t : TableData) (r : Reader) :
    (t.seekToRowP p idx).val r = (((({ t with rd := r } : TableData).seekToRow p idx).1,
      { (({ t with rd := r } : TableData).seekToRow p idx).2 with rd := t.rd }),
      (({ t with rd := r } : TableData).seekToRow p idx).2.rd) := by
  unfold seekToRowP seekToRow
  dsimp only
  split
  · rfl
  · cases t.cols[0]?.bind (t.offsets[·]?) with
    | none => rfl
    | some o =>
      dsimp only
      cases i64op p (asI64 idx * asI64 t.ctx.naxis1) >>= fun a => i64op p (a + asI64 o) with
      | ok new =>
        dsimp only
        cases i64op p (- asI64 t.byteOffset) >>= fun a => i64op p (a + new) with
        | ok off =>
          dsimp only
          rcases moves off r with ⟨r', h⟩ | ⟨e, r', h⟩
          · rw [Prog.move_ok h, h]; rfl
          · rw [Prog.move_err h, h]
        | err e => rfl
        | panic => rfl
      | err e => rfl
      | panic => rfl

theorem jumpToHeapP_val (p : Profile) (ty : ElemTy) (offset num size : Nat) (f : Res Unit × TableData → α)
    (k : TableData → Prog α) (t : TableData) (r : Reader) :
    (t.jumpToHeapP p ty offset num size f k).val r =
      followed f k t.rd (({ t with rd := r } : TableData).jumpToHeap p ty offset num size) := by
  unfold jumpToHeapP jumpToHeap
  dsimp only
  cases ht : t.inHeap with
  | some h => dsimp only [followed]; rw [← ht]
  | none =>
    dsimp only
    cases heapOffset p t.byteOffset t.ctx.theap offset with
    | ok off =>
      show (Prog.move off _ _).val r = _
      dsimp only
      rcases moves off r with ⟨r', h⟩ | ⟨e, r', h⟩
      · rw [Prog.move_ok h, h]
        dsimp only
        cases umul p num size with
        | ok left => rfl
        | err e => dsimp only [followed]; rw [← ht]; rfl
        | panic => dsimp only [followed]; rw [← ht]; rfl
      · rw [Prog.move_err h, h]
        dsimp only [followed]; rw [← ht]
    | err e => dsimp only [followed]; rw [← ht]; rfl
    | panic => dsimp only [followed]; rw [← ht]; rfl

theorem jumpToMainTableP_val (f : Res Unit × TableData → α) (k : TableData → Prog α) (t : TableData) (r : Reader) :
    (t.jumpToMainTableP f k).val r = (k { ({ t with rd := r } : TableData).jumpToMainTable with rd := t.rd }).val
      ({ t with rd := r } : TableData).jumpToMainTable.rd := by
  unfold jumpToMainTableP jumpToMainTable
  dsimp only
  cases ht : t.inHeap with
  | some h => rfl
  | none => dsimp only; rw [← ht]

/-- The result of a method, with the field that is not used. -/
def detached {β : Type} (rd0 : Reader) (x : β × TableData) : (β × TableData) × Reader := ((x.1, { x.2 with rd := rd0 }), x.2.rd)

theorem finish_followed (v : DataValue) (rd0 : Reader) (x : Res Unit × TableData) :
    followed (finish v) (fun t => .done (.ok (some v), t)) rd0 x = detached rd0 (finish v x) := by
  obtain ⟨x, t⟩ := x
  cases x <;> rfl

theorem nextInHeapP_val (p : Profile) (c : Nat) (h : HeapState) (t : TableData) (r : Reader) :
    (t.nextInHeapP p c h).val r = detached t.rd (({ t with rd := r } : TableData).nextInHeap p c h) := by
  unfold nextInHeapP nextInHeap
  dsimp only
  cases usub p h.num (h.left / h.size) with
  | ok idx =>
    dsimp only
    rcases reads h.ty.bytes r with ⟨bs, r', hr⟩ | ⟨e, r', hr⟩
    · rw [Prog.read_ok hr, hr]
      dsimp only
      cases usub p h.left h.ty.bytes with
      | ok left =>
        dsimp only
        split
        · rw [jumpToMainTableP_val, seekToNextColP_val, finish_followed]
        · rfl
      | err e => rfl
      | panic => rfl
    · rw [Prog.read_err hr, hr]
      rfl
  | err e => rfl
  | panic => rfl

theorem nextPlainP_val (p : Profile) (c : Nat) (ty : ElemTy) (rep : Nat) (t : TableData) (r : Reader) :
    (t.nextPlainP p c ty rep).val r = detached t.rd (({ t with rd := r } : TableData).nextPlain p c ty rep) := by
  unfold nextPlainP nextPlain
  dsimp only
  rcases reads ty.bytes r with ⟨bs, r', hr⟩ | ⟨e, r', hr⟩
  · rw [Prog.read_ok hr, hr]
    dsimp only
    split
    · rw [seekToNextColP_val, finish_followed]
    · rfl
  · rw [Prog.read_err hr, hr]
    rfl

theorem nextArrayP_val (p : Profile) (c : Nat) (ty : ElemTy) (n : Nat) (mk : Nat → Nat → DataValue) (t : TableData)
    (r : Reader) :
    (t.nextArrayP p c ty n mk).val r = detached t.rd (({ t with rd := r } : TableData).nextArray p c ty n mk) := by
  unfold nextArrayP nextArray
  dsimp only
  rcases reads (n + n) r with ⟨bs, r', hr⟩ | ⟨e, r', hr⟩
  · rw [Prog.read_ok hr, hr]
    dsimp only
    split
    · rw [jumpToHeapP_val]
      dsimp only
      generalize jumpToHeap p ty _ _ _ _ = y
      obtain ⟨x, u⟩ := y
      cases x with
      | ok a =>
        dsimp only [followed]
        cases hu : u.inHeap with
        | some h =>
          dsimp only
          rw [nextInHeapP_val, ← hu]
        | none =>
          dsimp only
          rw [← hu]
          rfl
      | err e => rfl
      | panic => rfl
    · rw [seekToNextColP_val, finish_followed]
  · rw [Prog.read_err hr, hr]
    rfl

theorem nextAtP_val (p : Profile) (c : Nat) (t : TableData) (r : Reader) :
    (t.nextAtP p c).val r = detached t.rd (({ t with rd := r } : TableData).nextAt p c) := by
  obtain ⟨rd, inHeap, cols, offsets, ctx, col, item, byteOffset, mainSize, startPos, seekFirst, row, heap⟩ := t
  unfold nextAtP nextAt
  cases inHeap with
  | some h => exact nextInHeapP_val p c h _ r
  | none =>
    dsimp only
    split
    · rfl
    · cases ctx.tforms[c]? with
      | none => rfl
      | some f =>
        cases f with
        | plain ty rep => exact nextPlainP_val p c _ _ _ r
        | P ty => exact nextArrayP_val p c _ _ _ _ r
        | Q ty => exact nextArrayP_val p c _ _ _ _ r

theorem nextP_val (p : Profile) (t : TableData) (r : Reader) :
    (t.nextP p).val r = detached t.rd (({ t with rd := r } : TableData).next p) := by
  unfold nextP next
  dsimp only
  cases t.cols[t.col]? with
  | none => rfl
  | some c =>
    dsimp only
    unfold toFirstCol
    dsimp only
    split
    · cases t.offsets[c]? with
      | none => rfl
      | some o =>
        dsimp only
        rw [advanceP_val]
        dsimp only
        generalize advance p _ _ = y
        obtain ⟨x, u⟩ := y
        cases x with
        | ok a => exact nextAtP_val p c _ _
        | err e => rfl
        | panic => rfl
    · exact nextAtP_val p c t r

/-! What the methods return when a call of the reader fails. -/

variable {bad : α → Prop} {f : Res Unit × TableData → α} {k : TableData → Prog α}

theorem advanceP_fails (p : Profile) (off : Int) (hf : ∀ e t, bad (f (.err e, t))) (hk : ∀ t, (k t).FailsAs bad)
    (t : TableData) : (t.advanceP p off f k).FailsAs bad := by
  refine ⟨fun e => hf e t, ?_⟩
  cases uadd p t.byteOffset (asU64 off) with
  | ok b => exact hk _
  | err e => trivial
  | panic => trivial

theorem seekNextP_fails (p : Profile) (lc lr : Bool) (hf : ∀ e t, bad (f (.err e, t))) (hk : ∀ t, (k t).FailsAs bad)
    (t : TableData) : (t.seekNextP p lc lr f k).FailsAs bad := by
  unfold seekNextP
  dsimp only
  split <;> split <;> first | exact advanceP_fails p _ hf hk _ | trivial

theorem seekToNextColP_fails (p : Profile) (hf : ∀ e t, bad (f (.err e, t))) (hk : ∀ t, (k t).FailsAs bad)
    (t : TableData) : (t.seekToNextColP p f k).FailsAs bad := by
  unfold seekToNextColP
  split
  · exact seekNextP_fails p _ _ hf hk t
  · trivial

theorem jumpToHeapP_fails (p : Profile) (ty : ElemTy) (offset num size : Nat) (hf : ∀ e t, bad (f (.err e, t)))
    (hk : ∀ t, (k t).FailsAs bad) (t : TableData) : (t.jumpToHeapP p ty offset num size f k).FailsAs bad := by
  unfold jumpToHeapP
  split
  · exact hk t
  · split
    · refine fun pos => ⟨fun e => hf e t, ?_⟩
      cases umul p num size with
      | ok b => exact hk _
      | err e => trivial
      | panic => trivial
    · trivial
    · trivial

theorem jumpToMainTableP_fails (hf : ∀ e t, bad (f (.err e, t))) (hk : ∀ t, (k t).FailsAs bad) (t : TableData) :
    (t.jumpToMainTableP f k).FailsAs bad := by
  unfold jumpToMainTableP
  split
  · exact ⟨fun e => hf e t, hk _⟩
  · exact hk t

/-- There is no value. -/
def NoValue (x : Res (Option DataValue) × TableData) : Prop := x.1 = .ok none

theorem finish_fails (v : DataValue) (e : Err) (t : TableData) : NoValue (finish v (.err e, t)) := rfl

theorem nextInHeapP_fails (p : Profile) (c : Nat) (h : HeapState) (t : TableData) : (t.nextInHeapP p c h).FailsAs NoValue := by
  unfold nextInHeapP
  split
  · refine ⟨fun _ => rfl, fun bs => ?_⟩
    cases usub p h.left h.ty.bytes with
    | ok left =>
      dsimp only
      split
      · exact jumpToMainTableP_fails (finish_fails _) (seekToNextColP_fails p (finish_fails _) fun _ => by trivial) _
      · trivial
    | err e => trivial
    | panic => trivial
  · trivial
  · trivial

theorem nextAtP_fails (p : Profile) (c : Nat) (t : TableData) : (t.nextAtP p c).FailsAs NoValue := by
  have arr (ty : ElemTy) (n : Nat) (mk : Nat → Nat → DataValue) : (t.nextArrayP p c ty n mk).FailsAs NoValue := by
    refine ⟨fun _ => rfl, fun bs => ?_⟩
    dsimp only
    split
    · refine jumpToHeapP_fails p _ _ _ _ (fun _ _ => rfl) (fun t => ?_) _
      split
      · exact nextInHeapP_fails p c _ t
      · trivial
    · exact seekToNextColP_fails p (finish_fails _) (fun _ => by trivial) _
  unfold nextAtP
  split
  · exact nextInHeapP_fails p c _ t
  · split
    · trivial
    · split
      · trivial
      · refine ⟨fun _ => rfl, fun bs => ?_⟩
        dsimp only
        split
        · exact seekToNextColP_fails p (finish_fails _) (fun _ => by trivial) _
        · trivial
      · exact arr _ _ _
      · exact arr _ _ _

theorem nextP_fails (p : Profile) (t : TableData) : (t.nextP p).FailsAs NoValue := by
  unfold nextP
  split
  · trivial
  · split
    · dsimp only
      split
      · trivial
      · exact advanceP_fails p _ (fun _ _ => rfl) (nextAtP_fails p _) _
    · exact nextAtP_fails p _ t

theorem seekToRowP_fails (p : Profile) (idx : Nat) (t : TableData) :
    (t.seekToRowP p idx).FailsAs fun x => ∃ e, x.1 = .err e := by
  unfold seekToRowP
  split
  · trivial
  · dsimp only
    split
    · trivial
    · split
      · split
        · exact ⟨fun e => ⟨e, rfl⟩, trivial⟩
        · trivial
        · trivial
      · trivial
      · trivial

end TableData

namespace TableRows

theorem collectP_val (p : Profile) (fuel row : Nat) (t : TableData) (acc : List DataValue) (r : Reader) :
    ((collectP p fuel row t acc).val r).1 =
        (collect p fuel row { t with rd := r } acc).map (fun y => (y.1, { y.2 with rd := t.rd })) ∧
      ∀ y, collect p fuel row { t with rd := r } acc = some y → ((collectP p fuel row t acc).val r).2 = y.2.rd := by
  induction fuel generalizing t acc r with
  | zero => exact ⟨rfl, fun y h => by cases h⟩
  | succ fuel ih =>
    unfold collectP collect
    dsimp only
    by_cases hr : t.row = row
    · rw [if_pos hr, if_pos hr]
      rw [Prog.andThen_val (TableData.nextP_fails p t) (g := giveUp)]
      · rw [TableData.nextP_val]
        generalize TableData.next p _ = y
        obtain ⟨x, u⟩ := y
        dsimp only [TableData.detached]
        cases x with
        | ok o =>
          cases o with
          | none => exact ⟨rfl, fun y h => by cases h; rfl⟩
          | some v => exact ih { u with rd := t.rd } (acc ++ [v]) u.rd
        | err e => exact ⟨rfl, fun y h => by cases h; rfl⟩
        | panic => exact ⟨rfl, fun y h => by cases h; rfl⟩
      · rintro ⟨x, u⟩ h
        obtain rfl : x = .ok none := h
        rfl
    · rw [if_neg hr, if_neg hr]
      exact ⟨rfl, fun y h => by cases h; rfl⟩

theorem nextP_val (p : Profile) (fuel : Nat) (x : TableRows) (r : Reader) :
    ((x.nextP p fuel).val r).1 =
        (({ x with data := { x.data with rd := r } } : TableRows).next p fuel).map
          (fun y => (y.1, { y.2 with data := { y.2.data with rd := x.data.rd } })) ∧
      ∀ y, ({ x with data := { x.data with rd := r } } : TableRows).next p fuel = some y →
        ((x.nextP p fuel).val r).2 = y.2.data.rd := by
  obtain ⟨h1, h2⟩ := collectP_val p fuel x.row x.data [] r
  unfold nextP next
  rw [Prog.map_val, h1]
  dsimp only
  generalize collect p fuel x.row { x.data with rd := r } [] = y at h2 ⊢
  rcases y with _ | ⟨z, u⟩
  · exact ⟨rfl, fun y h => by cases h⟩
  · cases z with
    | ok o =>
      cases o with
      | none => exact ⟨rfl, fun y h => by cases h; exact h2 _ rfl⟩
      | some v => exact ⟨rfl, fun y h => by cases h; exact h2 _ rfl⟩
    | err e => exact ⟨rfl, fun y h => by cases h; exact h2 _ rfl⟩
    | panic => exact ⟨rfl, fun y h => by cases h; exact h2 _ rfl⟩

end TableRows

/-! ### Calls -/

/-- A call on what is opened is the call of Model/Session.lean. -/
theorem OpenUnit.useP_val (p : Profile) (gz : Gunzip) (fuel : Nat) (c : Call) (o : OpenUnit) (r : Reader) (s : Session)
    {prog : Prog (Option (Res Seen × OpenUnit))} (h : o.useP p fuel c = some prog) :
    s.useOpened p gz fuel c (o.withRd r) =
      ((prog.val r).1).map fun x => (x.1, s.put (x.2.withRd (prog.val r).2)) := by
  unfold OpenUnit.useP at h
  split at h <;> first | (cases h; done) | (injection h with h; subst h)
  · rename_i d
    rw [Prog.map_val, It.nextP_val]
    rfl
  · rename_i i d
    rw [Prog.map_val, It.readValueP_val]
    rfl
  · rename_i t
    rw [Prog.map_val, TableData.nextP_val]
    rfl
  · rename_i i t
    rw [Prog.map_val, TableData.seekToRowP_val]
    rfl
  · rfl
  · rfl
  · rfl
  · rename_i x
    rw [Prog.map_val]
    obtain ⟨h1, h2⟩ := TableRows.nextP_val p fuel x r
    rw [h1]
    show ((TableRows.next p fuel { x with data := { x.data with rd := r } }).map _).map _ = _
    generalize TableRows.next p fuel { x with data := { x.data with rd := r } } = y at h2
    cases y with
    | none => rfl
    | some y =>
      rw [h2 y rfl]
      rfl

end Fitsrs

import Verif.Model.Input
import Verif.Model.Session
/-
The data of images and binary tables over any reader.  The methods of the iterators are written as programs that ask the reader for
bytes, move it and ask for its position, and end when one of these fails; they can be run on `Reader` (where they are the functions of
Model/Iter.lean and Model/Table.lean, which is proved in Lemmas/InputData.lean) and on any other reader.  The field `rd` of the
iterators is not used here.  The bytes of ASCII tables and tables (`Read::bytes` on `Take`,
whose buffer depends on the reads) are in Model/InputBytes.lean, the tiles of compressed images in Model/InputTiles.lean.
-/

namespace Fitsrs

/-- What a method does with the reader; `no` is what it returns when a call fails. -/
inductive Prog (α : Type) where
  | done (a : α)
  | read (n : Nat) (no : Err → α) (k : List UInt8 → Prog α)
  | move (off : Int) (no : Err → α) (k : Prog α)
  | tell (k : Nat → Prog α)
  | goto (pos : Nat) (no : Err → α) (k : Prog α)

namespace Prog
variable {α β σ : Type}

/-- The result on the readers of Model/Basic.lean. -/
def val : Prog α → Reader → α × Reader
  | done a, r => (a, r)
  | read n no k, r =>
    match r.readExact n with
    | (.ok bs, r') => (k bs).val r'
    | (.err e, r') => (no e, r')
    | (.panic, r') => (no (.static "panic"), r')
  | move off no k, r =>
    match r.seekRelative off with
    | (.ok _, r') => k.val r'
    | (.err e, r') => (no e, r')
    | (.panic, r') => (no (.static "panic"), r')
  | tell k, r => (k r.pos).val r
  | goto pos _ k, r => k.val (r.seekStart pos)

/-- Whether one of the calls fails. -/
def fails : Prog α → Reader → Bool
  | done _, _ => false
  | read n _ k, r =>
    match r.readExact n with
    | (.ok bs, r') => (k bs).fails r'
    | _ => true
  | move off _ k, r =>
    match r.seekRelative off with
    | (.ok _, r') => k.fails r'
    | _ => true
  | tell k, r => (k r.pos).fails r
  | goto pos _ k, r => k.fails (r.seekStart pos)

/-- The result on any reader, and whether one of the calls failed. -/
def on (S : Input σ) : Prog α → σ → (Res α × Bool) × σ
  | done a, s => ((.ok a, false), s)
  | read n no k, s =>
    match S.readExact n s with
    | (.ok bs, s') => (k bs).on S s'
    | (.err e, s') => ((.ok (no e), true), s')
    | (.panic, s') => ((.panic, true), s')
  | move off no k, s =>
    match S.seekRelative off s with
    | (.ok _, s') => k.on S s'
    | (.err e, s') => ((.ok (no e), true), s')
    | (.panic, s') => ((.panic, true), s')
  | tell k, s => (k (S.tell s).1).on S (S.tell s).2
  | goto pos no k, s =>
    match S.seekStart pos s with
    | (.ok _, s') => k.on S s'
    | (.err e, s') => ((.ok (no e), true), s')
    | (.panic, s') => ((.panic, true), s')

/-- The result of a program, changed. -/
def map (f : α → β) : Prog α → Prog β
  | done a => done (f a)
  | read n no k => read n (f ∘ no) fun bs => (k bs).map f
  | move off no k => move off (f ∘ no) (k.map f)
  | tell k => tell fun pos => (k pos).map f
  | goto pos no k => goto pos (f ∘ no) (k.map f)

/-- A program after another one; if the first one fails the result is `g`. -/
def andThen (x : Prog α) (g : α → β) (f : α → Prog β) : Prog β :=
  match x with
  | done a => f a
  | read n no k => read n (g ∘ no) fun bs => (k bs).andThen g f
  | move off no k => move off (g ∘ no) (k.andThen g f)
  | tell k => tell fun pos => (k pos).andThen g f
  | goto pos no k => goto pos (g ∘ no) (k.andThen g f)

end Prog

/-! ### Pixels -/

/-- `It::next` (src/hdu/data/iter.rs:114-123). -/
def It.nextP (it : It) : Prog (Option Pixel × It) :=
  if it.cur = it.numItems then .done (none, it)
  else .read it.ty.byteSize (fun _ => (none, { it with cur := it.cur + 1 }))
    fun bs => .done (some (Pixel.ofBytes it.ty bs), { it with cur := it.cur + 1 })

/-- `It::read_value` (src/hdu/data/iter.rs:137-151). -/
def It.readValueP (p : Profile) (idx : Nat) (it : It) : Prog (Res Pixel × It) :=
  if idx ≥ it.numItems then .done (.err (.static "Value to retrieve is out of bounds"), it)
  else
    match it.readOffset p idx with
    | .ok off =>
      .move off (fun e => (.err e, it)) (({ it with cur := idx } : It).nextP.map fun
        | (some v, it) => (.ok v, it)
        | (none, it) => (.err (.static "Value to retrieve is out of bounds"), it))
    | .err e => .done (.err e, it)
    | .panic => .done (.panic, it)

/-! ### Tables -/

namespace TableData
variable {α : Type}

/-- Seek and update the byte offset (src/hdu/data/bintable/data.rs:326-330); then `k`, or `f` if this fails. -/
def advanceP (p : Profile) (off : Int) (f : Res Unit × TableData → α) (k : TableData → Prog α) (t : TableData) : Prog α :=
  .move off (fun e => f (.err e, t))
    (match uadd p t.byteOffset (asU64 off) with
    | .ok b => k { t with byteOffset := b }
    | .err e => .done (f (.err e, t))
    | .panic => .done (f (.panic, t)))

/-- The end of `seek_to_next_col` (src/hdu/data/bintable/data.rs:298-330). -/
def seekNextP (p : Profile) (lastCol lastRow : Bool) (f : Res Unit × TableData → α) (k : TableData → Prog α)
    (t : TableData) : Prog α :=
  let t := if lastCol then { t with row := t.row + 1 } else t
  if lastCol && lastRow then
    match i64op p (asI64 t.mainSize - asI64 t.byteOffset) with
    | .ok off => t.advanceP p off f k
    | .err e => .done (f (.err e, t))
    | .panic => .done (f (.panic, t))
  else
    let col := (t.col + 1) % t.cols.length
    let t := { t with col, item := 0 }
    match t.nextOffset p col with
    | .ok off => t.advanceP p off f k
    | .err e => .done (f (.err e, t))
    | .panic => .done (f (.panic, t))

/-- `seek_to_next_col` (src/hdu/data/bintable/data.rs:294-331). -/
def seekToNextColP (p : Profile) (f : Res Unit × TableData → α) (k : TableData → Prog α) (t : TableData) : Prog α :=
  match usub p t.cols.length 1, usub p t.ctx.naxis2 1 with
  | .ok lc, .ok lr => t.seekNextP p (t.col == lc) (t.row == lr) f k
  | _, _ => .done (f (.panic, t))

/-- `seek_to_row` (src/hdu/data/bintable/data.rs:337-364). -/
def seekToRowP (p : Profile) (idx : Nat) (t : TableData) : Prog (Res Unit × TableData) :=
  if idx ≥ t.ctx.naxis2 then
    .done (.err (.static "The row index specified is > than the number of rows of the table"), t)
  else
    let t := { t with col := 0, row := idx, item := 0 }
    match t.cols[0]?.bind (t.offsets[·]?) with
    | none => .done (.panic, t)
    | some o =>
      match i64op p (asI64 idx * asI64 t.ctx.naxis1) >>= fun a => i64op p (a + asI64 o) with
      | .ok new =>
        match i64op p (- asI64 t.byteOffset) >>= fun a => i64op p (a + new) with
        | .ok off => .move off (fun e => (.err e, t)) (.done (.ok (), { t with byteOffset := asU64 new }))
        | .err e => .done (.err e, t)
        | .panic => .done (.panic, t)
      | .err e => .done (.err e, t)
      | .panic => .done (.panic, t)

/-- `jump_to_heap` (src/hdu/data/bintable/data.rs:379-420). -/
def jumpToHeapP (p : Profile) (ty : ElemTy) (offset num size : Nat) (f : Res Unit × TableData → α) (k : TableData → Prog α)
    (t : TableData) : Prog α :=
  match t.inHeap with
  | some _ => k t
  | none =>
    match heapOffset p t.byteOffset t.ctx.theap offset with
    | .ok off => .tell fun pos => .move off (fun e => f (.err e, t))
        (match umul p num size with
        | .ok left => k { t with inHeap := some { ty, mainPos := pos, left, num, size } }
        | .err e => .done (f (.err e, t))
        | .panic => .done (f (.panic, t)))
    | .err e => .done (f (.err e, t))
    | .panic => .done (f (.panic, t))

/-- `jump_to_main_table` (src/hdu/data/bintable/data.rs:422-437). -/
def jumpToMainTableP (f : Res Unit × TableData → α) (k : TableData → Prog α) (t : TableData) : Prog α :=
  match t.inHeap with
  | some h => .goto h.mainPos (fun e => f (.err e, t)) (k { t with inHeap := none })
  | none => k t

/-- `next` in the heap (src/hdu/data/bintable/data.rs:472-601). -/
def nextInHeapP (p : Profile) (c : Nat) (h : HeapState) (t : TableData) : Prog (Res (Option DataValue) × TableData) :=
  match usub p h.num (h.left / h.size) with
  | .ok idx => .read h.ty.bytes (fun _ => (.ok none, t)) fun bs =>
      match usub p h.left h.ty.bytes with
      | .ok left =>
        let t := { t with inHeap := some { h with left } }
        let v := DataValue.cell c idx (Cell.ofBytes h.ty bs)
        if left = 0 then t.jumpToMainTableP (finish v) (seekToNextColP p (finish v) fun t => .done (.ok (some v), t))
        else .done (.ok (some v), t)
      | .err _ => .done (.ok none, t)
      | .panic => .done (.panic, t)
  | .err _ => .done (.ok none, t)
  | .panic => .done (.panic, t)

/-- `next` on a column of plain values (src/hdu/data/bintable/data.rs:609-796). -/
def nextPlainP (p : Profile) (c : Nat) (ty : ElemTy) (rep : Nat) (t : TableData) :
    Prog (Res (Option DataValue) × TableData) :=
  .read ty.bytes (fun _ => (.ok none, t)) fun bs =>
    let v := DataValue.cell c t.item (Cell.ofBytes ty bs)
    let t := { t with byteOffset := t.byteOffset + ty.bytes, item := t.item + 1 }
    if t.item = itemCount ty rep then t.seekToNextColP p (finish v) fun t => .done (.ok (some v), t)
    else .done (.ok (some v), t)

/-- `next` on an array descriptor (src/hdu/data/bintable/data.rs:797-853). -/
def nextArrayP (p : Profile) (c : Nat) (ty : ElemTy) (n : Nat) (mk : Nat → Nat → DataValue) (t : TableData) :
    Prog (Res (Option DataValue) × TableData) :=
  .read (n + n) (fun _ => (.ok none, t)) fun bs =>
    let num := beNat (bs.take n)
    let offset := beNat (bs.drop n)
    let t := { t with byteOffset := t.byteOffset + (n + n) }
    if t.heap then
      t.jumpToHeapP p ty offset num ty.bytes
        (fun
          | (.panic, t) => (.panic, t)
          | (_, t) => (.ok none, t))
        fun t =>
          match t.inHeap with
          | some h => t.nextInHeapP p c h
          | none => .done (.ok none, t)
    else t.seekToNextColP p (finish (mk num offset)) fun t => .done (.ok (some (mk num offset)), t)

/-- The main part of `next` (src/hdu/data/bintable/data.rs:471-857). -/
def nextAtP (p : Profile) (c : Nat) (t : TableData) : Prog (Res (Option DataValue) × TableData) :=
  match t.inHeap with
  | some h => t.nextInHeapP p c h
  | none =>
    if t.byteOffset = t.mainSize then .done (.ok none, t)
    else
      match t.ctx.tforms[c]? with
      | none => .done (.panic, t)
      | some (.plain ty rep) => t.nextPlainP p c ty rep
      | some (.P ty) => t.nextArrayP p c ty 4 .vla32
      | some (.Q ty) => t.nextArrayP p c ty 8 .vla64

/-- `TableData::next` (src/hdu/data/bintable/data.rs:455-858). -/
def nextP (p : Profile) (t : TableData) : Prog (Res (Option DataValue) × TableData) :=
  match t.cols[t.col]? with
  | none => .done (.panic, t)
  | some c =>
    if t.seekFirst then
      let t := { t with seekFirst := false }
      match t.offsets[c]? with
      | none => .done (.panic, t)
      | some o =>
        t.advanceP p (asI64 o)
          (fun
            | (.panic, t) => (.panic, t)
            | (_, t) => (.ok none, t))
          (nextAtP p c)
    else t.nextAtP p c

end TableData

namespace TableRows

/-- The result of the loop of `next` when the table gives no value. -/
def giveUp : Res (Option DataValue) × TableData → Option (Res (Option (List DataValue)) × TableData)
  | (.ok _, t) => some (.ok none, t)
  | (.err e, t) => some (.err e, t)
  | (.panic, t) => some (.panic, t)

/-- The loop of `next` (src/hdu/data/bintable/row.rs:50-57). -/
def collectP (p : Profile) : (fuel : Nat) → (row : Nat) → TableData → List DataValue →
    Prog (Option (Res (Option (List DataValue)) × TableData))
  | 0, _, _, _ => .done none
  | fuel + 1, row, t, acc =>
    if t.row = row then
      (t.nextP p).andThen giveUp fun
        | (.ok (some v), t) => collectP p fuel row t (acc ++ [v])
        | x => .done (giveUp x)
    else .done (some (.ok (some acc), t))

/-- `TableRowData::next` (src/hdu/data/bintable/row.rs:46-60). -/
def nextP (p : Profile) (fuel : Nat) (r : TableRows) : Prog (Option (Res (Option (List DataValue)) × TableRows)) :=
  (collectP p fuel r.row r.data []).map fun
    | none => none
    | some (.ok (some vs), t) => some (.ok (some vs), { data := t, row := r.row + 1 })
    | some (res, t) => some (res, { r with data := t })

end TableRows

/-! ### Programs -/

/-- What is opened, with another reader. -/
def OpenUnit.withRd (rd : Reader) : OpenUnit → OpenUnit
  | image d => .image { d with pixels := { d.pixels with rd } }
  | bytes s => .bytes { s with rd }
  | table t => .table { t with rd }
  | rows r => .rows { r with data := { r.data with rd } }
  | tiles it => .tiles { it with rows := { it.rows with data := { it.rows.data with rd } } }

/-- What is opened, without a reader. -/
def OpenUnit.detached (o : OpenUnit) : OpenUnit := o.withRd ⟨[], 0⟩

/-- The calls of Model/Session.lean on the data of images and tables; `none` as a program: not covered, or the reader is not
used in the same way (`raw_bytes` is for readers in memory).  `none` as a result: a loop has not finished with the fuel given. -/
def OpenUnit.useP (p : Profile) (fuel : Nat) : Call → OpenUnit → Option (Prog (Option (Res Seen × OpenUnit)))
  | .next, .image d => some (d.pixels.nextP.map fun x => some (.ok (.pixel x.1), .image { d with pixels := x.2 }))
  | .readValue i, .image d =>
    some ((d.pixels.readValueP p i).map fun x => some (x.1.map (.pixel ∘ some), .image { d with pixels := x.2 }))
  | .next, .table t => some ((t.nextP p).map fun x => some (x.1.map .value, .table x.2))
  | .seekRow r, .table t => some ((t.seekToRowP p r).map fun x => some (x.1.map fun _ => .unit, .table x.2))
  | .select cs, .table t => some (.done (some (.ok .unit, .table (t.selectFields cs))))
  | .rowIter, .table t => some (.done (some (.ok .unit, .rows (TableRows.new t))))
  | .tableData, .rows r => some (.done (some (.ok .unit, .table r.data)))
  | .next, .rows r => some ((r.nextP p fuel).map fun o => o.map fun x => (x.1.map .row, .rows x.2))
  | _, _ => none

namespace Input
variable {σ : Type}

/-- A program in progress, over any reader. -/
structure Session (σ : Type) where
  file : File σ
  hdus : List HDU
  opened : Option OpenUnit

/-- The program has just made the iterator. -/
def Session.new (rd : σ) : Session σ := { file := fromReader rd, hdus := [], opened := none }

/-- `Fits::get_data` (src/fits.rs:96-105): the reader is not used. -/
def getData (p : Profile) (f : File σ) (h : HDU) : Res OpenUnit :=
  Fits.getData p { start := f.start, posStart := f.posStart, numBytes := f.numBytes, errored := f.errored, rd := ⟨[], 0⟩ } h

/-- A call, and whether a read or a move of the reader failed.  `none`: not covered, or a loop has not finished. -/
def call (S : Input σ) (p : Profile) (fuel : Nat) (c : Call) (s : Session σ) : Option ((Res Seen × Bool) × Session σ) :=
  match c with
  | .hdu =>
    match S.next p s.file with
    | (none, file) => some ((.ok (.hdu none), true), { s with file, opened := none })
    | (some (.ok h), file) => some ((.ok (.hdu (some h)), false), { file, hdus := h :: s.hdus, opened := none })
    | (some (.err e), file) => some ((.err e, true), { s with file, opened := none })
    | (some .panic, file) => some ((.panic, true), { s with file, opened := none })
  | .getData k =>
    match s.hdus[k]? with
    | none => some ((.ok .illTyped, false), { s with opened := none })
    | some h =>
      match getData p s.file h with
      | .ok o => some ((.ok .unit, false), { s with opened := some o })
      | .err e => some ((.err e, false), { s with opened := none })
      | .panic => some ((.panic, false), { s with opened := none })
  | c =>
    match s.opened with
    | none => some ((.ok .illTyped, false), s)
    | some o =>
      match o.detached.useP p fuel c with
      | none => none
      | some prog =>
        match prog.on S s.file.rd with
        | ((.ok (some (r, o)), b), rd) => some ((r, b), { s with file := { s.file with rd }, opened := some o })
        | ((.ok none, _), _) => none
        | ((.err e, b), rd) => some ((.err e, b), { s with file := { s.file with rd } })
        | ((.panic, b), rd) => some ((.panic, b), { s with file := { s.file with rd } })

/-- What a program sees, up to and including the first call in which a read or a move fails, or which panics. -/
def run (S : Input σ) (p : Profile) (fuel : Nat) : List Call → Session σ → List (Option (Res Seen))
  | [], _ => []
  | c :: cs, s =>
    match S.call p fuel c s with
    | none => [none]
    | some ((.panic, _), _) => [some .panic]
    | some ((r, true), _) => [some r]
    | some ((r, false), s) => some r :: S.run p fuel cs s

end Input

/-- Whether a read or a move fails in a call, on the readers of Model/Basic.lean. -/
def Session.failsIn (p : Profile) (fuel : Nat) (c : Call) (s : Session) : Bool :=
  match c with
  | .hdu =>
    match (s.close.fits.next p).1 with
    | some (.ok _) => false
    | _ => true
  | .getData _ => false
  | c =>
    match s.opened with
    | none => false
    | some o =>
      match o.detached.useP p fuel c with
      | none => false
      | some prog => prog.fails o.rd

/-- What a program sees, up to and including the first call in which a read or a move fails, or which panics. -/
def Session.runOk (p : Profile) (gz : Gunzip) (fuel : Nat) : List Call → Session → List (Option (Res Seen))
  | [], _ => []
  | c :: cs, s =>
    match s.call p gz fuel c with
    | none => [none]
    | some (.panic, _) => [some .panic]
    | some (r, s') => if s.failsIn p fuel c then [some r] else some r :: runOk p gz fuel cs s'

end Fitsrs

import Verif.Lemmas.Basic
import Verif.Model.Session
/-
The same file with more bytes at its end: what succeeds on the shorter file gives the same on the longer one.
-/

namespace Fitsrs

/-! ### Readers -/

/-- The reader of the file with the bytes `b` added at its end. -/
def Reader.ext (b : List UInt8) (r : Reader) : Reader := { r with data := r.data ++ b }

theorem Reader.readExact_ext {b bs : List UInt8} {n : Nat} {r r' : Reader} (h : r.readExact n = (.ok bs, r')) :
    (r.ext b).readExact n = (.ok bs, r'.ext b) := by
  unfold Reader.readExact at h ⊢
  dsimp only [Reader.ext] at h ⊢
  by_cases hl : ((r.data.drop r.pos).take n).length = n
  · rw [if_pos hl] at h
    obtain ⟨h1, h2⟩ := Prod.mk.inj h
    cases h1
    subst h2
    have e : ((r.data ++ b).drop r.pos).take n = (r.data.drop r.pos).take n := by
      rw [List.length_take, List.length_drop] at hl
      by_cases hn : n = 0
      · subst hn; simp
      · rw [List.drop_append_of_le_length (by omega), List.take_append_of_le_length (by rw [List.length_drop]; omega)]
    rw [e, if_pos hl]
  · rw [if_neg hl] at h
    exact absurd (Prod.mk.inj h).1 (by simp)

theorem Reader.seekRelative_ext (b : List UInt8) (off : Int) (r : Reader) :
    (r.ext b).seekRelative off = ((r.seekRelative off).1, (r.seekRelative off).2.ext b) := by
  unfold Reader.seekRelative
  dsimp only [Reader.ext]
  split <;> rfl

theorem Reader.seekStart_ext (b : List UInt8) (pos : Nat) (r : Reader) :
    (r.ext b).seekStart pos = (r.seekStart pos).ext b := rfl

/-! ### HDUs -/

/-- The state in the longer file. -/
def HState.ext (b : List UInt8) (s : HState) : HState := { s with rd := s.rd.ext b }

theorem consumeNextCard_ext {b bs : List UInt8} {s s' : HState} (h : consumeNextCard s = (.ok bs, s')) :
    consumeNextCard (s.ext b) = (.ok bs, s'.ext b) := by
  unfold consumeNextCard at h ⊢
  cases hr : s.rd.readExact 80 with
  | mk r rd =>
    rw [hr] at h
    cases r with
    | ok buf =>
      cases h
      rw [show (s.ext b).rd.readExact 80 = (.ok bs, rd.ext b) from Reader.readExact_ext hr]
      rfl
    | err e => exact absurd (Prod.mk.inj h).1 (by simp)
    | panic => exact absurd (Prod.mk.inj h).1 (by simp)

theorem consumeCardsN_ext {b : List UInt8} {cards : List Card} {n : Nat} {s s' : HState}
    (h : consumeCardsN n s = (.ok cards, s')) {m : Nat} (hm : n ≤ m) :
    consumeCardsN m (s.ext b) = (.ok cards, s'.ext b) := by
  induction n generalizing s s' cards m with
  | zero => exact absurd (Prod.mk.inj h).1 (by simp)
  | succ n ih =>
    obtain ⟨m, rfl⟩ : ∃ k, m = k + 1 := ⟨m - 1, by omega⟩
    unfold consumeCardsN at h ⊢
    cases hc : consumeNextCard s with
    | mk r s1 =>
      rw [hc] at h
      cases r with
      | err e => exact absurd (Prod.mk.inj h).1 (by simp)
      | panic => exact absurd (Prod.mk.inj h).1 (by simp)
      | ok buf =>
        rw [consumeNextCard_ext hc]
        dsimp only at h ⊢
        cases hb : recordCard buf with
        | err e => rw [hb] at h; exact absurd (Prod.mk.inj h).1 (by simp)
        | panic => rw [hb] at h; exact absurd (Prod.mk.inj h).1 (by simp)
        | ok c =>
          rw [hb] at h
          dsimp only at h ⊢
          by_cases he : c = .end_
          · rw [if_pos he] at h ⊢
            cases h
            rfl
          · rw [if_neg he] at h ⊢
            cases hr : consumeCardsN n s1 with
            | mk r s2 =>
              rw [hr] at h
              cases r with
              | err e => exact absurd (Prod.mk.inj h).1 (by simp)
              | panic => exact absurd (Prod.mk.inj h).1 (by simp)
              | ok cs =>
                rw [ih hr (by omega)]
                cases h
                rfl

theorem consumeCards_ext {b : List UInt8} {cards : List Card} {s s' : HState} (h : consumeCards s = (.ok cards, s')) :
    consumeCards (s.ext b) = (.ok cards, s'.ext b) :=
  consumeCardsN_ext h (by dsimp only [HState.ext, Reader.ext]; rw [List.length_append]; omega)

theorem Hdu.new_ext {X : Type} {parse : ValueMap → Res X} {cards : List Card} {b : List UInt8} {s s' : HState} {h : Hdu X}
    (e : Hdu.new parse cards s = (.ok h, s')) : Hdu.new parse cards (s.ext b) = (.ok h, s'.ext b) := by
  unfold Hdu.new at e ⊢
  cases hp : Header.parse parse cards with
  | err x => rw [hp] at e; exact absurd (Prod.mk.inj e).1 (by simp)
  | panic => rw [hp] at e; exact absurd (Prod.mk.inj e).1 (by simp)
  | ok header =>
    rw [hp] at e
    dsimp only at e ⊢
    by_cases hn : s.nread % 2880 ≠ 0
    · rw [if_pos hn] at e
      rw [if_pos (show (s.ext b).nread % 2880 ≠ 0 from hn)]
      cases hr : s.rd.readExact (2880 - s.nread % 2880) with
      | mk r rd =>
        rw [hr] at e
        cases r with
        | err x => exact absurd (Prod.mk.inj e).1 (by simp)
        | panic => exact absurd (Prod.mk.inj e).1 (by simp)
        | ok bs =>
          rw [show (s.ext b).rd.readExact (2880 - (s.ext b).nread % 2880) = (.ok bs, rd.ext b) from Reader.readExact_ext hr]
          cases e
          rfl
    · rw [if_neg hn] at e
      rw [if_neg (show ¬ (s.ext b).nread % 2880 ≠ 0 from hn)]
      cases e
      rfl

theorem wrap_ext {X : Type} {f : Hdu X → HDU} {b : List UInt8} {r : Res (Hdu X) × HState} {r' : Res (Hdu X) × HState}
    {h : HDU} {s' : HState} (e : wrap f r = (.ok h, s')) (hr : ∀ x s, r = (.ok x, s) → r' = (.ok x, s.ext b)) :
    wrap f r' = (.ok h, s'.ext b) := by
  obtain ⟨r, s⟩ := r
  cases r with
  | err x => exact absurd (Prod.mk.inj e).1 (by simp)
  | panic => exact absurd (Prod.mk.inj e).1 (by simp)
  | ok x =>
    rw [hr x s rfl]
    cases e
    rfl

theorem xtensionOf_ext {p : Profile} {cards : List Card} {b : List UInt8} {s s' : HState} {h : HDU}
    (e : xtensionOf p cards s = (.ok h, s')) : xtensionOf p cards (s.ext b) = (.ok h, s'.ext b) := by
  unfold xtensionOf at e ⊢
  split at e
  · exact wrap_ext e fun _ _ => Hdu.new_ext
  · exact wrap_ext e fun _ _ => Hdu.new_ext
  · exact wrap_ext e fun _ _ => Hdu.new_ext
  · exact absurd (Prod.mk.inj e).1 (by simp)
  · exact absurd (Prod.mk.inj e).1 (by simp)

theorem newXtension_ext {p : Profile} {b : List UInt8} {s s' : HState} {h : HDU}
    (e : HDU.newXtension p s = (.ok h, s')) : HDU.newXtension p (s.ext b) = (.ok h, s'.ext b) := by
  unfold HDU.newXtension at e ⊢
  cases hc : consumeCards s with
  | mk r s1 =>
    rw [hc] at e
    cases r with
    | err x => exact absurd (Prod.mk.inj e).1 (by simp)
    | panic => exact absurd (Prod.mk.inj e).1 (by simp)
    | ok cards =>
      rw [consumeCards_ext hc]
      exact xtensionOf_ext e

theorem newPrimary_ext {b : List UInt8} {rd : Reader} {s' : HState} {h : HDU}
    (e : HDU.newPrimary rd = (.ok h, s')) : HDU.newPrimary (rd.ext b) = (.ok h, s'.ext b) := by
  unfold HDU.newPrimary at e ⊢
  cases hc : consumeCards { rd, nread := 0 } with
  | mk r s1 =>
    rw [hc] at e
    cases r with
    | err x => exact absurd (Prod.mk.inj e).1 (by simp)
    | panic => exact absurd (Prod.mk.inj e).1 (by simp)
    | ok cards =>
      rw [show consumeCards { rd := rd.ext b, nread := 0 } = _ from consumeCards_ext hc]
      dsimp only at e ⊢
      unfold primaryOf at e ⊢
      split at e
      · split at e
        · rename_i hn
          rw [if_pos hn]
          exact wrap_ext e fun _ _ => Hdu.new_ext
        · exact absurd (Prod.mk.inj e).1 (by simp)
      · exact absurd (Prod.mk.inj e).1 (by simp)
      · exact absurd (Prod.mk.inj e).1 (by simp)

/-- The iterator over the longer file. -/
def Fits.ext (b : List UInt8) (f : Fits) : Fits := { f with rd := f.rd.ext b }

theorem record_ext {p : Profile} {n : Option (Res HDU)} {f f' : Fits} {h : HDU} {b : List UInt8}
    (e : Fits.record p n f = (some (.ok h), f')) :
    n = some (.ok h) ∧ Fits.record p n (f.ext b) = (some (.ok h), f'.ext b) := by
  unfold Fits.record at e ⊢
  cases n with
  | none => exact absurd (Prod.mk.inj e).1 (by simp)
  | some r =>
    cases r with
    | err x => exact absurd (Prod.mk.inj e).1 (by simp)
    | panic => exact absurd (Prod.mk.inj e).1 (by simp)
    | ok x =>
      dsimp only at e ⊢
      cases hd : x.dataSize p with
      | err y => rw [hd] at e; exact absurd (Prod.mk.inj e).1 (by simp)
      | panic => rw [hd] at e; exact absurd (Prod.mk.inj e).1 (by simp)
      | ok n =>
        rw [hd] at e
        cases e
        exact ⟨rfl, rfl⟩

theorem Fits.next_ext {p : Profile} {f f' : Fits} {h : HDU} {b : List UInt8} (e : f.next p = (some (.ok h), f')) :
    (f.ext b).next p = (some (.ok h), f'.ext b) := by
  unfold Fits.next at e ⊢
  by_cases he : f.errored = true
  · rw [if_pos he] at e; exact absurd (Prod.mk.inj e).1 (by simp)
  rw [if_neg he] at e
  rw [if_neg (show ¬ (f.ext b).errored = true from he)]
  by_cases hs : f.start = true
  · rw [if_pos hs] at e
    rw [if_pos (show (f.ext b).start = true from hs)]
    cases hp : HDU.newPrimary f.rd with
    | mk r s =>
      rw [hp] at e
      dsimp only at e ⊢
      obtain ⟨h1, h2⟩ := record_ext (b := b) e
      cases h1
      rw [show HDU.newPrimary (f.ext b).rd = _ from newPrimary_ext hp]
      exact h2
  · rw [if_neg hs] at e
    rw [if_neg (show ¬ (f.ext b).start = true from hs)]
    have hc : (f.ext b).consumeUntilNextHdu p = ((f.consumeUntilNextHdu p).1, (f.consumeUntilNextHdu p).2.ext b) := by
      unfold Fits.consumeUntilNextHdu
      rw [show (f.ext b).skipBytes p = f.skipBytes p from rfl]
      cases f.skipBytes p with
      | ok n => exact Reader.seekRelative_ext b _ _
      | err x => rfl
      | panic => rfl
    rw [hc]
    cases hu : f.consumeUntilNextHdu p with
    | mk r rd =>
      rw [hu] at e
      cases r with
      | err x => exact absurd (record_ext (b := b) e).1 (by simp)
      | panic => exact absurd (record_ext (b := b) e).1 (by simp)
      | ok u =>
        dsimp only at e ⊢
        cases hn : HDU.newXtension p { rd, nread := 0 } with
        | mk r s =>
          rw [hn] at e
          dsimp only at e
          cases r with
          | panic => exact absurd (record_ext (b := b) e).1 (by simp)
          | err x =>
            exfalso
            have h1 := (record_ext (b := b) e).1
            split at h1
            · split at h1 <;> simp at h1
            · simp at h1
          | ok x =>
            obtain ⟨h1, h2⟩ := record_ext (b := b) e
            cases h1
            rw [show HDU.newXtension p { rd := rd.ext b, nread := 0 } = _ from newXtension_ext hn]
            exact h2

/-! ### Images -/

/-- The pixels in the longer file. -/
def It.ext (b : List UInt8) (it : It) : It := { it with rd := it.rd.ext b }

theorem It.next_ext {it it' : It} {v : Pixel} {b : List UInt8} (e : it.next = (some v, it')) :
    (it.ext b).next = (some v, it'.ext b) := by
  unfold It.next at e ⊢
  by_cases hc : it.cur = it.numItems
  · rw [if_pos hc] at e; exact absurd (Prod.mk.inj e).1 (by simp)
  rw [if_neg hc] at e
  rw [if_neg (show ¬ (it.ext b).cur = (it.ext b).numItems from hc)]
  cases hr : it.rd.readExact it.ty.byteSize with
  | mk r rd =>
    rw [hr] at e
    cases r with
    | err x => exact absurd (Prod.mk.inj e).1 (by simp)
    | panic => exact absurd (Prod.mk.inj e).1 (by simp)
    | ok bs =>
      rw [show (it.ext b).rd.readExact (it.ext b).ty.byteSize = _ from Reader.readExact_ext hr]
      cases e
      rfl

theorem It.readValue_ext {p : Profile} {i : Nat} {it it' : It} {v : Pixel} {b : List UInt8}
    (e : it.readValue p i = (.ok v, it')) : (it.ext b).readValue p i = (.ok v, it'.ext b) := by
  unfold It.readValue at e ⊢
  by_cases hc : i ≥ it.numItems
  · rw [if_pos hc] at e; exact absurd (Prod.mk.inj e).1 (by simp)
  rw [if_neg hc] at e
  rw [if_neg (show ¬ i ≥ (it.ext b).numItems from hc), show (it.ext b).readOffset p i = it.readOffset p i from rfl]
  cases ho : it.readOffset p i with
  | err x => rw [ho] at e; exact absurd (Prod.mk.inj e).1 (by simp)
  | panic => rw [ho] at e; exact absurd (Prod.mk.inj e).1 (by simp)
  | ok off =>
    rw [ho] at e
    dsimp only at e ⊢
    unfold It.readAt at e ⊢
    rw [show (it.ext b).rd.seekRelative off = _ from Reader.seekRelative_ext b off it.rd]
    cases hs : it.rd.seekRelative off with
    | mk r rd =>
      rw [hs] at e
      cases r with
      | err x => exact absurd (Prod.mk.inj e).1 (by simp)
      | panic => exact absurd (Prod.mk.inj e).1 (by simp)
      | ok u =>
        dsimp only at e ⊢
        cases hn : It.next { it with rd, cur := i } with
        | mk v it2 =>
          rw [hn] at e
          cases v with
          | none => exact absurd (Prod.mk.inj e).1 (by simp)
          | some v =>
            rw [show It.next { it.ext b with rd := rd.ext b, cur := i } = _ from It.next_ext hn]
            cases e
            rfl

/-- The image in the longer file. -/
def ImageData.ext (b : List UInt8) (d : ImageData) : ImageData := { d with pixels := d.pixels.ext b }

theorem slice_ext {p : Profile} {data b bs : List UInt8} {s n : Nat} (e : slice p data s n = .ok bs) :
    slice p (data ++ b) s n = .ok bs := by
  unfold slice at e ⊢
  obtain ⟨x, h1, h2⟩ := Res.bind_eq_ok.1 e
  rw [h1, Res.bind_ok]
  by_cases hc : s ≤ x ∧ x ≤ data.length
  · rw [if_pos hc] at h2
    rw [if_pos ⟨hc.1, by rw [List.length_append]; omega⟩, List.drop_append_of_le_length (by omega),
      List.take_append_of_le_length (by rw [List.length_drop]; omega)]
    exact h2
  · rw [if_neg hc] at h2; exact absurd h2 (by simp)

/-! ### Tables -/

namespace TableData

/-- The table in the longer file. -/
def ext (b : List UInt8) (t : TableData) : TableData := { t with rd := t.rd.ext b }

theorem advance_ext (p : Profile) (off : Int) (b : List UInt8) (t : TableData) :
    (t.ext b).advance p off = ((t.advance p off).1, (t.advance p off).2.ext b) := by
  unfold advance
  rw [show (t.ext b).rd.seekRelative off = _ from Reader.seekRelative_ext b off t.rd,
    show (t.ext b).byteOffset = t.byteOffset from rfl]
  cases t.rd.seekRelative off with
  | mk r rd =>
    cases r with
    | err x => rfl
    | panic => rfl
    | ok u =>
      dsimp only
      cases uadd p t.byteOffset (asU64 off) <;> rfl

theorem seekNext_ext (p : Profile) (lc lr : Bool) (b : List UInt8) (t : TableData) :
    (t.ext b).seekNext p lc lr = ((t.seekNext p lc lr).1, (t.seekNext p lc lr).2.ext b) := by
  unfold seekNext
  dsimp only
  have e : (if lc = true then { t.ext b with row := (t.ext b).row + 1 } else t.ext b) =
      (if lc = true then { t with row := t.row + 1 } else t).ext b := by
    split <;> rfl
  rw [e]
  generalize (if lc = true then { t with row := t.row + 1 } else t) = t
  by_cases hl : (lc && lr) = true
  · rw [if_pos hl, if_pos hl, show (t.ext b).mainSize = t.mainSize from rfl,
      show (t.ext b).byteOffset = t.byteOffset from rfl]
    cases i64op p (asI64 t.mainSize - asI64 t.byteOffset) with
    | ok off => exact advance_ext p off b t
    | err x => rfl
    | panic => rfl
  · rw [if_neg hl, if_neg hl]
    show (match nextOffset p { t with col := (t.col + 1) % t.cols.length, item := 0 } ((t.col + 1) % t.cols.length) with
      | .ok off => advance p off (ext b { t with col := (t.col + 1) % t.cols.length, item := 0 })
      | .err e => (.err e, ext b { t with col := (t.col + 1) % t.cols.length, item := 0 })
      | .panic => (.panic, ext b { t with col := (t.col + 1) % t.cols.length, item := 0 })) = _
    generalize (t.col + 1) % t.cols.length = c
    cases nextOffset p { t with col := c, item := 0 } c with
    | ok off => exact advance_ext p off b { t with col := c, item := 0 }
    | err x => rfl
    | panic => rfl

theorem seekToNextCol_ext (p : Profile) (b : List UInt8) (t : TableData) :
    (t.ext b).seekToNextCol p = ((t.seekToNextCol p).1, (t.seekToNextCol p).2.ext b) := by
  unfold seekToNextCol
  rw [show (t.ext b).cols = t.cols from rfl, show (t.ext b).ctx = t.ctx from rfl]
  cases usub p t.cols.length 1 with
  | err x => rfl
  | panic => rfl
  | ok l =>
    cases usub p t.ctx.naxis2 1 with
    | err x => rfl
    | panic => rfl
    | ok r => exact seekNext_ext p _ _ b t

theorem seekToRow_ext (p : Profile) (i : Nat) (b : List UInt8) (t : TableData) :
    (t.ext b).seekToRow p i = ((t.seekToRow p i).1, (t.seekToRow p i).2.ext b) := by
  unfold seekToRow
  rw [show (t.ext b).ctx = t.ctx from rfl]
  by_cases hi : i ≥ t.ctx.naxis2
  · rw [if_pos hi, if_pos hi]
  rw [if_neg hi, if_neg hi]
  dsimp only
  rw [show (t.ext b).cols = t.cols from rfl, show (t.ext b).offsets = t.offsets from rfl,
    show (t.ext b).byteOffset = t.byteOffset from rfl]
  cases t.cols[0]?.bind (t.offsets[·]?) with
  | none => rfl
  | some o =>
    dsimp only
    generalize (i64op p (asI64 i * asI64 t.ctx.naxis1) >>= fun a => i64op p (a + asI64 o)) = x
    cases x with
    | err x => rfl
    | panic => rfl
    | ok new =>
      dsimp only
      generalize (i64op p (- asI64 t.byteOffset) >>= fun a => i64op p (a + new)) = y
      cases y with
      | err x => rfl
      | panic => rfl
      | ok off =>
        dsimp only
        rw [show (t.ext b).rd.seekRelative off = _ from Reader.seekRelative_ext b off t.rd]
        cases t.rd.seekRelative off with
        | mk r rd => cases r <;> rfl

theorem jumpToHeap_ext (p : Profile) (ty : ElemTy) (o n s : Nat) (b : List UInt8) (t : TableData) :
    (t.ext b).jumpToHeap p ty o n s = ((t.jumpToHeap p ty o n s).1, (t.jumpToHeap p ty o n s).2.ext b) := by
  unfold jumpToHeap
  rw [show (t.ext b).inHeap = t.inHeap from rfl]
  cases t.inHeap with
  | some h => rfl
  | none =>
    dsimp only
    rw [show (t.ext b).byteOffset = t.byteOffset from rfl, show (t.ext b).ctx = t.ctx from rfl]
    cases heapOffset p t.byteOffset t.ctx.theap o with
    | err x => rfl
    | panic => rfl
    | ok off =>
      dsimp only
      rw [show (t.ext b).rd.seekRelative off = _ from Reader.seekRelative_ext b off t.rd]
      cases t.rd.seekRelative off with
      | mk r rd =>
        cases r with
        | err x => rfl
        | panic => rfl
        | ok u =>
          dsimp only
          cases umul p n s <;> rfl

theorem jumpToMainTable_ext (b : List UInt8) (t : TableData) : (t.ext b).jumpToMainTable = t.jumpToMainTable.ext b := by
  unfold jumpToMainTable
  rw [show (t.ext b).inHeap = t.inHeap from rfl]
  cases t.inHeap <;> rfl

theorem finish_ext (v : DataValue) (b : List UInt8) (r : Res Unit × TableData) :
    finish v (r.1, r.2.ext b) = ((finish v r).1, (finish v r).2.ext b) := by
  obtain ⟨r, t⟩ := r
  cases r <;> rfl

theorem nextInHeap_ext {p : Profile} {c : Nat} {h : HeapState} {b : List UInt8} {t t' : TableData} {v : DataValue}
    (e : t.nextInHeap p c h = (.ok (some v), t')) : (t.ext b).nextInHeap p c h = (.ok (some v), t'.ext b) := by
  unfold nextInHeap at e ⊢
  cases hu : usub p h.num (h.left / h.size) with
  | err x => rw [hu] at e; exact absurd (Prod.mk.inj e).1 (by simp)
  | panic => rw [hu] at e; exact absurd (Prod.mk.inj e).1 (by simp)
  | ok idx =>
    rw [hu] at e
    dsimp only at e ⊢
    cases hr : t.rd.readExact h.ty.bytes with
    | mk r rd =>
      rw [hr] at e
      cases r with
      | err x => exact absurd (Prod.mk.inj e).1 (by simp)
      | panic => exact absurd (Prod.mk.inj e).1 (by simp)
      | ok bs =>
        rw [show (t.ext b).rd.readExact h.ty.bytes = _ from Reader.readExact_ext hr]
        dsimp only at e ⊢
        cases hl : usub p h.left h.ty.bytes with
        | err x => rw [hl] at e; exact absurd (Prod.mk.inj e).1 (by simp)
        | panic => rw [hl] at e; exact absurd (Prod.mk.inj e).1 (by simp)
        | ok left =>
          rw [hl] at e
          dsimp only at e ⊢
          by_cases h0 : left = 0
          · rw [if_pos h0] at e ⊢
            rw [show ({ t.ext b with rd := rd.ext b, inHeap := some { h with left := left } } : TableData) =
                TableData.ext b { t with rd := rd, inHeap := some { h with left := left } } from rfl,
              jumpToMainTable_ext, seekToNextCol_ext, finish_ext, e]
          · rw [if_neg h0] at e ⊢
            cases e
            rfl

theorem nextPlain_ext {p : Profile} {c rep : Nat} {ty : ElemTy} {b : List UInt8} {t t' : TableData} {v : DataValue}
    (e : t.nextPlain p c ty rep = (.ok (some v), t')) : (t.ext b).nextPlain p c ty rep = (.ok (some v), t'.ext b) := by
  unfold nextPlain at e ⊢
  cases hr : t.rd.readExact ty.bytes with
  | mk r rd =>
    rw [hr] at e
    cases r with
    | err x => exact absurd (Prod.mk.inj e).1 (by simp)
    | panic => exact absurd (Prod.mk.inj e).1 (by simp)
    | ok bs =>
      rw [show (t.ext b).rd.readExact ty.bytes = _ from Reader.readExact_ext hr]
      dsimp only at e ⊢
      rw [show (t.ext b).item = t.item from rfl]
      by_cases h0 : t.item + 1 = itemCount ty rep
      · rw [if_pos h0] at e ⊢
        rw [show ({ t.ext b with rd := rd.ext b, byteOffset := (t.ext b).byteOffset + ty.bytes, item := t.item + 1 } : TableData) =
            TableData.ext b { t with rd := rd, byteOffset := t.byteOffset + ty.bytes, item := t.item + 1 } from rfl,
          seekToNextCol_ext, finish_ext, e]
      · rw [if_neg h0] at e ⊢
        cases e
        rfl

theorem nextArray_ext {p : Profile} {c k : Nat} {ty : ElemTy} {mk : Nat → Nat → DataValue} {b : List UInt8}
    {t t' : TableData} {v : DataValue} (e : t.nextArray p c ty k mk = (.ok (some v), t')) :
    (t.ext b).nextArray p c ty k mk = (.ok (some v), t'.ext b) := by
  unfold nextArray at e ⊢
  cases hr : t.rd.readExact (k + k) with
  | mk r rd =>
    rw [hr] at e
    cases r with
    | err x => exact absurd (Prod.mk.inj e).1 (by simp)
    | panic => exact absurd (Prod.mk.inj e).1 (by simp)
    | ok bs =>
      rw [show (t.ext b).rd.readExact (k + k) = _ from Reader.readExact_ext hr]
      dsimp only at e ⊢
      by_cases hh : t.heap = true
      · rw [if_pos hh] at e
        rw [if_pos (show (t.ext b).heap = true from hh)]
        rw [show ({ t.ext b with rd := rd.ext b, byteOffset := (t.ext b).byteOffset + (k + k) } : TableData) =
          TableData.ext b { t with rd := rd, byteOffset := t.byteOffset + (k + k) } from rfl]
        generalize ({ t with rd := rd, byteOffset := t.byteOffset + (k + k) } : TableData) = t1 at e ⊢
        rw [jumpToHeap_ext]
        cases hj : t1.jumpToHeap p ty (beNat (bs.drop k)) (beNat (bs.take k)) ty.bytes with
        | mk r t2 =>
          rw [hj] at e
          cases r with
          | err x => exact absurd (Prod.mk.inj e).1 (by simp)
          | panic => exact absurd (Prod.mk.inj e).1 (by simp)
          | ok u =>
            dsimp only at e ⊢
            rw [show (t2.ext b).inHeap = t2.inHeap from rfl]
            cases hi : t2.inHeap with
            | none => rw [hi] at e; exact absurd (Prod.mk.inj e).1 (by simp)
            | some h =>
              rw [hi] at e
              exact nextInHeap_ext e
      · rw [if_neg hh] at e
        rw [if_neg (show ¬ (t.ext b).heap = true from hh)]
        rw [show ({ t.ext b with rd := rd.ext b, byteOffset := (t.ext b).byteOffset + (k + k) } : TableData) =
          TableData.ext b { t with rd := rd, byteOffset := t.byteOffset + (k + k) } from rfl]
        rw [seekToNextCol_ext, finish_ext, e]

theorem nextAt_ext {p : Profile} {c : Nat} {b : List UInt8} {t t' : TableData} {v : DataValue}
    (e : t.nextAt p c = (.ok (some v), t')) : (t.ext b).nextAt p c = (.ok (some v), t'.ext b) := by
  unfold nextAt at e ⊢
  rw [show (t.ext b).inHeap = t.inHeap from rfl, show (t.ext b).byteOffset = t.byteOffset from rfl,
    show (t.ext b).mainSize = t.mainSize from rfl, show (t.ext b).ctx = t.ctx from rfl]
  cases hi : t.inHeap with
  | some h =>
    rw [hi] at e
    exact nextInHeap_ext e
  | none =>
    rw [hi] at e
    dsimp only at e ⊢
    by_cases h0 : t.byteOffset = t.mainSize
    · rw [if_pos h0] at e; exact absurd (Prod.mk.inj e).1 (by simp)
    rw [if_neg h0] at e ⊢
    cases hf : t.ctx.tforms[c]? with
    | none => rw [hf] at e; exact absurd (Prod.mk.inj e).1 (by simp)
    | some f =>
      rw [hf] at e
      cases f with
      | plain ty rep => exact nextPlain_ext e
      | P ty => exact nextArray_ext e
      | Q ty => exact nextArray_ext e

theorem toFirstCol_ext (p : Profile) (c : Nat) (b : List UInt8) (t : TableData) :
    (t.ext b).toFirstCol p c = ((t.toFirstCol p c).1, (t.toFirstCol p c).2.ext b) := by
  unfold toFirstCol
  rw [show (t.ext b).seekFirst = t.seekFirst from rfl]
  by_cases hs : t.seekFirst = true
  · rw [if_pos hs, if_pos hs]
    dsimp only
    cases ho : t.offsets[c]? with
    | none => rw [show (t.ext b).offsets[c]? = none from ho]; rfl
    | some o =>
      rw [show (t.ext b).offsets[c]? = some o from ho]
      dsimp only
      rw [show ({ t.ext b with seekFirst := false } : TableData) = TableData.ext b { t with seekFirst := false } from rfl,
        advance_ext]
      cases advance p (asI64 o) { t with seekFirst := false } with
      | mk r t2 => cases r <;> rfl
  · rw [if_neg hs, if_neg hs]

theorem next_ext {p : Profile} {b : List UInt8} {t t' : TableData} {v : DataValue}
    (e : t.next p = (.ok (some v), t')) : (t.ext b).next p = (.ok (some v), t'.ext b) := by
  unfold next at e ⊢
  rw [show (t.ext b).cols = t.cols from rfl, show (t.ext b).col = t.col from rfl]
  cases hc : t.cols[t.col]? with
  | none => rw [hc] at e; exact absurd (Prod.mk.inj e).1 (by simp)
  | some c =>
    rw [hc] at e
    dsimp only at e ⊢
    rw [toFirstCol_ext]
    cases hf : t.toFirstCol p c with
    | mk r t1 =>
      rw [hf] at e
      cases r with
      | none => exact nextAt_ext e
      | some r =>
        exfalso
        dsimp only at e
        obtain ⟨h1, -⟩ := Prod.mk.inj e
        subst h1
        unfold toFirstCol at hf
        split at hf
        · dsimp only at hf
          split at hf
          · exact absurd (Prod.mk.inj hf).1 (by simp)
          · split at hf <;> exact absurd (Prod.mk.inj hf).1 (by simp)
        · exact absurd (Prod.mk.inj hf).1 (by simp)

end TableData

/-- The rows in the longer file. -/
def TableRows.ext (b : List UInt8) (r : TableRows) : TableRows := { r with data := r.data.ext b }

theorem TableRows.collect_ext {p : Profile} {b : List UInt8} {fuel row : Nat} {t t' : TableData} {acc vs : List DataValue}
    (e : TableRows.collect p fuel row t acc = some (.ok (some vs), t')) :
    TableRows.collect p fuel row (t.ext b) acc = some (.ok (some vs), t'.ext b) := by
  induction fuel generalizing t acc with
  | zero => cases e
  | succ fuel ih =>
    unfold TableRows.collect at e ⊢
    rw [show (t.ext b).row = t.row from rfl]
    by_cases hr : t.row = row
    · rw [if_pos hr] at e ⊢
      cases hn : t.next p with
      | mk r t1 =>
        rw [hn] at e
        cases r with
        | err x => exact absurd (Prod.mk.inj (Option.some.inj e)).1 (by simp)
        | panic => exact absurd (Prod.mk.inj (Option.some.inj e)).1 (by simp)
        | ok v =>
          cases v with
          | none => exact absurd (Prod.mk.inj (Option.some.inj e)).1 (by simp)
          | some v =>
            rw [TableData.next_ext hn]
            exact ih e
    · rw [if_neg hr] at e ⊢
      cases e
      rfl

theorem TableRows.next_ext {p : Profile} {b : List UInt8} {fuel : Nat} {r r' : TableRows} {vs : List DataValue}
    (e : r.next p fuel = some (.ok (some vs), r')) : (r.ext b).next p fuel = some (.ok (some vs), r'.ext b) := by
  unfold TableRows.next at e ⊢
  cases hc : TableRows.collect p fuel r.row r.data [] with
  | none => rw [hc] at e; cases e
  | some x =>
    obtain ⟨x, t⟩ := x
    rw [hc] at e
    cases x with
    | err x => exact absurd (Prod.mk.inj (Option.some.inj e)).1 (by simp)
    | panic => exact absurd (Prod.mk.inj (Option.some.inj e)).1 (by simp)
    | ok v =>
      cases v with
      | none => exact absurd (Prod.mk.inj (Option.some.inj e)).1 (by simp)
      | some v =>
        rw [show TableRows.collect p fuel (r.ext b).row (r.ext b).data [] = _ from TableRows.collect_ext hc]
        cases e
        rfl

/-! ### RICE -/

/-- If the first outcome is a value, the second one is its image. -/
def Res.On {α β : Type} (φ : α → β) (d : Res α) (r : Res β) : Prop := ∀ a, d = .ok a → r = .ok (φ a)

theorem Res.On.bind {α β γ δ : Type} {φ : α → β} {ψ : γ → δ} {d : Res α} {r : Res β} {f : α → Res γ} {g : β → Res δ}
    (h : Res.On φ d r) (hf : ∀ a, Res.On ψ (f a) (g (φ a))) : Res.On ψ (d >>= f) (r >>= g) := by
  intro c hc
  obtain ⟨a, ha, hb⟩ := Res.bind_eq_ok.1 hc
  rw [h a ha, Res.bind_ok]
  exact hf a c hb

theorem Res.On.same {α : Type} (d : Res α) : Res.On id d d := fun _ h => h

theorem Res.On.ok {α β : Type} {φ : α → β} (a : α) : Res.On φ (.ok a) (.ok (φ a)) := by
  intro c hc
  cases hc
  rfl

theorem Res.On.err {α β : Type} {φ : α → β} {e : Err} {r : Res β} : Res.On φ (.err e) r := by
  intro c hc
  cases hc

theorem Res.On.panic {α β : Type} {φ : α → β} {r : Res β} : Res.On φ .panic r := by
  intro c hc
  cases hc

namespace Rice

/-- The bit buffer with more bytes to come. -/
def Bits.ext (b : List UInt8) (s : Bits) : Bits := { s with inp := s.inp ++ b }

/-- A difference and the bit buffer with more bytes to come. -/
def extDiff (b : List UInt8) (x : Nat × Bits) : Nat × Bits := (x.1, x.2.ext b)

theorem refill_ext (ys inp : List UInt8) (b : Nat) (n : Int) :
    Res.On (Bits.ext ys) (refill inp b n) (refill (inp ++ ys) b n) := by
  induction inp generalizing b n with
  | nil =>
    intro s hs
    unfold refill at hs
    by_cases hn : n < 0
    · rw [if_pos hn] at hs; cases hs
    · rw [if_neg hn] at hs
      cases hs
      unfold refill
      rw [if_neg hn]
      rfl
  | cons x inp ih =>
    rw [List.cons_append]
    unfold refill
    by_cases hn : n < 0
    · rw [if_pos hn, if_pos hn]
      exact ih _ _
    · rw [if_neg hn, if_neg hn]
      exact Res.On.ok (φ := Bits.ext ys) ⟨b, n, x :: inp⟩

theorem fsValue_ext (p : Profile) (ys : List UInt8) (s : Bits) :
    Res.On (fun x => (x.1, x.2.ext ys)) (fsValue p s) (fsValue p (s.ext ys)) :=
  (refill_ext ys _ _ _).bind fun _ => (Res.On.same _).bind fun _ => (Res.On.same _).bind fun _ => .ok _

theorem highFill_ext (p : Profile) (ys inp : List UInt8) (b d : Nat) (k : Int) :
    Res.On (fun x => (x.1, x.2.1, x.2.2.1, x.2.2.2 ++ ys)) (highFill p inp b d k) (highFill p (inp ++ ys) b d k) := by
  induction inp generalizing b d k with
  | nil =>
    intro s hs
    unfold highFill at hs
    by_cases hn : 0 ≤ k
    · rw [if_pos hn] at hs; cases hs
    · rw [if_neg hn] at hs
      cases hs
      unfold highFill
      rw [if_neg hn]
  | cons x inp ih =>
    rw [List.cons_append]
    unfold highFill
    by_cases hn : 0 ≤ k
    · rw [if_pos hn, if_pos hn]
      dsimp only
      cases shamt p 32 k with
      | ok n => exact ih _ _ _
      | err e => exact .err
      | panic => exact .panic
    · rw [if_neg hn, if_neg hn]
      intro s hs
      cases hs
      rfl

theorem highEnd_ext (p : Profile) (ys : List UInt8) (n : Int) (d : Nat) (k : Int) (inp : List UInt8) :
    Res.On (extDiff ys) (highEnd p n d k inp) (highEnd p n d k (inp ++ ys)) := by
  unfold highEnd
  by_cases hn : n > 0
  · rw [if_pos hn, if_pos hn]
    cases inp with
    | nil => exact .err
    | cons x inp => exact (Res.On.same _).bind fun _ => (Res.On.same _).bind fun _ => .ok (φ := extDiff ys) _
  · rw [if_neg hn, if_neg hn]
    exact .ok (φ := extDiff ys) (d, ⟨0, n, inp⟩)

theorem highDiff_ext (p : Profile) (ys : List UInt8) (s : Bits) :
    Res.On (extDiff ys) (highDiff p s) (highDiff p (s.ext ys)) :=
  (Res.On.same _).bind fun _ => (highFill_ext p ys _ _ _ _).bind fun _ => highEnd_ext p ys _ _ _ _

theorem skipZeros_ext (p : Profile) (ys inp : List UInt8) (b : Nat) (n : Int) :
    Res.On (Bits.ext ys) (skipZeros p inp b n) (skipZeros p (inp ++ ys) b n) := by
  induction inp generalizing b n with
  | nil =>
    intro s hs
    unfold skipZeros at hs
    by_cases hb : b = 0
    · rw [if_pos hb] at hs
      cases ho : i32op p (n + 8) with
      | ok m => rw [ho] at hs; cases hs
      | err e => rw [ho] at hs; cases hs
      | panic => rw [ho] at hs; cases hs
    · rw [if_neg hb] at hs
      cases hs
      unfold skipZeros
      rw [if_neg hb]
      rfl
  | cons x inp ih =>
    rw [List.cons_append]
    unfold skipZeros
    by_cases hb : b = 0
    · rw [if_pos hb, if_pos hb]
      cases i32op p (n + 8) with
      | ok n => exact ih _ _
      | err e => exact .err
      | panic => exact .panic
    · rw [if_neg hb, if_neg hb]
      exact .ok (φ := Bits.ext ys) ⟨b, n, x :: inp⟩

theorem riceEnd_ext (p : Profile) (ys : List UInt8) (fs : Int) (s : Bits) :
    Res.On (extDiff ys) (riceEnd p fs s) (riceEnd p fs (s.ext ys)) := by
  unfold riceEnd
  rw [show (s.ext ys).b = s.b from rfl]
  cases nonzeroCount[s.b]? with
  | none => exact .panic
  | some c =>
    exact (Res.On.same _).bind fun _ => (Res.On.same _).bind fun _ => (Res.On.same _).bind fun _ => (Res.On.same _).bind fun _ =>
      (refill_ext ys _ _ _).bind fun _ => (Res.On.same _).bind fun _ => (Res.On.same _).bind fun _ => .ok (φ := extDiff ys) _

theorem riceDiff_ext (p : Profile) (ys : List UInt8) (fs : Int) (s : Bits) :
    Res.On (extDiff ys) (riceDiff p fs s) (riceDiff p fs (s.ext ys)) :=
  (skipZeros_ext p ys _ _ _).bind fun _ => riceEnd_ext p ys _ _

theorem pixels_ext {p : Profile} {ys : List UInt8} {f : Bits → Res (Nat × Bits)}
    (h : ∀ s, Res.On (extDiff ys) (f s) (f (s.ext ys))) (n : Nat) (l : Int) (s : Bits) :
    Res.On (fun x => (x.1, x.2.1, x.2.2.ext ys)) (pixels p f n l s) (pixels p f n l (s.ext ys)) := by
  induction n generalizing l s with
  | zero => exact .ok (φ := fun x : List Int × Int × Bits => (x.1, x.2.1, x.2.2.ext ys)) ([], l, s)
  | succ n ih =>
    exact (h s).bind fun _ => (Res.On.same _).bind fun _ => (ih _ _).bind fun _ =>
      .ok (φ := fun x : List Int × Int × Bits => (x.1, x.2.1, x.2.2.ext ys)) _

/-- The state of the decoder with more bytes to come. -/
def State.ext (b : List UInt8) : State → State
  | .start inp => .start (inp ++ b)
  | .fs s i l => .fs (s.ext b) i l
  | .low s i m l => .low (s.ext b) i m l
  | .high s i m l => .high (s.ext b) i m l
  | .rice s f i m l => .rice (s.ext b) f i m l

theorem afterBlock_ext (b : List UInt8) (old : State) (s : Bits) (i m l : Int) :
    afterBlock (old.ext b) (s.ext b) i m l = (afterBlock old s i m l).ext b := by
  unfold afterBlock
  split <;> rfl

theorem blockState_ext (b : List UInt8) (fs : Int) (s : Bits) (i m l : Int) :
    blockState fs (s.ext b) i m l = (blockState fs s i m l).ext b := by
  unfold blockState
  split
  · rfl
  · split <;> rfl

/-- The outcome of a turn with more bytes to come. -/
def extStep (b : List UInt8) (x : List Int × State × Bool) : List Int × State × Bool := (x.1, x.2.1.ext b, x.2.2)

theorem step_ext (p : Profile) (q : Params) (room : Nat) (ys : List UInt8) (st : State) :
    Res.On (extStep ys) (step p q room st) (step p q room (st.ext ys)) := by
  cases st with
  | start inp =>
    intro a ha
    show step p q room (.start (inp ++ ys)) = _
    match inp, ha with
    | b0 :: b1 :: b2 :: b3 :: b :: inp, ha =>
      cases ha
      rfl
  | fs s i l =>
    refine (fsValue_ext p ys s).bind fun x => (Res.On.same _).bind fun m => ?_
    intro a ha
    cases ha
    rw [blockState_ext]
    rfl
  | low s i m l =>
    intro a ha
    cases ha
    show Res.ok (_, afterBlock (State.ext ys (.low s i m l)) _ _ _ _, _) = _
    rw [afterBlock_ext]
    rfl
  | high s i m l =>
    refine (pixels_ext (highDiff_ext p ys) _ _ _).bind fun x => ?_
    intro a ha
    cases ha
    show Res.ok (_, afterBlock (State.ext ys (.high { s with inp := x.2.2.inp } i m l)) _ _ _ _, _) = _
    rw [afterBlock_ext]
    rfl
  | rice s f i m l =>
    refine (pixels_ext (riceDiff_ext p ys f) _ _ _).bind fun x => ?_
    intro a ha
    cases ha
    show Res.ok (_, afterBlock (State.ext ys (.rice { s with inp := x.2.2.inp } f i m l)) _ _ _ _, _) = _
    rw [afterBlock_ext]
    rfl

theorem read_ext {p : Profile} {q : Params} {fuel room : Nat} {ys : List UInt8} {st st' : State} {out : List Int}
    (h : read p q fuel room st = some (.ok (out, st'))) :
    read p q fuel room (st.ext ys) = some (.ok (out, st'.ext ys)) := by
  induction fuel generalizing room st out with
  | zero => cases h
  | succ n ih =>
    unfold read at h ⊢
    cases hs : step p q room st with
    | err e => rw [hs] at h; cases h
    | panic => rw [hs] at h; cases h
    | ok x =>
      obtain ⟨o1, st1, tested⟩ := x
      rw [hs] at h
      rw [step_ext p q room ys st _ hs]
      dsimp only [extStep] at h ⊢
      by_cases ht : tested = true ∧ o1.length = room
      · rw [if_pos ht] at h ⊢
        cases h
        rfl
      · rw [if_neg ht] at h ⊢
        cases hr : read p q n (room - o1.length) st1 with
        | none => rw [hr] at h; cases h
        | some r =>
          rw [hr] at h
          cases r with
          | err e => cases h
          | panic => cases h
          | ok x =>
            obtain ⟨o2, st2⟩ := x
            cases h
            rw [ih hr]
            rfl

theorem tile_ext {p : Profile} {fuel nblock n : Nat} {bytes ys : List UInt8} {out : List Int}
    (h : tile p fuel nblock n bytes = some (.ok out)) : tile p fuel nblock n (bytes ++ ys) = some (.ok out) := by
  unfold tile at h ⊢
  by_cases hn : n = 0
  · rw [if_pos hn] at h ⊢
    exact h
  rw [if_neg hn] at h ⊢
  generalize ({ nblock := nblock, nx := toSigned 32 (n % 2 ^ 32) } : Params) = q at h ⊢
  cases hr : read p q fuel n (.start bytes) with
  | none => rw [hr] at h; cases h
  | some r =>
    rw [hr] at h
    cases r with
    | err e => cases h
    | panic => cases h
    | ok x =>
      obtain ⟨o, st⟩ := x
      cases h
      rw [show read p q fuel n (.start (bytes ++ ys)) = _ from read_ext hr]
      rfl

end Rice

/-! ### Tile-compressed images -/

namespace TileIt

/-- The compressed image in the longer file. -/
def ext (b : List UInt8) (it : TileIt) : TileIt := { it with rows := it.rows.ext b }

theorem decompress_ext {p : Profile} {gz : Gunzip} (hgz : ∀ xs ys, gz xs <+: gz (xs ++ ys)) {fuel : Nat}
    {c : ZCmpType} {n size : Nat} {bytes ys buf : List UInt8} (h : decompress p gz fuel c n size bytes = some (.ok buf)) :
    decompress p gz fuel c n size (bytes ++ ys) = some (.ok buf) := by
  have key : (if size ≤ (gz bytes).length then some (.ok ((gz bytes).take size)) else some (.err (.io .unexpectedEof))) =
        some (Res.ok buf) →
      (if size ≤ (gz (bytes ++ ys)).length then some (.ok ((gz (bytes ++ ys)).take size))
        else some (.err (.io .unexpectedEof))) = some (Res.ok buf) := by
    intro h
    obtain ⟨t, ht⟩ := hgz bytes ys
    by_cases hs : size ≤ (gz bytes).length
    · rw [if_pos hs] at h
      rw [← ht, if_pos (by rw [List.length_append]; omega), List.take_append_of_le_length hs]
      exact h
    · rw [if_neg hs] at h
      cases h
  cases c with
  | gzip1 => exact key h
  | gzip2 => exact key h
  | rice b =>
    show (Rice.tile p fuel b n (bytes ++ ys)).map (·.map (·.flatMap littleEndian)) = _
    replace h : (Rice.tile p fuel b n bytes).map (·.map (·.flatMap littleEndian)) = _ := h
    cases hr : Rice.tile p fuel b n bytes with
    | none => rw [hr] at h; cases h
    | some r =>
      rw [hr] at h
      cases r with
      | err e => cases h
      | panic => cases h
      | ok o =>
        rw [Rice.tile_ext hr]
        exact h
  | plio1 => cases h
  | hcompress1 => cases h

theorem fill_ext {p : Profile} {gz : Gunzip} (hgz : ∀ xs ys, gz xs <+: gz (xs ++ ys)) {fuel : Nat}
    {off : Int} {it it' : TileIt} {b : List UInt8} (h : it.fill p gz fuel off = some (.ok true, it')) :
    (it.ext b).fill p gz fuel off = some (.ok true, it'.ext b) := by
  unfold fill at h ⊢
  dsimp only at h ⊢
  rw [show (it.ext b).rows.data.rd.seekRelative off = _ from Reader.seekRelative_ext b off it.rows.data.rd]
  cases hs : it.rows.data.rd.seekRelative off with
  | mk r rd =>
    rw [hs] at h
    cases r with
    | err x => cases h
    | panic => cases h
    | ok u =>
      dsimp only at h ⊢
      obtain ⟨ys, hys⟩ : ∃ ys, (rd.ext b).data.drop (rd.ext b).pos = rd.data.drop rd.pos ++ ys := by
        refine ⟨b.drop (rd.pos - rd.data.length), ?_⟩
        show (rd.data ++ b).drop rd.pos = _
        rw [List.drop_append]
      cases hd : decompress p gz fuel it.cmp it.nPixels it.buf.length (rd.data.drop rd.pos) with
      | none => rw [hd] at h; cases h
      | some r =>
        rw [hd] at h
        cases r with
        | err e => cases h
        | panic => cases h
        | ok buf =>
          rw [hys, show decompress p gz fuel (it.ext b).cmp (it.ext b).nPixels (it.ext b).buf.length (rd.data.drop rd.pos ++ ys) = _
            from decompress_ext hgz hd]
          cases h
          rfl

theorem openTile_ext {p : Profile} {gz : Gunzip} (hgz : ∀ xs ys, gz xs <+: gz (xs ++ ys)) {fuel : Nat}
    {vs : List DataValue} {it it' : TileIt} {b : List UInt8} (h : it.openTile p gz fuel vs = some (.ok true, it')) :
    (it.ext b).openTile p gz fuel vs = some (.ok true, it'.ext b) := by
  unfold openTile at h ⊢
  rw [show (it.ext b).dataIdx = it.dataIdx from rfl, show (it.ext b).zTile = it.zTile from rfl]
  cases ha : arrayOffset vs it.dataIdx with
  | err e => rw [ha] at h; cases h
  | panic => rw [ha] at h; cases h
  | ok o =>
    cases hp : product p it.zTile 1 with
    | err e => rw [ha, hp] at h; cases h
    | panic => rw [ha, hp] at h; cases h
    | ok n =>
      rw [ha, hp] at h
      dsimp only at h ⊢
      rw [show tileKw p (it.ext b).rows.row vs (it.ext b).kw = tileKw p it.rows.row vs it.kw from rfl]
      cases hk : tileKw p it.rows.row vs it.kw with
      | err e => rw [hk] at h; cases h
      | panic => rw [hk] at h; cases h
      | ok kw =>
        rw [hk] at h
        dsimp only at h ⊢
        rw [show tileOffset p (it.ext b).rows.row (it.ext b).rows.data.ctx.naxis1 (it.ext b).rows.data.ctx.theap o =
          tileOffset p it.rows.row it.rows.data.ctx.naxis1 it.rows.data.ctx.theap o from rfl]
        cases ho : tileOffset p it.rows.row it.rows.data.ctx.naxis1 it.rows.data.ctx.theap o with
        | err e => rw [ho] at h; cases h
        | panic => rw [ho] at h; cases h
        | ok off =>
          rw [ho] at h
          exact fill_ext hgz h

theorem load_ext {p : Profile} {gz : Gunzip} (hgz : ∀ xs ys, gz xs <+: gz (xs ++ ys)) {fuel : Nat}
    {it it' : TileIt} {b : List UInt8} (h : it.load p gz fuel = some (.ok true, it')) :
    (it.ext b).load p gz fuel = some (.ok true, it'.ext b) := by
  unfold load at h ⊢
  cases hn : it.rows.next p fuel with
  | none => rw [hn] at h; cases h
  | some x =>
    obtain ⟨r, rows⟩ := x
    rw [hn] at h
    cases r with
    | err e => cases h
    | panic => cases h
    | ok v =>
      cases v with
      | none => cases h
      | some vs =>
        rw [show (it.ext b).rows.next p fuel = _ from TableRows.next_ext hn]
        dsimp only at h ⊢
        exact openTile_ext (it := { it with rows := rows }) (b := b) hgz h

theorem pixel_ext (p : Profile) (b : List UInt8) (it : TileIt) :
    (it.ext b).pixel p = ((it.pixel p).1, (it.pixel p).2.ext b) := by
  unfold pixel
  rw [show (it.ext b).nPixels = it.nPixels from rfl, show (it.ext b).remaining = it.remaining from rfl,
    show (it.ext b).ty = it.ty from rfl, show (it.ext b).cmp = it.cmp from rfl, show (it.ext b).buf = it.buf from rfl,
    show (it.ext b).kw = it.kw from rfl]
  generalize (usub p it.nPixels it.remaining >>= fun i => rawValue it.ty it.cmp it.buf i >>= toPixel it.kw) = x
  cases x with
  | err e => rfl
  | panic => rfl
  | ok x =>
    obtain ⟨x, kw⟩ := x
    dsimp only
    cases usub p it.remaining 1 <;> rfl

theorem next_ext {p : Profile} {gz : Gunzip} (hgz : ∀ xs ys, gz xs <+: gz (xs ++ ys)) {fuel : Nat}
    {it it' : TileIt} {b : List UInt8} {v : TilePixel} (h : it.next p gz fuel = some (.ok (some v), it')) :
    (it.ext b).next p gz fuel = some (.ok (some v), it'.ext b) := by
  unfold next at h ⊢
  by_cases hr : it.remaining = 0
  · rw [if_pos hr] at h
    rw [if_pos (show (it.ext b).remaining = 0 from hr)]
    cases hl : it.load p gz fuel with
    | none => rw [hl] at h; cases h
    | some x =>
      obtain ⟨r, it1⟩ := x
      rw [hl] at h
      cases r with
      | err e => cases h
      | panic => cases h
      | ok f =>
        cases f with
        | false => cases h
        | true =>
          rw [load_ext hgz hl]
          dsimp only at h ⊢
          rw [pixel_ext, Option.some.inj h]
  · rw [if_neg hr] at h
    rw [if_neg (show ¬ (it.ext b).remaining = 0 from hr), pixel_ext, Option.some.inj h]

end TileIt

/-! ### Programs -/

/-- The bytes in the longer file. -/
def ByteStream.ext (b : List UInt8) (s : ByteStream) : ByteStream := { s with rd := s.rd.ext b }

/-- What is opened, in the longer file. -/
def OpenUnit.ext (b : List UInt8) : OpenUnit → OpenUnit
  | image d => .image (d.ext b)
  | bytes s => .bytes (s.ext b)
  | table t => .table (t.ext b)
  | rows r => .rows (r.ext b)
  | tiles it => .tiles (it.ext b)

theorem OpenUnit.rd_ext (b : List UInt8) (o : OpenUnit) : (o.ext b).rd = o.rd.ext b := by
  cases o <;> rfl

theorem getData_ext (p : Profile) (b : List UInt8) (f : Fits) (h : HDU) :
    (f.ext b).getData p h = (f.getData p h).map (OpenUnit.ext b) := by
  have himg : ∀ x : Hdu Image, ((f.ext b).getImage p x).map OpenUnit.image = ((f.getImage p x).map .image).map (OpenUnit.ext b) := by
    intro x
    unfold Fits.getImage ImageData.new
    cases x.header.xtension.numBytes p <;> rfl
  have htab : ∀ x : BinTable, TableData.new p (f.ext b).rd x (f.ext b).posStart =
      (TableData.new p f.rd x f.posStart).map (TableData.ext b) := by
    intro x
    unfold TableData.new
    cases TableData.columnOffsets p x.tforms 0 with
    | err e => rfl
    | panic => rfl
    | ok o => cases umul p x.naxis1 x.naxis2 <;> rfl
  cases h with
  | primary x => exact himg x
  | image x => exact himg x
  | asciiTable x =>
    show ((f.ext b).openAscii p x).map OpenUnit.bytes = ((f.openAscii p x).map OpenUnit.bytes).map (OpenUnit.ext b)
    unfold Fits.openAscii
    cases x.header.xtension.numBytes p <;> rfl
  | binTable x =>
    unfold Fits.getData
    dsimp only
    cases hz : x.header.xtension.zImage with
    | none =>
      dsimp only
      unfold Fits.getTable
      rw [htab, hz]
      cases TableData.new p f.rd x.header.xtension f.posStart <;> rfl
    | some z =>
      dsimp only
      unfold Fits.getTiles
      rw [htab]
      cases TableData.new p f.rd x.header.xtension f.posStart with
      | err e => rfl
      | panic => rfl
      | ok t =>
        show (TileIt.new p (t.ext b) x.header z).map OpenUnit.tiles = ((TileIt.new p t x.header z).map .tiles).map (OpenUnit.ext b)
        unfold TileIt.new
        cases TileIt.product p z.zTilen 1 with
        | err e => rfl
        | panic => rfl
        | ok n =>
          rw [Res.bind_ok, Res.bind_ok]
          cases umul p n 4 with
          | err e => rfl
          | panic => rfl
          | ok size =>
            rw [Res.bind_ok, Res.bind_ok]
            by_cases hs : 2 ^ 63 ≤ size
            · rw [if_pos hs, if_pos hs]; rfl
            · rw [if_neg hs, if_neg hs]
              cases z.zBitpix with
              | u8 => rfl
              | i16 => rfl
              | i32 => rfl
              | i64 => rfl
              | f32 => cases FloatKw.new x.header z <;> rfl
              | f64 => cases FloatKw.new x.header z <;> rfl

end Fitsrs

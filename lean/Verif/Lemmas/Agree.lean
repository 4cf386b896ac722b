import Verif.Model.ImageDecoder
import Verif.Model.Async
import Verif.Model.Session
/-
Builds with and without overflow checks: the results are the same, or the build with checks panics.
-/

namespace Fitsrs

/-- The first outcome is a panic, or the two are the same. -/
def Res.Le {α : Type} (d r : Res α) : Prop := d = .panic ∨ d = r

/-- The same with a state. -/
def PLe {α σ : Type} (d r : Res α × σ) : Prop := d.1 = .panic ∨ d = r

/-- The same for an iterator. -/
def NLe {α σ : Type} (d r : Option (Res α) × σ) : Prop := d.1 = some .panic ∨ d = r

/-- The same with fuel. -/
def OLe {α σ : Type} (d r : Option (Res α × σ)) : Prop := (∃ s, d = some (.panic, s)) ∨ d = r

/-- The same with fuel, without state. -/
def FLe {α : Type} (d r : Option (Res α)) : Prop := d = some .panic ∨ d = r

theorem Res.Le.rfl' {α : Type} (d : Res α) : d.Le d := .inr rfl
theorem PLe.rfl' {α σ : Type} (d : Res α × σ) : PLe d d := .inr rfl
theorem NLe.rfl' {α σ : Type} (d : Option (Res α) × σ) : NLe d d := .inr rfl
theorem OLe.rfl' {α σ : Type} (d : Option (Res α × σ)) : OLe d d := .inr rfl
theorem FLe.rfl' {α : Type} (d : Option (Res α)) : FLe d d := .inr rfl

theorem Res.Le.bind {α β : Type} {d r : Res α} {f g : α → Res β} (h : d.Le r) (hf : ∀ a, (f a).Le (g a)) :
    (d >>= f).Le (r >>= g) := by
  rcases h with rfl | rfl
  · exact .inl rfl
  · cases d with
    | ok a => exact hf a
    | err e => exact .inr rfl
    | panic => exact .inl rfl

theorem Res.Le.map {α β : Type} {d r : Res α} {f : α → β} (h : d.Le r) : (d.map f).Le (r.map f) := by
  rcases h with rfl | rfl
  · exact .inl rfl
  · exact .inr rfl

/-! ### Arithmetic -/

theorem usub_le (a b : Nat) : (usub .checked a b).Le (usub .wrapping a b) := by
  unfold usub; split
  · exact .inr rfl
  · exact .inl rfl

theorem uadd_le (a b : Nat) : (uadd .checked a b).Le (uadd .wrapping a b) := by
  unfold uadd; split
  · exact .inr rfl
  · exact .inl rfl

theorem umul_le (a b : Nat) : (umul .checked a b).Le (umul .wrapping a b) := by
  unfold umul; split
  · exact .inr rfl
  · exact .inl rfl

theorem i64op_le (x : Int) : (i64op .checked x).Le (i64op .wrapping x) := by
  unfold i64op; split
  · exact .inr rfl
  · exact .inl rfl

theorem i32op_le (x : Int) : (i32op .checked x).Le (i32op .wrapping x) := by
  unfold i32op; split
  · exact .inr rfl
  · exact .inl rfl

theorem shamt_le (w : Nat) (n : Int) : (shamt .checked w n).Le (shamt .wrapping w n) := by
  unfold shamt; split
  · exact .inr rfl
  · exact .inl rfl

/-! ### Headers -/

theorem uprod_le (l : List Nat) (a : Nat) : (uprod .checked l a).Le (uprod .wrapping l a) := by
  induction l generalizing a with
  | nil => exact .inr rfl
  | cons n l ih => exact (umul_le a n).bind ih

theorem Image.numBytes_le (x : Image) : (x.numBytes .checked).Le (x.numBytes .wrapping) := by
  refine Res.Le.bind ?_ fun n => umul_le _ n
  unfold Image.numPixels
  split
  · exact .inr rfl
  · exact uprod_le _ _

theorem BinTable.numBytes_le (x : BinTable) : (x.numBytes .checked).Le (x.numBytes .wrapping) :=
  (umul_le _ _).bind fun _ => uadd_le _ _

theorem HDU.dataSize_le (h : HDU) : (h.dataSize .checked).Le (h.dataSize .wrapping) := by
  cases h with
  | primary h => exact h.header.xtension.numBytes_le
  | image h => exact h.header.xtension.numBytes_le
  | binTable h => exact h.header.xtension.numBytes_le
  | asciiTable h => exact umul_le _ _

theorem AHdu.dataSize_le (h : AHdu) : (h.dataSize .checked).Le (h.dataSize .wrapping) := by
  cases h with
  | primary h => exact h.xtension.numBytes_le
  | image h => exact h.xtension.numBytes_le
  | binTable h => exact h.xtension.numBytes_le
  | asciiTable h => exact umul_le _ _

theorem TForm.numBits_le (t : TForm) : (t.numBits .checked).Le (t.numBits .wrapping) := by
  cases t with
  | plain t r => exact umul_le _ _
  | P t => exact .inr rfl
  | Q t => exact .inr rfl

theorem rowBits_le (l : List TForm) (a : Nat) : (rowBits .checked l a).Le (rowBits .wrapping l a) := by
  induction l generalizing a with
  | nil => exact .inr rfl
  | cons n l ih => exact n.numBits_le.bind fun b => (uadd_le a b).bind ih

theorem getTheap_le (m : ValueMap) (a b : Nat) : (getTheap .checked m a b).Le (getTheap .wrapping m a b) := by
  unfold getTheap
  split
  · exact .inr rfl
  · exact umul_le _ _

theorem BinTable.parse_le (m : ValueMap) : (BinTable.parse .checked m).Le (BinTable.parse .wrapping m) := by
  unfold BinTable.parse
  refine (Res.Le.rfl' _).bind fun bitpix => ?_
  split
  · exact .inr rfl
  refine (Res.Le.rfl' _).bind fun naxis => ?_
  split
  · exact .inr rfl
  refine (Res.Le.rfl' _).bind fun _ => (Res.Le.rfl' _).bind fun _ => (Res.Le.rfl' _).bind fun _ =>
    (Res.Le.rfl' _).bind fun _ => ?_
  split
  · exact .inr rfl
  exact (Res.Le.rfl' _).bind fun _ => (Res.Le.rfl' _).bind fun _ => (getTheap_le _ _ _).bind fun _ =>
    (rowBits_le _ _).bind fun _ => .inr rfl

theorem Header.parse_le {X : Type} {f g : ValueMap → Res X} (h : ∀ m, (f m).Le (g m)) (cards : List Card) :
    (Header.parse f cards).Le (Header.parse g cards) :=
  (Res.Le.rfl' _).bind fun m => (h m).bind fun _ => .inr rfl

/-! ### The HDU iterator -/

theorem Hdu.new_le {X : Type} {f g : ValueMap → Res X} (h : ∀ m, (f m).Le (g m)) (cards : List Card) (s : HState) :
    PLe (Hdu.new f cards s) (Hdu.new g cards s) := by
  unfold Hdu.new
  rcases Header.parse_le h cards with e | e
  · rw [e]; exact .inl rfl
  · rw [e]; exact .inr rfl

theorem wrap_le {X : Type} {c : Hdu X → HDU} {d r : Res (Hdu X) × HState} (h : PLe d r) : PLe (wrap c d) (wrap c r) := by
  rcases h with h | h
  · left; unfold wrap; rw [h]; rfl
  · right; rw [h]

theorem xtensionOf_le (cards : List Card) (s : HState) :
    PLe (xtensionOf .checked cards s) (xtensionOf .wrapping cards s) := by
  unfold xtensionOf
  split
  · exact .inr rfl
  · exact wrap_le (Hdu.new_le BinTable.parse_le _ _)
  · exact .inr rfl
  · exact .inr rfl
  · exact .inr rfl

theorem newXtension_le (s : HState) : PLe (HDU.newXtension .checked s) (HDU.newXtension .wrapping s) := by
  unfold HDU.newXtension
  split
  · exact xtensionOf_le _ _
  · exact .inr rfl
  · exact .inr rfl

theorem skipBytes_le (f : Fits) : (f.skipBytes .checked).Le (f.skipBytes .wrapping) := by
  unfold Fits.skipBytes
  refine (usub_le _ _).bind fun _ => (usub_le _ _).bind fun _ => ?_
  split
  · exact .inr rfl
  · exact uadd_le _ _

theorem consumeUntilNextHdu_le (f : Fits) : PLe (f.consumeUntilNextHdu .checked) (f.consumeUntilNextHdu .wrapping) := by
  unfold Fits.consumeUntilNextHdu
  rcases skipBytes_le f with e | e
  · rw [e]; exact .inl rfl
  · rw [e]; exact .inr rfl

theorem record_le (n : Option (Res HDU)) (f : Fits) : NLe (Fits.record .checked n f) (Fits.record .wrapping n f) := by
  unfold Fits.record
  cases n with
  | none => exact .inr rfl
  | some r =>
    cases r with
    | ok h =>
      dsimp only
      rcases h.dataSize_le with e | e
      · rw [e]; exact .inl rfl
      · rw [e]; exact .inr rfl
    | err e => exact .inr rfl
    | panic => exact .inr rfl

theorem Fits.next_le (f : Fits) : NLe (f.next .checked) (f.next .wrapping) := by
  unfold Fits.next
  split
  · exact .inr rfl
  split
  · exact record_le _ _
  rcases consumeUntilNextHdu_le f with e | e
  · left
    split
    · rename_i h; rw [h] at e; cases e
    · rename_i h; rw [h] at e; cases e
    · rfl
  rw [e]
  cases hc : f.consumeUntilNextHdu .wrapping with
  | mk r rd =>
    cases r with
    | panic => exact record_le _ _
    | err e => exact record_le _ _
    | ok u =>
      dsimp only
      rcases newXtension_le ⟨rd, 0⟩ with e | e
      · left
        cases hn : HDU.newXtension .checked ⟨rd, 0⟩ with
        | mk r s =>
          rw [hn] at e
          dsimp only at e ⊢
          subst e
          rfl
      · rw [e]
        exact record_le _ _

/-- Successive calls: the same results, or a panic. -/
theorem Fits.collect_le (n : Nat) (f : Fits) :
    .panic ∈ Fits.collect .checked n f ∨ Fits.collect .checked n f = Fits.collect .wrapping n f := by
  induction n generalizing f with
  | zero => exact .inr rfl
  | succ n ih =>
    unfold Fits.collect
    rcases f.next_le with e | e
    · left
      cases hn : f.next .checked with
      | mk r s =>
        rw [hn] at e
        dsimp only at e
        subst e
        simp
    · rw [e]
      cases hn : f.next .wrapping with
      | mk r s =>
        cases r with
        | none => exact .inr rfl
        | some r =>
          cases r with
          | panic => exact .inr rfl
          | err e =>
            rcases ih s with h | h
            · exact .inl (List.mem_cons_of_mem _ h)
            · exact .inr (by dsimp only; rw [h])
          | ok e =>
            rcases ih s with h | h
            · exact .inl (List.mem_cons_of_mem _ h)
            · exact .inr (by dsimp only; rw [h])

/-! ### Images -/

theorem slice_le (data : List UInt8) (s n : Nat) : (slice .checked data s n).Le (slice .wrapping data s n) :=
  (uadd_le _ _).bind fun _ => .inr rfl

theorem getImage_le (f : Fits) (h : Hdu Image) : (f.getImage .checked h).Le (f.getImage .wrapping h) :=
  (Image.numBytes_le _).bind fun _ => .inr rfl

/-! ### Tables -/

namespace TableData

theorem columnOffsets_le (l : List TForm) (a : Nat) : (columnOffsets .checked l a).Le (columnOffsets .wrapping l a) := by
  induction l generalizing a with
  | nil => exact .inr rfl
  | cons t l ih => exact t.numBits_le.map.bind fun n => (uadd_le _ _).bind fun b => (ih b).bind fun _ => .inr rfl

theorem new_le (rd : Reader) (x : BinTable) (s : Nat) : (new .checked rd x s).Le (new .wrapping rd x s) :=
  (columnOffsets_le _ _).bind fun _ => (umul_le _ _).bind fun _ => .inr rfl

theorem rawBytes_le (t : TableData) : (t.rawBytes .checked).Le (t.rawBytes .wrapping) :=
  (BinTable.numBytes_le _).bind fun _ => slice_le _ _ _

theorem nextOffset_le (t : TableData) (c : Nat) : (t.nextOffset .checked c).Le (t.nextOffset .wrapping c) := by
  unfold nextOffset
  split
  · exact .inr rfl
  split
  · exact .inr rfl
  split
  · exact .inr rfl
  refine (i64op_le _).bind fun _ => ?_
  split
  · exact i64op_le _
  · exact .inr rfl

theorem advance_le (off : Int) (t : TableData) : PLe (t.advance .checked off) (t.advance .wrapping off) := by
  unfold advance
  split
  · rcases uadd_le t.byteOffset (asU64 off) with e | e
    · rw [e]; exact .inl rfl
    · rw [e]; exact .inr rfl
  · exact .inr rfl
  · exact .inr rfl

theorem seekNext_le (a b : Bool) (t : TableData) : PLe (t.seekNext .checked a b) (t.seekNext .wrapping a b) := by
  unfold seekNext
  generalize (if a = true then { t with row := t.row + 1 } else t) = t
  dsimp only
  split
  · rcases i64op_le (asI64 t.mainSize - asI64 t.byteOffset) with e | e
    · rw [e]; exact .inl rfl
    · rw [e]
      cases i64op .wrapping (asI64 t.mainSize - asI64 t.byteOffset) with
      | ok off => exact advance_le _ _
      | err e => exact .inr rfl
      | panic => exact .inr rfl
  · generalize ({ t with col := (t.col + 1) % t.cols.length, item := 0 } : TableData) = t'
    generalize (t.col + 1) % t.cols.length = c
    rcases nextOffset_le t' c with e | e
    · rw [e]; exact .inl rfl
    · rw [e]
      cases nextOffset .wrapping t' c with
      | ok off => exact advance_le _ _
      | err e => exact .inr rfl
      | panic => exact .inr rfl

theorem seekToNextCol_le (t : TableData) : PLe (t.seekToNextCol .checked) (t.seekToNextCol .wrapping) := by
  unfold seekToNextCol
  rcases usub_le t.cols.length 1 with e | e
  · rw [e]; exact .inl rfl
  rcases usub_le t.ctx.naxis2 1 with e' | e'
  · rw [e']
    left
    split
    · rename_i h; cases h
    · rfl
  rw [e, e']
  split
  · exact seekNext_le _ _ _
  · exact .inr rfl

theorem seekToRow_le (i : Nat) (t : TableData) : PLe (t.seekToRow .checked i) (t.seekToRow .wrapping i) := by
  unfold seekToRow
  split
  · exact .inr rfl
  dsimp only
  split
  · exact .inr rfl
  · rename_i o _
    rcases (i64op_le (asI64 i * asI64 t.ctx.naxis1)).bind fun a => i64op_le (a + asI64 o) with e | e
    · rw [e]; exact .inl rfl
    rw [e]
    generalize (i64op .wrapping (asI64 i * asI64 t.ctx.naxis1) >>= fun a => i64op .wrapping (a + asI64 o)) = x
    cases x with
    | err e => exact .inr rfl
    | panic => exact .inr rfl
    | ok new =>
      dsimp only
      rcases (i64op_le (- asI64 t.byteOffset)).bind fun a => i64op_le (a + new) with e | e
      · rw [e]; exact .inl rfl
      · rw [e]; exact .inr rfl

theorem heapOffset_le (a b c : Nat) : (heapOffset .checked a b c).Le (heapOffset .wrapping a b c) :=
  (i64op_le _).bind fun _ => (i64op_le _).bind fun _ => i64op_le _

theorem jumpToHeap_le (ty : ElemTy) (o n s : Nat) (t : TableData) :
    PLe (t.jumpToHeap .checked ty o n s) (t.jumpToHeap .wrapping ty o n s) := by
  unfold jumpToHeap
  split
  · exact .inr rfl
  rcases heapOffset_le t.byteOffset t.ctx.theap o with e | e
  · rw [e]; exact .inl rfl
  rw [e]
  cases heapOffset .wrapping t.byteOffset t.ctx.theap o with
  | err e => exact .inr rfl
  | panic => exact .inr rfl
  | ok off =>
    dsimp only
    split
    · rcases umul_le n s with e | e
      · rw [e]; exact .inl rfl
      · rw [e]; exact .inr rfl
    · exact .inr rfl
    · exact .inr rfl

theorem finish_le (v : DataValue) {d r : Res Unit × TableData} (h : PLe d r) : PLe (finish v d) (finish v r) := by
  rcases h with h | h
  · left
    obtain ⟨a, b⟩ := d
    dsimp only at h
    subst h
    rfl
  · right; rw [h]

theorem nextInHeap_le (c : Nat) (h : HeapState) (t : TableData) :
    PLe (t.nextInHeap .checked c h) (t.nextInHeap .wrapping c h) := by
  unfold nextInHeap
  rcases usub_le h.num (h.left / h.size) with e | e
  · rw [e]; exact .inl rfl
  rw [e]
  cases usub .wrapping h.num (h.left / h.size) with
  | err e => exact .inr rfl
  | panic => exact .inr rfl
  | ok i =>
    dsimp only
    split
    · rcases usub_le h.left h.ty.bytes with e | e
      · rw [e]; exact .inl rfl
      rw [e]
      cases usub .wrapping h.left h.ty.bytes with
      | err e => exact .inr rfl
      | panic => exact .inr rfl
      | ok l =>
        dsimp only
        split
        · exact finish_le _ (seekToNextCol_le _)
        · exact .inr rfl
    · exact .inr rfl

theorem nextPlain_le (c : Nat) (ty : ElemTy) (n : Nat) (t : TableData) :
    PLe (t.nextPlain .checked c ty n) (t.nextPlain .wrapping c ty n) := by
  unfold nextPlain
  split
  · dsimp only
    split
    · exact finish_le _ (seekToNextCol_le _)
    · exact .inr rfl
  · exact .inr rfl

theorem nextArray_le (c : Nat) (ty : ElemTy) (k : Nat) (mk : Nat → Nat → DataValue) (t : TableData) :
    PLe (t.nextArray .checked c ty k mk) (t.nextArray .wrapping c ty k mk) := by
  unfold nextArray
  split
  · rename_i bs rd _
    dsimp only
    split
    · generalize ({ t with rd, byteOffset := t.byteOffset + (k + k) } : TableData) = t'
      rcases jumpToHeap_le ty (beNat (bs.drop k)) (beNat (bs.take k)) ty.bytes t' with e | e
      · left
        cases hj : t'.jumpToHeap .checked ty (beNat (bs.drop k)) (beNat (bs.take k)) ty.bytes with
        | mk a b => rw [hj] at e; dsimp only at e; subst e; rfl
      rw [e]
      cases t'.jumpToHeap .wrapping ty (beNat (bs.drop k)) (beNat (bs.take k)) ty.bytes with
      | mk a b =>
        cases a with
        | err e => exact .inr rfl
        | panic => exact .inr rfl
        | ok u =>
          dsimp only
          split
          · exact nextInHeap_le _ _ _
          · exact .inr rfl
    · exact finish_le _ (seekToNextCol_le _)
  · exact .inr rfl

theorem nextAt_le (c : Nat) (t : TableData) : PLe (t.nextAt .checked c) (t.nextAt .wrapping c) := by
  unfold nextAt
  split
  · exact nextInHeap_le _ _ _
  split
  · exact .inr rfl
  split
  · exact .inr rfl
  · exact nextPlain_le _ _ _ _
  · exact nextArray_le _ _ _ _ _
  · exact nextArray_le _ _ _ _ _

theorem toFirstCol_le (c : Nat) (t : TableData) : NLe (t.toFirstCol .checked c) (t.toFirstCol .wrapping c) := by
  unfold toFirstCol
  split
  · dsimp only
    generalize ({ t with seekFirst := false } : TableData) = t'
    split
    · exact .inr rfl
    · rename_i o _
      rcases advance_le (asI64 o) t' with e | e
      · left
        cases hj : t'.advance .checked (asI64 o) with
        | mk a b => rw [hj] at e; dsimp only at e; subst e; rfl
      · right; rw [e]
  · exact .inr rfl

theorem next_le (t : TableData) : PLe (t.next .checked) (t.next .wrapping) := by
  unfold next
  split
  · exact .inr rfl
  · rename_i c _
    rcases toFirstCol_le c t with e | e
    · left
      cases hj : t.toFirstCol .checked c with
      | mk a b => rw [hj] at e; dsimp only at e; subst e; rfl
    rw [e]
    split
    · exact .inr rfl
    · exact nextAt_le _ _

end TableData

theorem getTable_le (f : Fits) (h : Hdu BinTable) : (f.getTable .checked h).Le (f.getTable .wrapping h) :=
  (TableData.new_le _ _ _).bind fun _ => .inr rfl

namespace TableRows

theorem collect_le (fuel row : Nat) (t : TableData) (acc : List DataValue) :
    OLe (collect .checked fuel row t acc) (collect .wrapping fuel row t acc) := by
  induction fuel generalizing t acc with
  | zero => exact .inr rfl
  | succ n ih =>
    unfold collect
    split
    · rcases t.next_le with e | e
      · left
        cases hj : t.next .checked with
        | mk a b => rw [hj] at e; dsimp only at e; subst e; exact ⟨b, rfl⟩
      rw [e]
      split
      · exact ih _ _
      · exact .inr rfl
      · exact .inr rfl
      · exact .inr rfl
    · exact .inr rfl

theorem next_le (fuel : Nat) (r : TableRows) : OLe (r.next .checked fuel) (r.next .wrapping fuel) := by
  unfold next
  rcases collect_le fuel r.row r.data [] with ⟨s, e⟩ | e
  · left; rw [e]; exact ⟨_, rfl⟩
  · right; rw [e]

end TableRows

/-! ### RICE -/

namespace Rice

theorem fsValue_le (s : Bits) : (fsValue .checked s).Le (fsValue .wrapping s) :=
  (Res.Le.rfl' _).bind fun _ => (shamt_le _ _).bind fun _ => (i32op_le _).bind fun _ => .inr rfl

theorem highFill_le (inp : List UInt8) (b d : Nat) (k : Int) :
    (highFill .checked inp b d k).Le (highFill .wrapping inp b d k) := by
  induction inp generalizing b d k with
  | nil =>
    unfold highFill
    exact .inr rfl
  | cons x inp ih =>
    unfold highFill
    split
    · rcases shamt_le 32 k with e | e
      · dsimp only; rw [e]; exact .inl rfl
      · dsimp only; rw [e]
        cases shamt .wrapping 32 k with
        | ok n => exact ih _ _ _
        | err e => exact .inr rfl
        | panic => exact .inr rfl
    · exact .inr rfl

theorem highEnd_le (n : Int) (d : Nat) (k : Int) (inp : List UInt8) :
    (highEnd .checked n d k inp).Le (highEnd .wrapping n d k inp) := by
  unfold highEnd
  split
  · split
    · exact .inr rfl
    · exact (shamt_le _ _).bind fun _ => (shamt_le _ _).bind fun _ => .inr rfl
  · exact .inr rfl

theorem highDiff_le (s : Bits) : (highDiff .checked s).Le (highDiff .wrapping s) :=
  (shamt_le _ _).bind fun _ => (highFill_le _ _ _ _).bind fun _ => highEnd_le _ _ _ _

theorem skipZeros_le (inp : List UInt8) (b : Nat) (n : Int) :
    (skipZeros .checked inp b n).Le (skipZeros .wrapping inp b n) := by
  induction inp generalizing b n with
  | nil =>
    unfold skipZeros
    split
    · rcases i32op_le (n + 8) with e | e
      · rw [e]; exact .inl rfl
      · rw [e]; exact .inr rfl
    · exact .inr rfl
  | cons x inp ih =>
    unfold skipZeros
    split
    · rcases i32op_le (n + 8) with e | e
      · rw [e]; exact .inl rfl
      · rw [e]
        cases i32op .wrapping (n + 8) with
        | ok n => exact ih _ _
        | err e => exact .inr rfl
        | panic => exact .inr rfl
    · exact .inr rfl

theorem riceEnd_le (fs : Int) (s : Bits) : (riceEnd .checked fs s).Le (riceEnd .wrapping fs s) := by
  unfold riceEnd
  split
  · exact .inr rfl
  · exact (i32op_le _).bind fun _ => (i32op_le _).bind fun _ => (i32op_le _).bind fun _ => (shamt_le _ _).bind fun _ =>
      (Res.Le.rfl' _).bind fun _ => (shamt_le _ _).bind fun _ => (shamt_le _ _).bind fun _ => .inr rfl

theorem riceDiff_le (fs : Int) (s : Bits) : (riceDiff .checked fs s).Le (riceDiff .wrapping fs s) :=
  (skipZeros_le _ _ _).bind fun _ => riceEnd_le _ _

theorem pixels_le {f g : Bits → Res (Nat × Bits)} (h : ∀ s, (f s).Le (g s)) (n : Nat) (l : Int) (s : Bits) :
    (pixels .checked f n l s).Le (pixels .wrapping g n l s) := by
  induction n generalizing l s with
  | zero => exact .inr rfl
  | succ n ih => exact (h s).bind fun _ => (i32op_le _).bind fun _ => (ih _ _).bind fun _ => .inr rfl

theorem step_le (q : Params) (room : Nat) (st : State) : (step .checked q room st).Le (step .wrapping q room st) := by
  unfold step
  cases st with
  | start inp => exact .inr rfl
  | fs s i l => exact (fsValue_le _).bind fun _ => (i32op_le _).bind fun _ => .inr rfl
  | low s i m l => exact .inr rfl
  | high s i m l => exact (pixels_le highDiff_le _ _ _).bind fun _ => .inr rfl
  | rice s f i m l => exact (pixels_le (riceDiff_le f) _ _ _).bind fun _ => .inr rfl

theorem FLe.mapRes {α β : Type} {d r : Option (Res α)} {f : α → β} (h : FLe d r) :
    FLe (d.map (·.map f)) (r.map (·.map f)) := by
  rcases h with rfl | rfl
  · exact .inl rfl
  · exact .inr rfl

theorem read_le (q : Params) (fuel room : Nat) (st : State) :
    FLe (read .checked q fuel room st) (read .wrapping q fuel room st) := by
  induction fuel generalizing room st with
  | zero => exact .inr rfl
  | succ n ih =>
    unfold read
    rcases step_le q room st with e | e
    · rw [e]; exact .inl rfl
    rw [e]
    split
    · split
      · exact .inr rfl
      · exact FLe.mapRes (ih _ _)
    · exact .inr rfl
    · exact .inr rfl

theorem reads_le (q : Params) (fuel : Nat) (rooms : List Nat) (st : State) :
    FLe (reads .checked q fuel rooms st) (reads .wrapping q fuel rooms st) := by
  induction rooms generalizing st with
  | nil => exact .inr rfl
  | cons room rooms ih =>
    unfold reads
    rcases read_le q fuel room st with e | e
    · rw [e]; exact .inl rfl
    rw [e]
    split
    · exact FLe.mapRes (ih _)
    · exact .inr rfl
    · exact .inr rfl
    · exact .inr rfl

theorem tile_le (fuel nblock n : Nat) (bytes : List UInt8) :
    FLe (tile .checked fuel nblock n bytes) (tile .wrapping fuel nblock n bytes) := by
  unfold tile
  split
  · exact .inr rfl
  · exact FLe.mapRes (read_le _ _ _ _)

end Rice

/-! ### Tile-compressed images -/

namespace FloatKw

theorem firstIndex_le (d : Int) (row : Nat) : (firstIndex .checked d row).Le (firstIndex .wrapping d row) :=
  (usub_le _ _).bind fun _ => (uadd_le _ _).bind fun _ => .inr rfl

theorem startQuantiz_le (row : Nat) (k : FloatKw) : (k.startQuantiz .checked row).Le (k.startQuantiz .wrapping row) := by
  unfold startQuantiz
  split
  · exact .inr rfl
  · exact (firstIndex_le _ _).map
  · exact (firstIndex_le _ _).map

theorem startTile_le (row : Nat) (vs : List DataValue) (k : FloatKw) :
    (k.startTile .checked row vs).Le (k.startTile .wrapping row vs) :=
  (startQuantiz_le _ _).bind fun _ => (Res.Le.rfl' _).bind fun _ => (Res.Le.rfl' _).bind fun _ => .inr rfl

end FloatKw

namespace TileIt

theorem product_le (l : List Nat) (a : Nat) : (product .checked l a).Le (product .wrapping l a) := by
  induction l generalizing a with
  | nil => exact .inr rfl
  | cons n l ih => exact (umul_le a n).bind ih

theorem new_le (t : TableData) (h : Header BinTable) (z : TileCompressedImage) :
    (new .checked t h z).Le (new .wrapping t h z) :=
  (product_le _ _).bind fun _ => (umul_le _ _).bind fun _ => .inr rfl

theorem decompress_le (gz : Gunzip) (fuel : Nat) (c : ZCmpType) (n size : Nat) (bytes : List UInt8) :
    FLe (decompress .checked gz fuel c n size bytes) (decompress .wrapping gz fuel c n size bytes) := by
  unfold decompress
  cases c with
  | rice b => exact Rice.FLe.mapRes (Rice.tile_le _ _ _ _)
  | _ => exact .inr rfl

theorem tileOffset_le (a b c d : Nat) : (tileOffset .checked a b c d).Le (tileOffset .wrapping a b c d) :=
  (umul_le _ _).bind fun _ => TableData.heapOffset_le _ _ _

theorem fill_le (gz : Gunzip) (fuel : Nat) (off : Int) (it : TileIt) :
    OLe (it.fill .checked gz fuel off) (it.fill .wrapping gz fuel off) := by
  unfold fill
  dsimp only
  split
  · rename_i rd _
    rcases decompress_le gz fuel it.cmp it.nPixels it.buf.length (rd.data.drop rd.pos) with e | e
    · rw [e]; exact .inl ⟨_, rfl⟩
    · rw [e]; exact .inr rfl
  · exact .inr rfl
  · exact .inr rfl

theorem tileKw_le (row : Nat) (vs : List DataValue) (k : Option FloatKw) :
    (tileKw .checked row vs k).Le (tileKw .wrapping row vs k) := by
  cases k with
  | none => exact .inr rfl
  | some k => exact (k.startTile_le row vs).map

theorem openTile_le (gz : Gunzip) (fuel : Nat) (vs : List DataValue) (it : TileIt) :
    OLe (it.openTile .checked gz fuel vs) (it.openTile .wrapping gz fuel vs) := by
  unfold openTile
  cases arrayOffset vs it.dataIdx with
  | err e => exact .inr rfl
  | panic => exact .inr rfl
  | ok offset =>
    rcases product_le it.zTile 1 with e | e
    · rw [e]; exact .inl ⟨_, rfl⟩
    rw [e]
    cases product .wrapping it.zTile 1 with
    | err e => exact .inr rfl
    | panic => exact .inr rfl
    | ok n =>
      dsimp only
      rcases tileKw_le it.rows.row vs it.kw with e | e
      · rw [e]; exact .inl ⟨_, rfl⟩
      rw [e]
      cases tileKw .wrapping it.rows.row vs it.kw with
      | err e => exact .inr rfl
      | panic => exact .inr rfl
      | ok kw =>
        dsimp only
        rcases tileOffset_le it.rows.row it.rows.data.ctx.naxis1 it.rows.data.ctx.theap offset with e | e
        · rw [e]; exact .inl ⟨_, rfl⟩
        rw [e]
        cases tileOffset .wrapping it.rows.row it.rows.data.ctx.naxis1 it.rows.data.ctx.theap offset with
        | err e => exact .inr rfl
        | panic => exact .inr rfl
        | ok off => exact fill_le _ _ _ _

theorem load_le (gz : Gunzip) (fuel : Nat) (it : TileIt) :
    OLe (it.load .checked gz fuel) (it.load .wrapping gz fuel) := by
  unfold load
  rcases it.rows.next_le fuel with ⟨s, e⟩ | e
  · rw [e]; exact .inl ⟨_, rfl⟩
  rw [e]
  split
  · exact .inr rfl
  · exact openTile_le _ _ _ _
  · exact .inr rfl
  · exact .inr rfl
  · exact .inr rfl

theorem pixel_le (it : TileIt) : PLe (it.pixel .checked) (it.pixel .wrapping) := by
  unfold pixel
  have h : (usub .checked it.nPixels it.remaining >>= fun i => rawValue it.ty it.cmp it.buf i >>= toPixel it.kw).Le
      (usub .wrapping it.nPixels it.remaining >>= fun i => rawValue it.ty it.cmp it.buf i >>= toPixel it.kw) :=
    (usub_le _ _).bind fun _ => .inr rfl
  rcases h with e | e
  · rw [e]; exact .inl rfl
  rw [e]
  split
  · rcases usub_le it.remaining 1 with e | e
    · rw [e]; exact .inl rfl
    · rw [e]; exact .inr rfl
  · exact .inr rfl

theorem next_le (gz : Gunzip) (fuel : Nat) (it : TileIt) :
    OLe (it.next .checked gz fuel) (it.next .wrapping gz fuel) := by
  have hp : ∀ it : TileIt, OLe (some (it.pixel .checked)) (some (it.pixel .wrapping)) := by
    intro it
    rcases it.pixel_le with e | e
    · left
      cases h : it.pixel .checked with
      | mk a b => rw [h] at e; dsimp only at e; subst e; exact ⟨b, rfl⟩
    · right; rw [e]
  unfold next
  split
  · rcases it.load_le gz fuel with ⟨s, e⟩ | e
    · rw [e]; exact .inl ⟨_, rfl⟩
    rw [e]
    split
    · exact .inr rfl
    · exact hp _
    · exact .inr rfl
    · exact .inr rfl
    · exact .inr rfl
  · exact hp _

end TileIt

theorem getTiles_le (f : Fits) (h : Hdu BinTable) (z : TileCompressedImage) :
    (f.getTiles .checked h z).Le (f.getTiles .wrapping h z) :=
  (TableData.new_le _ _ _).bind fun _ => TileIt.new_le _ _ _

/-! ### Programs -/

theorem readOffset_le (i : Nat) (it : It) : (it.readOffset .checked i).Le (it.readOffset .wrapping i) :=
  (i64op_le _).bind fun _ => i64op_le _

theorem readValue_le (i : Nat) (it : It) : PLe (it.readValue .checked i) (it.readValue .wrapping i) := by
  unfold It.readValue
  split
  · exact .inr rfl
  rcases readOffset_le i it with e | e
  · rw [e]; exact .inl rfl
  · rw [e]; exact .inr rfl

theorem openAscii_le (f : Fits) (h : Hdu AsciiTable) : (f.openAscii .checked h).Le (f.openAscii .wrapping h) :=
  (umul_le _ _).bind fun _ => .inr rfl

theorem getData_le (f : Fits) (h : HDU) : (f.getData .checked h).Le (f.getData .wrapping h) := by
  cases h with
  | primary h => exact (getImage_le f h).map
  | image h => exact (getImage_le f h).map
  | asciiTable h => exact (openAscii_le f h).map
  | binTable h =>
    unfold Fits.getData
    dsimp only
    split
    · exact (getTiles_le _ _ _).map
    · exact (getTable_le _ _).map

namespace Session

theorem nextHdu_le (s : Session) : PLe (s.nextHdu .checked) (s.nextHdu .wrapping) := by
  unfold nextHdu
  rcases s.fits.next_le with e | e
  · left
    cases h : s.fits.next .checked with
    | mk a b => rw [h] at e; dsimp only at e; subst e; rfl
  · right; rw [e]

theorem openData_le (k : Nat) (s : Session) : PLe (s.openData .checked k) (s.openData .wrapping k) := by
  unfold openData
  split
  · exact .inr rfl
  · rename_i h _
    rcases getData_le s.fits h with e | e
    · rw [e]; exact .inl rfl
    · rw [e]; exact .inr rfl

theorem PLe.some {α σ : Type} {d r : Res α × σ} (h : PLe d r) : OLe (some d) (some r) := by
  rcases h with h | h
  · left
    obtain ⟨a, b⟩ := d
    dsimp only at h
    subst h
    exact ⟨b, rfl⟩
  · right; rw [h]

theorem OLe.mapBoth {α β σ τ : Type} {d r : Option (Res α × σ)} {f : α → β} {g : σ → τ} (h : OLe d r) :
    OLe (d.map fun x => (x.1.map f, g x.2)) (r.map fun x => (x.1.map f, g x.2)) := by
  rcases h with ⟨s, h⟩ | h
  · left; rw [h]; exact ⟨_, rfl⟩
  · right; rw [h]

theorem OLe.mapState {α σ τ : Type} {d r : Option (Res α × σ)} {g : σ → τ} (h : OLe d r) :
    OLe (d.map fun x => (x.1, g x.2)) (r.map fun x => (x.1, g x.2)) := by
  rcases h with ⟨s, h⟩ | h
  · left; rw [h]; exact ⟨_, rfl⟩
  · right; rw [h]

theorem PLe.map {α β σ τ : Type} {d r : Res α × σ} {f : α → β} {g : σ → τ} (h : PLe d r) :
    PLe (d.1.map f, g d.2) (r.1.map f, g r.2) := by
  rcases h with h | h
  · left; rw [h]; rfl
  · right; rw [h]

theorem nextItem_le (gz : Gunzip) (fuel : Nat) (o : OpenUnit) :
    OLe (nextItem .checked gz fuel o) (nextItem .wrapping gz fuel o) := by
  cases o with
  | image d => exact .inr rfl
  | bytes b => exact .inr rfl
  | table t => exact PLe.some (PLe.map t.next_le)
  | rows r => exact OLe.mapBoth (r.next_le fuel)
  | tiles it => exact OLe.mapBoth (it.next_le gz fuel)

theorem rawBytes_le {t u : Res (List UInt8)} (h : t.Le u) (o : Option OpenUnit) :
    PLe (t.map Seen.raw, o) (u.map Seen.raw, o) := by
  rcases h with rfl | rfl
  · exact .inl rfl
  · exact .inr rfl

theorem onOpened_le (c : Call) (o : OpenUnit) : PLe (onOpened .checked c o) (onOpened .wrapping c o) := by
  cases c <;> cases o <;> try exact .inr rfl
  · rename_i i d
    exact PLe.map (g := fun it => some (OpenUnit.image { d with pixels := it })) (readValue_le i d.pixels)
  · rename_i r t
    exact PLe.map (g := fun t => some (OpenUnit.table t)) (t.seekToRow_le r)
  · rename_i d
    exact rawBytes_le (slice_le _ _ _) _
  · rename_i t
    exact rawBytes_le t.rawBytes_le _

theorem useOpened_le (gz : Gunzip) (fuel : Nat) (c : Call) (o : OpenUnit) (s : Session) :
    OLe (s.useOpened .checked gz fuel c o) (s.useOpened .wrapping gz fuel c o) := by
  unfold useOpened
  split
  · exact OLe.mapState (nextItem_le gz fuel o)
  · rcases onOpened_le c o with e | e
    · left
      cases h : onOpened .checked c o with
      | mk a b =>
        rw [h] at e
        dsimp only at e
        subst e
        cases b with
        | none => exact ⟨_, rfl⟩
        | some o => exact ⟨_, rfl⟩
    · right; rw [e]

theorem call_le (gz : Gunzip) (fuel : Nat) (c : Call) (s : Session) :
    OLe (s.call .checked gz fuel c) (s.call .wrapping gz fuel c) := by
  unfold call
  split
  · exact PLe.some (nextHdu_le _)
  · exact PLe.some (openData_le _ _)
  · split
    · exact .inr rfl
    · exact useOpened_le _ _ _ _ _

end Session

/-! ### Asynchronous reading -/

/-- The first computation panics at some point, and up to there does the same as the second. -/
inductive FutLe {α : Type} : Fut (Res α) → Fut (Res α) → Prop
  | panic (r) : FutLe (.done .panic) r
  | refl (d) : FutLe d d
  | fill {k l i j} : (∀ b, FutLe (k b) (l b)) → (∀ x, FutLe (i x) (j x)) → FutLe (.fill k i) (.fill l j)
  | consume {n d r} : FutLe d r → FutLe (.consume n d) (.consume n r)

theorem FutLe.bindR {α β : Type} (d : Fut α) {f g : α → Fut (Res β)} (h : ∀ a, FutLe (f a) (g a)) :
    FutLe (d.bind f) (d.bind g) := by
  induction d with
  | done a => exact h a
  | fill k l ih ih' => exact .fill ih ih'
  | consume n k ih => exact .consume ih

theorem FutLe.bindL {α β : Type} {d r : Fut (Res α)} (h : FutLe d r) (e : Err → Err) (f : α → Fut (Res β)) :
    FutLe (d.andThen e f) (r.andThen e f) := by
  induction h with
  | panic r => exact .panic _
  | refl d => exact .refl _
  | fill _ _ ih ih' => exact .fill ih ih'
  | consume _ ih => exact .consume ih

theorem FutLe.poll {α : Type} {d r : Fut (Res α)} (h : FutLe d r) (rd : AReader) :
    (∃ rd', d.poll rd = (.ready .panic, rd')) ∨ (∃ a rd', d.poll rd = (.ready a, rd') ∧ r.poll rd = (.ready a, rd')) ∨
    ∃ f g rd', d.poll rd = (.pending f, rd') ∧ r.poll rd = (.pending g, rd') := by
  induction h generalizing rd with
  | panic r => exact .inl ⟨_, rfl⟩
  | refl d =>
    cases hp : d.poll rd with
    | mk a rd' =>
      cases a with
      | ready a => exact .inr (.inl ⟨a, rd', rfl, rfl⟩)
      | pending f => exact .inr (.inr ⟨f, f, rd', rfl, rfl⟩)
  | fill _ _ ih ih' =>
    unfold Fut.poll
    split
    · exact ih _ _
    · exact ih' _ _
    · exact .inr (.inr ⟨_, _, _, rfl, rfl⟩)
  | consume hk ih =>
    unfold Fut.poll
    exact ih _

theorem AHdu.new_le {X : Type} {f g : ValueMap → Res X} (h : ∀ m, (f m).Le (g m)) (cards : List Card) (n : Nat) :
    FutLe (AHdu.new f cards n) (AHdu.new g cards n) := by
  unfold AHdu.new
  rcases Header.parse_le h cards with e | e
  · rw [e]; exact .panic _
  · rw [e]; exact .refl _

theorem xtensionOfA_le (cards : List Card) (n : Nat) :
    FutLe (xtensionOfA .checked cards n) (xtensionOfA .wrapping cards n) := by
  unfold xtensionOfA
  split
  · exact .refl _
  · exact FutLe.bindL (AHdu.new_le BinTable.parse_le _ _) _ _
  · exact .refl _
  · exact .refl _
  · exact .refl _

theorem newXtensionA_le (fuel : Nat) : FutLe (AHdu.newXtension .checked fuel) (AHdu.newXtension .wrapping fuel) := by
  unfold AHdu.newXtension Fut.andThen
  refine FutLe.bindR _ fun a => ?_
  split
  · exact xtensionOfA_le _ _
  · exact .refl _
  · exact .refl _

/-- The same for a stream. -/
def SLe {α σ : Type} (d r : StreamPoll α × σ) : Prop := d.1 = .ready (some .panic) ∨ d = r

namespace AFits

theorem record_le (n : Option (Res AHdu)) (f : AFits) : SLe (AFits.record .checked n f) (AFits.record .wrapping n f) := by
  unfold AFits.record
  cases n with
  | none => exact .inr rfl
  | some r =>
    cases r with
    | ok h =>
      dsimp only
      rcases h.dataSize_le with e | e
      · rw [e]; exact .inl rfl
      · rw [e]; exact .inr rfl
    | err e => exact .inr rfl
    | panic => exact .inr rfl

theorem pollNext_le (f : AFits) : SLe (f.pollNext .checked) (f.pollNext .wrapping) := by
  unfold pollNext
  split
  · exact .inr rfl
  split
  · split
    · exact .inr rfl
    · exact record_le _ _
  split
  · exact .inr rfl
  · exact record_le _ _
  · rename_i rd _
    rcases (newXtensionA_le (rd.bytes.length + 1)).poll rd with ⟨rd', e⟩ | ⟨a, rd', e1, e2⟩ | ⟨a, b, rd', e1, e2⟩
    · rw [e]; exact .inl rfl
    · rw [e1, e2]; exact record_le _ _
    · rw [e1, e2]; exact .inr rfl
  · exact record_le _ _
  · exact record_le _ _

end AFits

theorem St.pollNext_le (s : St) : SLe (s.pollNext .checked) (s.pollNext .wrapping) := by
  unfold St.pollNext
  split
  · exact .inr rfl
  split
  · exact .inr rfl
  · rcases usub_le s.remaining s.ty.byteSize with e | e
    · rw [e]; exact .inl rfl
    · rw [e]; exact .inr rfl
  · exact .inr rfl
  · exact .inr rfl

/-! ### Decoding images -/

theorem selects_le (h : HDU) : (selects .checked h).Le (selects .wrapping h) := by
  cases h with
  | primary h => exact (Image.numBytes_le _).bind fun _ => .inr rfl
  | image h => exact (Image.numBytes_le _).bind fun _ => .inr rfl
  | asciiTable h => exact .inr rfl
  | binTable h => exact .inr rfl

theorem findImage_le (fuel : Nat) (f : Fits) : FLe (findImage .checked fuel f) (findImage .wrapping fuel f) := by
  induction fuel generalizing f with
  | zero => exact .inr rfl
  | succ n ih =>
    unfold findImage
    rcases f.next_le with e | e
    · left
      cases h : f.next .checked with
      | mk a b => rw [h] at e; dsimp only at e; subst e; rfl
    rw [e]
    split
    · exact .inr rfl
    · exact .inr rfl
    · exact .inr rfl
    · rename_i h _ _
      rcases selects_le h with e | e
      · rw [e]; exact .inl rfl
      rw [e]
      split
      · exact .inr rfl
      · exact ih _
      · exact .inr rfl
      · exact .inr rfl

theorem Decoder.new_le (fuel : Nat) (rd : Reader) : FLe (Decoder.new .checked fuel rd) (Decoder.new .wrapping fuel rd) := by
  unfold Decoder.new
  rcases findImage_le fuel (Fits.fromReader rd) with e | e
  · rw [e]; exact .inl rfl
  · rw [e]; exact .inr rfl

theorem writeLoop_le {σ : Type} {next next' : Source σ} (h : ∀ s, OLe (next s) (next' s)) (size : Nat)
    (set : List UInt8 → List UInt8 → List UInt8) (k : Nat) (buf : List UInt8) (s : σ) :
    OLe (writeLoop next size set k buf s) (writeLoop next' size set k buf s) := by
  induction k generalizing buf s with
  | zero => exact .inr rfl
  | succ k ih =>
    unfold writeLoop
    rcases h s with ⟨s', e⟩ | e
    · rw [e]; exact .inl ⟨_, rfl⟩
    rw [e]
    split
    · exact .inr rfl
    · exact Session.OLe.mapBoth (g := id) (ih _ _)
    · exact .inr rfl
    · exact .inr rfl
    · exact .inr rfl

theorem writeChannels_le {σ : Type} {next next' : Source σ} (h : ∀ s, OLe (next s) (next' s)) (P k c : Nat)
    (buf : List UInt8) (s : σ) :
    OLe (writeChannels next P k c buf s) (writeChannels next' P k c buf s) := by
  induction k generalizing c buf s with
  | zero => exact .inr rfl
  | succ k ih =>
    unfold writeChannels
    rcases writeLoop_le h (3 * P) (setChannel P c) (buf.length / P / 3) buf s with ⟨s', e⟩ | e
    · rw [e]; exact .inl ⟨_, rfl⟩
    rw [e]
    split
    · exact ih _ _ _
    · exact .inr rfl

theorem writeAs_le {σ : Type} {next next' : Source σ} (h : ∀ s, OLe (next s) (next' s)) (ty : Bitpix) (rgb : Bool)
    (buf : List UInt8) (s : σ) : OLe (writeAs next ty rgb buf s) (writeAs next' ty rgb buf s) := by
  unfold writeAs
  split
  · exact writeChannels_le h _ _ _ _ _
  · split
    · exact writeLoop_le h _ _ _ _ _
    · exact writeLoop_le h _ _ _ _ _
    · exact writeLoop_le h _ _ _ _ _

theorem OLe.fst {α σ : Type} {d r : Option (Res α × σ)} (h : OLe d r) : FLe (d.map Prod.fst) (r.map Prod.fst) := by
  rcases h with ⟨s, h⟩ | h
  · left; rw [h]; rfl
  · right; rw [h]

theorem Decoder.readImage_le (gz : Gunzip) (fuel : Nat) (o : FloatOps) (d : Decoder)
    (buf : List UInt8) : FLe (d.readImage .checked gz fuel o buf) (d.readImage .wrapping gz fuel o buf) := by
  unfold Decoder.readImage
  split
  · rename_i h _
    cases Scale.ofMap h.header.values with
    | err e => exact .inr rfl
    | panic => exact .inr rfl
    | ok s =>
      rcases getImage_le d.fits h with e | e
      · rw [e]; exact .inl rfl
      · rw [e]; exact .inr rfl
  · rename_i h _
    cases Scale.ofMap h.header.values with
    | err e => exact .inr rfl
    | panic => exact .inr rfl
    | ok s =>
      cases h.header.xtension.zImage with
      | none => exact .inr rfl
      | some z =>
        dsimp only
        rcases getTiles_le d.fits h z with e | e
        · rw [e]; exact .inl rfl
        rw [e]
        split
        · refine OLe.fst (writeAs_le (fun it => ?_) _ _ _ _)
          exact Session.OLe.mapBoth (g := id) (it.next_le gz fuel)
        · exact .inr rfl
        · exact .inr rfl

end Fitsrs

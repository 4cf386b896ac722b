import Verif.Props.C61
import Verif.Props.C95
/-
The programs of Model/InputData.lean when no read fails: the reader is moved to positions below a limit if it stands below it
before and after.
-/

namespace Fitsrs
open Spec

namespace Prog
variable {α β : Type} {L : Nat}

/-- If the reader stands below the limit before and after, and no call fails, it is moved below the limit. -/
def Loose (L : Nat) (x : Prog α) : Prop :=
  ∀ r : Reader, r.data.length < L → r.pos < L → x.fails r = false → (x.val r).2.pos < L → x.Below L r

/-- If the reader stands below the limit after the program, and no call fails, it was below the limit before. -/
def Tight (L : Nat) (x : Prog α) : Prop :=
  ∀ r : Reader, r.data.length < L → x.fails r = false → (x.val r).2.pos < L → r.pos < L ∧ x.Below L r

theorem Tight.loose {x : Prog α} (h : x.Tight L) : x.Loose L := fun r h1 _ h3 h4 => (h r h1 h3 h4).2

theorem tight_done (a : α) : (done a).Tight L := fun _ _ _ h => ⟨h, trivial⟩

theorem read_inside {n : Nat} {r r' : Reader} {bs : List UInt8} (h : r.readExact n = (.ok bs, r')) :
    n = 0 ∨ r.pos + n ≤ r.data.length := by
  obtain ⟨rfl, hl, -⟩ := Reader.readExact_ok_iff.1 h
  rw [List.length_take, List.length_drop] at hl
  omega

theorem loose_read {n : Nat} {no : Err → α} {k : List UInt8 → Prog α} (hk : ∀ bs, (k bs).Loose L) : (read n no k).Loose L := by
  intro r h1 h2 h3 h4
  rcases reads n r with ⟨bs, r', h⟩ | ⟨e, r', h⟩
  · rw [read_ok h] at h4
    unfold fails at h3
    unfold Below
    rw [h] at h3 ⊢
    dsimp only at h3 ⊢
    have hl := read_inside h
    obtain ⟨-, -, rfl⟩ := Reader.readExact_ok_iff.1 h
    refine hk bs _ h1 ?_ h3 h4
    show r.pos + n < L
    rcases hl with hl | hl <;> omega
  · unfold fails at h3
    rw [h] at h3
    cases h3

theorem tight_read {n : Nat} {no : Err → α} {k : List UInt8 → Prog α} (hn : 0 < n) (hk : ∀ bs, (k bs).Loose L) :
    (read n no k).Tight L := by
  intro r h1 h3 h4
  have hp : r.pos < L := by
    rcases reads n r with ⟨bs, r', h⟩ | ⟨e, r', h⟩
    · rcases read_inside h with hl | hl <;> omega
    · unfold fails at h3
      rw [h] at h3
      cases h3
  exact ⟨hp, loose_read hk r h1 hp h3 h4⟩

theorem loose_move {off : Int} {no : Err → α} {k : Prog α} (hk : k.Tight L) : (move off no k).Loose L := by
  intro r h1 _ h3 h4
  rcases moves off r with ⟨r', h⟩ | ⟨e, r', h⟩
  · have hd := Fits.seekRelative_data off r
    rw [move_ok h] at h4
    unfold fails at h3
    unfold Below
    rw [h] at h3 hd ⊢
    dsimp only at h3 hd ⊢
    exact hk r' (by rw [hd]; exact h1) h3 h4
  · unfold fails at h3
    rw [h] at h3
    cases h3

theorem loose_tell {k : Nat → Prog α} (hk : ∀ pos < L, (k pos).Loose L) : (tell k).Loose L :=
  fun r h1 h2 h3 h4 => hk r.pos h2 r h1 h2 h3 h4

theorem loose_goto {pos : Nat} {no : Err → α} {k : Prog α} (hp : pos < L) (hk : k.Loose L) : (goto pos no k).Loose L :=
  fun r h1 _ h3 h4 => ⟨hp, hk (r.seekStart pos) h1 hp h3 h4⟩

theorem map_fails (f : α → β) (x : Prog α) (r : Reader) : (x.map f).fails r = x.fails r := by
  induction x generalizing r with
  | done a => rfl
  | read n no k ih =>
    unfold map fails
    rcases reads n r with ⟨bs, r', h⟩ | ⟨e, r', h⟩ <;> rw [h]
    exact ih bs r'
  | move off no k ih =>
    unfold map fails
    rcases moves off r with ⟨r', h⟩ | ⟨e, r', h⟩ <;> rw [h]
    exact ih r'
  | tell k ih => exact ih r.pos r
  | goto pos no k ih => exact ih _

theorem map_below (f : α → β) (x : Prog α) {r : Reader} (h : x.Below L r) : (x.map f).Below L r := by
  induction x generalizing r with
  | done a => trivial
  | read n no k ih =>
    unfold Below at h
    unfold map Below
    rcases reads n r with ⟨bs, r', e⟩ | ⟨_, r', e⟩ <;> rw [e] at h ⊢
    · exact ih bs h
    · trivial
  | move off no k ih =>
    unfold Below at h
    unfold map Below
    refine ⟨h.1, ?_⟩
    have h := h.2
    rcases moves off r with ⟨r', e⟩ | ⟨_, r', e⟩ <;> rw [e] at h ⊢
    · exact ih h
    · trivial
  | tell k ih => exact ih r.pos h
  | goto pos no k ih => exact ⟨h.1, ih h.2⟩

theorem andThen_fails {x : Prog α} {g : α → β} {f : α → Prog β} {r : Reader} (h : x.fails r = false)
    (hf : (f (x.val r).1).fails (x.val r).2 = false) : (x.andThen g f).fails r = false := by
  induction x generalizing r with
  | done a => exact hf
  | read n no k ih =>
    unfold fails at h
    rcases reads n r with ⟨bs, r', e⟩ | ⟨_, r', e⟩
    · rw [read_ok e] at hf
      unfold andThen fails
      rw [e] at h ⊢
      exact ih bs h hf
    · rw [e] at h; cases h
  | move off no k ih =>
    unfold fails at h
    rcases moves off r with ⟨r', e⟩ | ⟨_, r', e⟩
    · rw [move_ok e] at hf
      unfold andThen fails
      rw [e] at h ⊢
      exact ih h hf
    · rw [e] at h; cases h
  | tell k ih => exact ih r.pos h hf
  | goto pos no k ih => exact ih h hf

theorem andThen_below {x : Prog α} {g : α → β} {f : α → Prog β} {r : Reader} (h : x.fails r = false) (hb : x.Below L r)
    (hf : (f (x.val r).1).Below L (x.val r).2) : (x.andThen g f).Below L r := by
  induction x generalizing r with
  | done a => exact hf
  | read n no k ih =>
    unfold fails at h
    unfold Below at hb
    rcases reads n r with ⟨bs, r', e⟩ | ⟨_, r', e⟩
    · rw [read_ok e] at hf
      unfold andThen Below
      rw [e] at h hb ⊢
      exact ih bs h hb hf
    · rw [e] at h; cases h
  | move off no k ih =>
    unfold fails at h
    unfold Below at hb
    have hb1 := hb.1
    have hb := hb.2
    rcases moves off r with ⟨r', e⟩ | ⟨_, r', e⟩
    · rw [move_ok e] at hf
      unfold andThen Below
      refine ⟨hb1, ?_⟩
      rw [e] at h hb ⊢
      exact ih h hb hf
    · rw [e] at h; cases h
  | tell k ih => exact ih r.pos h hb hf
  | goto pos no k ih => exact ⟨hb.1, ih h hb.2 hf⟩

end Prog

namespace TableData
variable {α : Type} {L : Nat} {f : Res Unit × TableData → α} {k : TableData → Prog α}

theorem advanceP_loose (p : Profile) (off : Int) (hk : ∀ b, (k b).Tight L) (t : TableData) :
    (t.advanceP p off f k).Loose L := by
  unfold advanceP
  refine Prog.loose_move ?_
  split
  · exact hk _
  · exact Prog.tight_done _
  · exact Prog.tight_done _

theorem seekToNextColP_loose (p : Profile) (hk : ∀ b, (k b).Tight L) (t : TableData) :
    (t.seekToNextColP p f k).Loose L := by
  unfold seekToNextColP seekNextP
  split
  · dsimp only
    split <;> split <;> first
      | exact advanceP_loose p _ hk _
      | exact (Prog.tight_done _).loose
  · exact (Prog.tight_done _).loose

theorem nextInHeapP_tight (p : Profile) (c : Nat) (h : HeapState) (t : TableData) (hm : h.mainPos < L) :
    (t.nextInHeapP p c h).Tight L := by
  unfold nextInHeapP
  split
  · refine Prog.tight_read (by rw [elemBytes_eq]; exact elemBytes_pos _) fun bs => ?_
    split
    · dsimp only
      split
      · unfold jumpToMainTableP
        exact Prog.loose_goto hm (seekToNextColP_loose p (fun _ => Prog.tight_done _) _)
      · exact (Prog.tight_done _).loose
    · exact (Prog.tight_done _).loose
    · exact (Prog.tight_done _).loose
  · exact Prog.tight_done _
  · exact Prog.tight_done _

theorem nextArrayP_loose (p : Profile) (c : Nat) (ty : ElemTy) (n : Nat) (mk : Nat → Nat → DataValue) (t : TableData)
    (ht : t.inHeap = none) : (t.nextArrayP p c ty n mk).Loose L := by
  unfold nextArrayP
  refine Prog.loose_read fun bs => ?_
  dsimp only
  split
  · unfold jumpToHeapP
    rw [ht]
    dsimp only
    split
    · refine Prog.loose_tell fun pos hpos => Prog.loose_move ?_
      split
      · exact nextInHeapP_tight p c _ _ hpos
      · exact Prog.tight_done _
      · exact Prog.tight_done _
    · exact (Prog.tight_done _).loose
    · exact (Prog.tight_done _).loose
  · exact seekToNextColP_loose p (fun _ => Prog.tight_done _) _

theorem nextAtP_loose (p : Profile) (c : Nat) (t : TableData) (hm : ∀ h, t.inHeap = some h → h.mainPos < L) :
    (t.nextAtP p c).Loose L := by
  unfold nextAtP
  cases ht : t.inHeap with
  | some h => exact (nextInHeapP_tight p c h t (hm h ht)).loose
  | none =>
    dsimp only
    split
    · exact (Prog.tight_done _).loose
    · split
      · exact (Prog.tight_done _).loose
      · unfold nextPlainP
        refine Prog.loose_read fun bs => ?_
        dsimp only
        split
        · exact seekToNextColP_loose p (fun _ => Prog.tight_done _) _
        · exact (Prog.tight_done _).loose
      · exact nextArrayP_loose p c _ _ _ t ht
      · exact nextArrayP_loose p c _ _ _ t ht

theorem nextP_loose (p : Profile) (t : TableData) (hm : ∀ h, t.inHeap = some h → h.mainPos < L) (hs : t.seekFirst = false) :
    (t.nextP p).Loose L := by
  unfold nextP
  split
  · exact (Prog.tight_done _).loose
  · rw [hs]
    exact nextAtP_loose p _ t hm

theorem seekToRowP_loose (p : Profile) (i : Nat) (t : TableData) : (t.seekToRowP p i).Loose L := by
  unfold seekToRowP
  split
  · exact (Prog.tight_done _).loose
  · dsimp only
    split
    · exact (Prog.tight_done _).loose
    · split
      · split
        · exact Prog.loose_move (Prog.tight_done _)
        · exact (Prog.tight_done _).loose
        · exact (Prog.tight_done _).loose
      · exact (Prog.tight_done _).loose
      · exact (Prog.tight_done _).loose

end TableData

theorem It.nextP_tight {L : Nat} (it : It) : it.nextP.Tight L := by
  unfold It.nextP
  split
  · exact Prog.tight_done _
  · exact Prog.tight_read (by cases it.ty <;> decide) fun _ => (Prog.tight_done _).loose

/-! ### What stays in a data unit -/

/-- Seeking a row that exists. -/
theorem TableStays.seekRow_ok {seek : Bool} {p : Profile} {data : List UInt8} {s n i : Nat} {t : TableData} (hk : seek = true)
    (h : TableStays seek p data s n t) (hi : i < t.ctx.naxis2) : ∃ u, t.seekToRow p i = (.ok (), u) := by
  obtain ⟨T, h1, h2, h3, h4, h5, h6, h7, h8, vs, r, cur, hst, -⟩ := h
  have h0 : 0 < T.cols.length := List.length_pos_iff.2 h1.readable.nonempty
  have hplain := h8 hk
  obtain ⟨r, k, j, bo, rfl, hbo⟩ : ∃ r k i bo, t = T.main r k i bo ∧ bo ≤ T.x.naxis1 * T.x.naxis2 := by
    rcases hst with ⟨-, -, k, i, -, rfl⟩ | ⟨hr, k, c, i, hc, hi, hat, -⟩
    · exact ⟨_, _, _, _, rfl, Nat.le_refl _⟩
    · obtain ⟨ty, rep, hf⟩ := hplain c (mem_cols hc)
      unfold Tab.At at hat
      rw [hf] at hat
      dsimp only at hat
      refine ⟨_, _, _, _, hat, ?_⟩
      have hcell := h1.cell hr hf
      unfold cellValues at hi
      dsimp only at hi
      rw [hf] at hi
      dsimp only at hi
      rw [elements_length] at hi
      rw [colBytes_plain] at hcell
      have := Nat.mul_le_mul_right (elemBytes ty) (Nat.le_of_lt hi)
      omega
  rw [← h2, seekToRow_main h1 hi h0 hbo]
  exact ⟨_, rfl⟩

section
variable {seek : Bool} {p : Profile} {data : List UInt8} {s n L : Nat}

/-- A table that has been opened and not narrowed does not start again, and goes back from the heap to a position in the file. -/
theorem TableStays.still {t : TableData} (h : TableStays seek p data s n t) :
    t.seekFirst = false ∧ ∀ x, t.inHeap = some x → x.mainPos ≤ data.length := by
  obtain ⟨T, hT, -, rfl, rfl, hlen, -, -, -, vs, r, cur, hst, -⟩ := h
  rcases hst with ⟨-, -, k, i, -, rfl⟩ | ⟨hr, k, c, i, hk, hi, hat, -⟩
  · exact ⟨rfl, fun x hx => by cases hx⟩
  · unfold Tab.At at hat
    cases hf : T.x.tforms[c]? with
    | none => rw [hf] at hat; exact hat.elim
    | some g =>
      have hcell := hT.cell hr hf
      rw [hf] at hat
      have heap : ∀ {w : Nat} {ty : ElemTy} {num offset : Nat}, colBytes g = w →
          t = T.inHeap r k (T.cellStart r c + w) ty num offset i →
          t.seekFirst = false ∧ ∀ x, t.inHeap = some x → x.mainPos ≤ T.data.length := by
        intro w ty num offset hw e
        subst e
        refine ⟨rfl, fun x hx => ?_⟩
        cases hx
        show T.start + (T.cellStart r c + w) ≤ _
        unfold Tab.cellStart at *
        omega
      cases g with
      | plain ty rep =>
        dsimp only at hat
        subst hat
        exact ⟨rfl, fun x hx => by cases hx⟩
      | P ty =>
        dsimp only at hat
        split at hat
        · subst hat
          exact ⟨rfl, fun x hx => by cases hx⟩
        · exact heap rfl hat.2
      | Q ty =>
        dsimp only at hat
        split at hat
        · subst hat
          exact ⟨rfl, fun x hx => by cases hx⟩
        · exact heap rfl hat.2

theorem TableStays.pos {t : TableData} (h : TableStays seek p data s n t) : t.rd.data = data ∧ t.rd.pos ≤ s + n := by
  obtain ⟨T, -, -, rfl, rfl, -, hm, hb, -, vs, hl⟩ := h
  exact ⟨hl.data, (hl.pos hm hb).2⟩

/-- The next value of a table. -/
theorem TableStays.nextP {t : TableData} (h : TableStays seek p data s n t) (hd : data.length < L) (hn : s + n < L) (rd : Reader) :
    (({ t with rd } : TableData).nextP p).fails t.rd = false ∧ (({ t with rd } : TableData).nextP p).Below L t.rd := by
  have hval := TableData.nextP_val p { t with rd } t.rd
  have hf : (({ t with rd } : TableData).nextP p).fails t.rd = false := by
    obtain ⟨T, h1, h2, h3, h4, h5, h6, h7, h8, vs, hl⟩ := h
    cases vs with
    | nil =>
      obtain ⟨r, cur, hst, hv⟩ := hl
      rcases hst with ⟨-, -, k, i, hk, rfl⟩ | hst
      · unfold TableData.nextP
        rw [show ({ T.main T.x.naxis2 k i (T.x.naxis1 * T.x.naxis2) with rd } : TableData).cols[
          ({ T.main T.x.naxis2 k i (T.x.naxis1 * T.x.naxis2) with rd } : TableData).col]? = some T.cols[k] from
            List.getElem?_eq_getElem hk]
        dsimp only
        rw [if_neg (show ¬ (T.main T.x.naxis2 k i (T.x.naxis1 * T.x.naxis2)).seekFirst = true from by simp [Tab.main])]
        unfold TableData.nextAtP
        rw [show ({ T.main T.x.naxis2 k i (T.x.naxis1 * T.x.naxis2) with rd } : TableData).inHeap = none from rfl]
        dsimp only
        rw [if_pos (show (T.main T.x.naxis2 k i (T.x.naxis1 * T.x.naxis2)).byteOffset =
          (T.main T.x.naxis2 k i (T.x.naxis1 * T.x.naxis2)).mainSize from rfl)]
        rfl
      · have hs : T.State r cur t := .inr hst
        exact absurd (List.append_eq_nil_iff.1 hv.symm).1 (hs.cur_ne hst.1)
    | cons v vs =>
      obtain ⟨t', e, -⟩ := hl.cons h1 (by rw [h4, h3]; exact h5)
      rw [h2] at e
      rw [show ({ ({ t with rd } : TableData) with rd := t.rd } : TableData) = t from rfl, e] at hval
      cases hq : (({ t with rd } : TableData).nextP p).fails t.rd with
      | false => rfl
      | true =>
        have hb := Prog.fails_bad _ (TableData.nextP_fails p _) hq
        rw [hval] at hb
        cases hb
  refine ⟨hf, ?_⟩
  obtain ⟨k1, k2⟩ := h.pos
  have hst := h.still
  have hp := h.next.pos.2
  refine TableData.nextP_loose p { t with rd } (fun x hx => ?_) hst.1 t.rd (by rw [k1]; exact hd) (by omega) hf ?_
  · have := hst.2 x hx
    omega
  · rw [hval]
    show (t.next p).2.rd.pos < L
    omega

theorem TableStays.collectP {t : TableData} (h : TableStays seek p data s n t) (hd : data.length < L) (hn : s + n < L)
    (rd : Reader) (fuel row : Nat) (acc : List DataValue) :
    (TableRows.collectP p fuel row { t with rd } acc).fails t.rd = false ∧
      (TableRows.collectP p fuel row { t with rd } acc).Below L t.rd := by
  induction fuel generalizing t acc with
  | zero => exact ⟨rfl, trivial⟩
  | succ fuel ih =>
    unfold TableRows.collectP
    by_cases hr : t.row = row
    · rw [if_pos hr]
      obtain ⟨h1, h2⟩ := h.nextP hd hn rd
      have hval := TableData.nextP_val p { t with rd } t.rd
      have hx := h.next
      rw [show ({ ({ t with rd } : TableData) with rd := t.rd } : TableData) = t from rfl] at hval
      have key : ∀ (x : Res (Option DataValue)) (u : TableData), t.next p = (x, u) → TableStays seek p data s n u →
          ∀ y : Prog (Option (Res (Option (List DataValue)) × TableData)),
            y = (match (x, ({ u with rd } : TableData)) with
              | (.ok (some v), t) => TableRows.collectP p fuel row t (acc ++ [v])
              | x => .done (TableRows.giveUp x)) → y.fails u.rd = false ∧ y.Below L u.rd := by
        intro x u _ hu y hy
        subst hy
        rcases x with (_ | v) | e | _
        · exact ⟨rfl, trivial⟩
        · exact ih hu _
        · exact ⟨rfl, trivial⟩
        · exact ⟨rfl, trivial⟩
      have hkey := key (t.next p).1 (t.next p).2 rfl hx _ rfl
      refine ⟨Prog.andThen_fails h1 ?_, Prog.andThen_below h1 h2 ?_⟩
      · rw [hval]
        exact hkey.1
      · rw [hval]
        exact hkey.2
    · rw [if_neg hr]
      exact ⟨rfl, trivial⟩

/-- The next pixel of an image. -/
theorem itAt_nextP {b : Bitpix} {N c : Nat} {ps : List Pixel} (h1 : Avail b data s N ps) (h2 : ps.length = N) (h3 : c ≤ N)
    (h4 : N * pixelSize b ≤ n) (hd : data.length < L) (hn : s + n < L) (rd : Reader) :
    (It.nextP ⟨b, rd, N, c⟩).fails ⟨data, s + c * pixelSize b⟩ = false ∧
      (It.nextP ⟨b, rd, N, c⟩).Below L ⟨data, s + c * pixelSize b⟩ := by
  have hsz : ∀ j ≤ N, s + j * pixelSize b < L := by
    intro j hj
    have := Nat.mul_le_mul_right (pixelSize b) hj
    omega
  have hval : (It.nextP ⟨b, rd, N, c⟩).val ⟨data, s + c * pixelSize b⟩ = (((itAt b data s N c).next.1,
      { (itAt b data s N c).next.2 with rd }), (itAt b data s N c).next.2.rd) :=
    It.nextP_val ⟨b, rd, N, c⟩ ⟨data, s + c * pixelSize b⟩
  have hf : (It.nextP ⟨b, rd, N, c⟩).fails ⟨data, s + c * pixelSize b⟩ = false := by
    by_cases hc : c < N
    · rw [next_avail h1 (by omega)] at hval
      cases hq : (It.nextP ⟨b, rd, N, c⟩).fails ⟨data, s + c * pixelSize b⟩ with
      | false => rfl
      | true =>
        have hb := Prog.fails_bad _ (It.nextP_fails _) hq
        rw [hval] at hb
        cases hb
    · unfold It.nextP
      dsimp only
      rw [if_pos (show c = N by omega)]
      rfl
  refine ⟨hf, (It.nextP_tight _).loose _ hd (hsz c h3) hf ?_⟩
  rw [hval]
  by_cases hc : c < N
  · rw [next_avail h1 (by omega)]
    exact hsz (c + 1) (by omega)
  · rw [next_end c (by omega)]
    exact hsz c h3

/-- A pixel of an image. -/
theorem itAt_readValueP {b : Bitpix} {N c : Nat} {ps : List Pixel} (h1 : Avail b data s N ps) (h2 : ps.length = N) (h3 : c ≤ N)
    (h4 : N * pixelSize b ≤ n) (hd : data.length < L) (hn : s + n < L) (rd : Reader) (i : Nat) :
    (It.readValueP p i ⟨b, rd, N, c⟩).fails ⟨data, s + c * pixelSize b⟩ = false ∧
      (It.readValueP p i ⟨b, rd, N, c⟩).Below L ⟨data, s + c * pixelSize b⟩ := by
  have hsz : ∀ j ≤ N, s + j * pixelSize b < L := by
    intro j hj
    have := Nat.mul_le_mul_right (pixelSize b) hj
    omega
  have hval : (It.readValueP p i ⟨b, rd, N, c⟩).val ⟨data, s + c * pixelSize b⟩ = ((((itAt b data s N c).readValue p i).1,
      { ((itAt b data s N c).readValue p i).2 with rd }), ((itAt b data s N c).readValue p i).2.rd) :=
    It.readValueP_val p i ⟨b, rd, N, c⟩ ⟨data, s + c * pixelSize b⟩
  by_cases hi : i < N
  · have e := read_avail (p := p) h1 h3 (show i < ps.length by omega)
    rw [e] at hval
    have hf : (It.readValueP p i ⟨b, rd, N, c⟩).fails ⟨data, s + c * pixelSize b⟩ = false := by
      cases hq : (It.readValueP p i ⟨b, rd, N, c⟩).fails ⟨data, s + c * pixelSize b⟩ with
      | false => rfl
      | true =>
        obtain ⟨x, hb⟩ := Prog.fails_bad _ (It.readValueP_fails p i _) hq
        rw [hval] at hb
        cases hb
    have hl : (It.readValueP p i ⟨b, rd, N, c⟩).Loose L := by
      unfold It.readValueP
      split
      · exact (Prog.tight_done _).loose
      · split
        · refine Prog.loose_move ?_
          intro r g1 g2 g3
          rw [Prog.map_fails] at g2
          rw [Prog.map_val] at g3
          obtain ⟨g4, g5⟩ := It.nextP_tight _ r g1 g2 g3
          exact ⟨g4, Prog.map_below _ _ g5⟩
        · exact (Prog.tight_done _).loose
        · exact (Prog.tight_done _).loose
    refine ⟨hf, hl _ hd (hsz c h3) hf ?_⟩
    rw [hval]
    exact hsz (i + 1) (by omega)
  · have : It.readValueP p i ⟨b, rd, N, c⟩ = .done (.err (.static "Value to retrieve is out of bounds"), ⟨b, rd, N, c⟩) := by
      unfold It.readValueP
      dsimp only
      rw [if_pos (show i ≥ N by omega)]
    rw [this]
    exact ⟨rfl, trivial⟩

/-- A call on what stays in a data unit: no read fails and the reader is moved to positions below the limit. -/
theorem Stays.useP {fuel : Nat} {c : Call} {o : OpenUnit} (h : Stays seek p data s n o) (hd : data.length < L)
    (hn : s + n < L) (hk : c.keepsInside seek = true) {prog : Prog (Option (Res Seen × OpenUnit))}
    (hp : o.detached.useP p fuel c = some prog) : prog.fails o.rd = false ∧ prog.Below L o.rd := by
  have hpos := h.rd
  cases o with
  | image d =>
    obtain ⟨b, N, c', ps, h1, h2, h3, h4, h5⟩ := h
    obtain ⟨sp, nb, px⟩ := d
    obtain rfl : px = itAt b data s N c' := h5
    cases c with
    | next =>
      cases hp
      obtain ⟨g1, g2⟩ := itAt_nextP h1 h2 h3 h4 hd hn ⟨[], 0⟩
      exact ⟨by rw [Prog.map_fails]; exact g1, Prog.map_below _ _ g2⟩
    | readValue i =>
      cases hp
      obtain ⟨g1, g2⟩ := itAt_readValueP (p := p) h1 h2 h3 h4 hd hn ⟨[], 0⟩ i
      exact ⟨by rw [Prog.map_fails]; exact g1, Prog.map_below _ _ g2⟩
    | _ => cases hp
  | bytes b => cases c <;> cases hp
  | table t =>
    cases c with
    | next =>
      cases hp
      obtain ⟨h1, h2⟩ := TableStays.nextP (t := t) h hd hn ⟨[], 0⟩
      exact ⟨by rw [Prog.map_fails]; exact h1, Prog.map_below _ _ h2⟩
    | seekRow i =>
      cases hp
      have hval := TableData.seekToRowP_val p i { t with rd := ⟨[], 0⟩ } t.rd
      rw [show ({ ({ t with rd := ⟨[], 0⟩ } : TableData) with rd := t.rd } : TableData) = t from rfl] at hval
      have hst := TableStays.seekRow (t := t) i hk h
      have hf : (({ t with rd := ⟨[], 0⟩ } : TableData).seekToRowP p i).fails t.rd = false := by
        by_cases hi : t.ctx.naxis2 ≤ i
        · unfold TableData.seekToRowP
          rw [if_pos (show i ≥ t.ctx.naxis2 from hi)]
          rfl
        · have hok : ∃ u, t.seekToRow p i = (.ok (), u) := TableStays.seekRow_ok (t := t) hk h (by omega)
          obtain ⟨u, hu⟩ := hok
          rw [hu] at hval
          cases hq : (({ t with rd := ⟨[], 0⟩ } : TableData).seekToRowP p i).fails t.rd with
          | false => rfl
          | true =>
            obtain ⟨x, hb⟩ := Prog.fails_bad _ (TableData.seekToRowP_fails p i _) hq
            rw [hval] at hb
            cases hb
      refine ⟨by rw [Prog.map_fails]; exact hf, Prog.map_below _ _ ?_⟩
      refine TableData.seekToRowP_loose p i _ t.rd (by rw [show t.rd.data = data from hpos.1]; exact hd)
        (Nat.lt_of_le_of_lt hpos.2.2 hn) hf ?_
      rw [hval]
      exact Nat.lt_of_le_of_lt hst.pos.2 hn
    | select cs => cases hk
    | rowIter => cases hp; exact ⟨rfl, trivial⟩
    | _ => cases hp
  | rows r =>
    cases c with
    | next =>
      cases hp
      obtain ⟨h1, h2⟩ := TableStays.collectP (t := r.data) h hd hn ⟨[], 0⟩ fuel r.row []
      refine ⟨?_, Prog.map_below _ _ (Prog.map_below _ _ h2)⟩
      rw [Prog.map_fails]
      unfold TableRows.nextP
      rw [Prog.map_fails]
      exact h1
    | tableData => cases hp; exact ⟨rfl, trivial⟩
    | _ => cases hp
  | tiles t => exact False.elim h

end

/-! ### Where the reader stands after an HDU -/

theorem consumeCardsN_pos {fuel : Nat} {s s' : HState} {r : Res (List Card)} (h : consumeCardsN fuel s = (r, s')) :
    s'.rd.pos ≤ max s.rd.pos s.rd.data.length := by
  induction fuel generalizing s r with
  | zero => simp only [consumeCardsN, Prod.mk.injEq] at h; rw [← h.2]; omega
  | succ fuel ih =>
    unfold consumeCardsN at h
    by_cases hle : s.rd.pos + 80 ≤ s.rd.data.length
    · rw [consumeNextCard_le hle] at h
      simp only at h
      split at h
      · split at h
        · simp only [Prod.mk.injEq] at h; rw [← h.2]; dsimp only; omega
        · cases hrec : consumeCardsN fuel { rd := { s.rd with pos := s.rd.pos + 80 }, nread := s.nread + 80 } with
          | mk r s2 =>
            rw [hrec] at h
            simp only [Prod.mk.injEq] at h
            obtain ⟨-, rfl⟩ := h
            have := ih hrec
            dsimp only at this
            omega
      · simp only [Prod.mk.injEq] at h; rw [← h.2]; dsimp only; omega
      · simp only [Prod.mk.injEq] at h; rw [← h.2]; dsimp only; omega
    · rw [consumeNextCard_gt (by omega)] at h
      simp only [Prod.mk.injEq] at h; rw [← h.2]; dsimp only; omega

theorem readExact_pos (n : Nat) (r : Reader) : (r.readExact n).2.pos ≤ max r.pos r.data.length := by
  unfold Reader.readExact
  dsimp only
  split
  · rename_i h
    rw [List.length_take, List.length_drop] at h
    dsimp only
    omega
  · exact Nat.le_refl _

theorem hduNew_pos {X : Type} {parse : ValueMap → Res X} {cards : List Card} {s : HState} :
    (Hdu.new parse cards s).2.rd.pos ≤ max s.rd.pos s.rd.data.length := by
  unfold Hdu.new
  split
  · split
    · dsimp only
      have := readExact_pos (2880 - s.nread % 2880) s.rd
      split <;> rename_i heq <;> rw [heq] at this <;> exact this
    · exact Nat.le_max_left _ _
  · exact Nat.le_max_left _ _
  · exact Nat.le_max_left _ _

theorem newXtension_pos {p : Profile} {s : HState} : (HDU.newXtension p s).2.rd.pos ≤ max s.rd.pos s.rd.data.length := by
  unfold HDU.newXtension
  split
  all_goals
    rename_i cards s1 hc
    have hd := Fits.consumeCardsN_data hc
    have := consumeCardsN_pos hc
  · have key : (xtensionOf p cards s1).2.rd.pos ≤ max s1.rd.pos s1.rd.data.length := by
      unfold xtensionOf
      split
      all_goals first | exact hduNew_pos | exact Nat.le_max_left _ _
    rw [hd] at key
    exact Nat.le_trans key (by omega)
  · exact this
  · exact this

theorem newPrimary_pos {rd : Reader} : (HDU.newPrimary rd).2.rd.pos ≤ max rd.pos rd.data.length := by
  unfold HDU.newPrimary
  split
  all_goals
    rename_i cards s1 hc
    have hd := Fits.consumeCardsN_data hc
    have := consumeCardsN_pos hc
  · have key : (primaryOf cards s1).2.rd.pos ≤ max s1.rd.pos s1.rd.data.length := by
      unfold primaryOf
      split
      · split
        · exact hduNew_pos
        · exact Nat.le_max_left _ _
      · exact Nat.le_max_left _ _
      · exact Nat.le_max_left _ _
    rw [hd] at key
    exact Nat.le_trans key (by dsimp only at this ⊢; omega)
  · exact this
  · exact this

/-- The next HDU, read where the last data unit ends, leaves the reader below the limit. -/
theorem next_below {p : Profile} {f : Fits} (he : f.errored = false) (hd : f.rd.data.length < 2 ^ 63)
    (h0 : f.start = true → f.rd.pos = 0) (hr : f.start = false → Ready p f) : (f.next p).2.rd.pos < 2 ^ 63 := by
  cases hs : f.start with
  | true =>
    unfold Fits.next
    rw [if_neg (by simp [he]), if_pos hs]
    dsimp only
    rw [Fits.record_rd]
    have := newPrimary_pos (rd := f.rd)
    have := h0 hs
    dsimp only
    omega
  | false =>
    have hr := hr hs
    rw [Session.next_ready hs he hr, Fits.record_rd]
    have := newXtension_pos (p := p) (s := { rd := ⟨f.rd.data, f.posStart + roundUp2880 f.numBytes⟩, nread := 0 })
    have := hr.fits
    unfold Fits.extensionAt
    dsimp only at *
    omega

end Fitsrs

import Verif.Spec.Reach
import Verif.Lemmas.InputInside
/-
The calls on a data unit move the reader by a bounded number of bytes, in builds without overflow checks.
-/

namespace Fitsrs
open Spec

theorem read_ok {n : Nat} {r r' : Reader} {bs : List UInt8} (h : r.readExact n = (.ok bs, r')) (hn : 0 < n) :
    r'.data = r.data ∧ r'.pos = r.pos + n ∧ r.pos + n ≤ r.data.length ∧ bs.length = n := by
  unfold Reader.readExact at h
  dsimp only at h
  split at h
  · rename_i hl
    cases h
    rw [List.length_take, List.length_drop] at hl
    refine ⟨rfl, rfl, by omega, ?_⟩
    rw [List.length_take, List.length_drop]
    exact hl
  · cases h

theorem read_bad {n : Nat} {r r' : Reader} {x : Res (List UInt8)} (h : r.readExact n = (x, r')) (hx : ∀ bs, x ≠ .ok bs) :
    r'.data = r.data ∧ r'.pos = max r.pos r.data.length := by
  unfold Reader.readExact at h
  dsimp only at h
  split at h
  · cases h
    exact absurd rfl (hx _)
  · cases h
    exact ⟨rfl, rfl⟩

theorem seek_cases (off : Int) (r : Reader) :
    (∃ q : Nat, (q : Int) = r.pos + off ∧ r.seekRelative off = (.ok (), { r with pos := q })) ∨
      ∃ e, r.seekRelative off = (.err e, r) := by
  unfold Reader.seekRelative
  dsimp only
  split
  · rename_i h
    exact .inl ⟨((r.pos : Int) + off).toNat, Int.toNat_of_nonneg h.1, rfl⟩
  · exact .inr ⟨_, rfl⟩

namespace TableData

/-- What does not change in a table, and where its reader is. -/
structure Near (L M : Nat) (t : TableData) : Prop where
  data : t.rd.data.length = L
  noQ : ∀ ty, .Q ty ∉ t.ctx.tforms
  offs : ∀ o ∈ t.offsets, o + t.ctx.naxis1 * (t.ctx.naxis2 + 1) ≤ M
  main : t.mainSize ≤ M
  theap : t.ctx.theap + 2 ^ 32 ≤ M

/-- The reader is at most `W` bytes after the end of the data; the byte offset, which is counted from where the table was
opened, is at most `W` bytes after the position in the main table. -/
structure Low (L M W : Nat) (t : TableData) : Prop where
  near : t.Near L M
  pos : t.rd.pos ≤ L + W
  byte : t.byteOffset ≤ L + W + M
  main : t.inHeap = none → t.byteOffset ≤ t.rd.pos + W ∨ L ≤ t.rd.pos
  heap : ∀ h, t.inHeap = some h → h.mainPos ≤ L ∧ t.byteOffset ≤ h.mainPos + W

/-- In the main table, after a value has been read. -/
structure Back (L M W : Nat) (t : TableData) : Prop where
  near : t.Near L M
  pos : t.rd.pos ≤ L
  byte : t.byteOffset ≤ t.rd.pos + W
  main : t.inHeap = none

variable {L M W : Nat} {t : TableData}

theorem Back.low (h : t.Back L M W) : t.Low L M W :=
  ⟨h.near, by have := h.pos; omega, by have := h.pos; have := h.byte; omega, fun _ => .inl h.byte,
    fun x hx => by rw [h.main] at hx; cases hx⟩

theorem Low.mono {W' : Nat} (h : t.Low L M W) (hw : W ≤ W') : t.Low L M W' :=
  ⟨h.near, by have := h.pos; omega, by have := h.byte; omega,
    fun hx => (h.main hx).imp (fun _ => by omega) id,
    fun x hx => ⟨(h.heap x hx).1, by have := (h.heap x hx).2; omega⟩⟩

/-- The state after a step forwards. -/
theorem advance_forward {off : Int} (h0 : 0 ≤ off) (hb : (t.byteOffset : Int) + off < 2 ^ 63) :
    (∃ q b : Nat, (q : Int) = t.rd.pos + off ∧ (b : Int) = t.byteOffset + off ∧
      t.advance .wrapping off = (.ok (), { t with rd := { t.rd with pos := q }, byteOffset := b })) ∨
      ∃ e, t.advance .wrapping off = (.err e, t) := by
  unfold advance
  rcases seek_cases off t.rd with ⟨q, hq, e⟩ | ⟨e, he⟩
  · left
    refine ⟨q, t.byteOffset + off.toNat, hq, by omega, ?_⟩
    have hu : asU64 off = off.toNat := by unfold asU64; omega
    rw [e]
    dsimp only
    rw [hu, uadd_ok (by unfold two64; omega)]
  · right
    refine ⟨e, ?_⟩
    rw [he]

/-- The state after a step to the end of the main table. -/
theorem advance_end {m : Nat} (hm : m < 2 ^ 63) (hb : t.byteOffset < 2 ^ 63) :
    (∃ q : Nat, (q : Int) = t.rd.pos + ((m : Int) - t.byteOffset) ∧
      t.advance .wrapping ((m : Int) - t.byteOffset) = (.ok (), { t with rd := { t.rd with pos := q }, byteOffset := m })) ∨
      ∃ e, t.advance .wrapping ((m : Int) - t.byteOffset) = (.err e, t) := by
  unfold advance
  rcases seek_cases ((m : Int) - t.byteOffset) t.rd with ⟨q, hq, e⟩ | ⟨e, he⟩
  · left
    refine ⟨q, hq, ?_⟩
    rw [e]
    dsimp only
    have : uadd .wrapping t.byteOffset (asU64 ((m : Int) - t.byteOffset)) = .ok m := by
      unfold uadd asU64 two64
      by_cases h : t.byteOffset ≤ m
      · rw [if_pos (by omega)]
        congr 1
        omega
      · rw [if_neg (by omega)]
        show Res.ok _ = Res.ok _
        refine congrArg Res.ok ?_
        omega
    rw [this]
  · right
    refine ⟨e, ?_⟩
    rw [he]

/-- The offset of the next column. -/
theorem nextOffset_reach (h : t.Near L M) (hm : M < 2 ^ 62) {col : Nat} :
    t.nextOffset .wrapping col = .panic ∨ ∃ off : Int, t.nextOffset .wrapping col = .ok off ∧ 0 ≤ off ∧ off ≤ M := by
  unfold nextOffset
  split
  · exact .inl rfl
  split
  · exact .inl rfl
  rename_i o ho
  have ho' := h.offs o (List.mem_of_getElem? ho)
  by_cases hn : t.ctx.naxis1 = 0
  · rw [if_pos hn]; exact .inl rfl
  rw [if_neg hn]
  right
  have hle : t.ctx.naxis1 ≤ t.ctx.naxis1 * (t.ctx.naxis2 + 1) := Nat.le_mul_of_pos_right _ (by omega)
  generalize t.ctx.naxis1 * (t.ctx.naxis2 + 1) = k at ho' hle
  generalize hA : asI64 t.byteOffset = a
  rw [asI64_lt (n := o) (by omega), asI64_lt (n := t.ctx.naxis1) (by omega)]
  have h1 : (Int.tmod a t.ctx.naxis1) < t.ctx.naxis1 := Int.tmod_lt_of_pos _ (by omega)
  have h2 : -(t.ctx.naxis1 : Int) < Int.tmod a t.ctx.naxis1 := by
    have := Int.lt_tmod_of_pos a (b := (t.ctx.naxis1 : Int)) (by omega)
    exact this
  generalize Int.tmod a t.ctx.naxis1 = r at h1 h2
  rw [i64op_ok (by omega) (by omega)]
  simp only [Res.bind_ok]
  by_cases hneg : (o : Int) - r < 0
  · rw [if_pos hneg, i64op_ok (by omega) (by omega)]
    exact ⟨_, rfl, by omega, by omega⟩
  · rw [if_neg hneg]
    exact ⟨_, rfl, by omega, by omega⟩

theorem seekToNextCol_low (h : t.Back L M W) (hMW : M ≤ W) (hb : L + W + M + M < 2 ^ 62) :
    (t.seekToNextCol .wrapping).2.Low L M W := by
  have hw : ∀ a b, ∃ c, usub .wrapping a b = .ok c := by
    intro a b
    unfold usub
    split
    · exact ⟨_, rfl⟩
    · exact ⟨_, rfl⟩
  obtain ⟨lc, e1⟩ := hw t.cols.length 1
  obtain ⟨lr, e2⟩ := hw t.ctx.naxis2 1
  unfold seekToNextCol
  rw [e1, e2]
  dsimp only
  generalize (t.col == lc) = lastCol
  generalize (t.row == lr) = lastRow
  have hp := h.pos
  have hy := h.byte
  have hmain := h.near.main
  have key : ∀ t' : TableData, t'.Back L M W → t'.mainSize ≤ M → ∀ m : Nat, m ≤ M →
      (t'.advance .wrapping ((m : Int) - t'.byteOffset)).2.Low L M W := by
    intro t' h' hm' m hm
    have hp := h'.pos
    have hy := h'.byte
    rcases advance_end (t := t') (m := m) (by omega) (by omega) with ⟨q, hq, e⟩ | ⟨e, he⟩
    · rw [e]
      refine ⟨⟨h'.near.data, h'.near.noQ, h'.near.offs, h'.near.main, h'.near.theap⟩, ?_, ?_, ?_, ?_⟩
      · show q ≤ L + W
        omega
      · show m ≤ L + W + M
        omega
      · intro _
        left
        show m ≤ q + W
        omega
      · intro x hx
        rw [show ({ t' with rd := { t'.rd with pos := q }, byteOffset := m } : TableData).inHeap = t'.inHeap from rfl, h'.main] at hx
        cases hx
    · rw [he]
      exact h'.low
  have key2 : ∀ t' : TableData, t'.Back L M W → ∀ off : Int, 0 ≤ off → off ≤ M →
      (t'.advance .wrapping off).2.Low L M W := by
    intro t' h' off h0 h1
    have hp := h'.pos
    have hy := h'.byte
    rcases advance_forward (t := t') h0 (by omega) with ⟨q, b, hq, hbb, e⟩ | ⟨e, he⟩
    · rw [e]
      refine ⟨⟨h'.near.data, h'.near.noQ, h'.near.offs, h'.near.main, h'.near.theap⟩, ?_, ?_, ?_, ?_⟩
      · show q ≤ L + W
        omega
      · show b ≤ L + W + M
        omega
      · intro _
        left
        show b ≤ q + W
        omega
      · intro x hx
        rw [show ({ t' with rd := { t'.rd with pos := q }, byteOffset := b } : TableData).inHeap = t'.inHeap from rfl, h'.main] at hx
        cases hx
    · rw [he]
      exact h'.low
  unfold seekNext
  have h' : (if lastCol then { t with row := t.row + 1 } else t).Back L M W := by
    split
    · exact ⟨⟨h.near.data, h.near.noQ, h.near.offs, h.near.main, h.near.theap⟩, h.pos, h.byte, h.main⟩
    · exact h
  generalize (if lastCol then { t with row := t.row + 1 } else t) = t1 at h'
  dsimp only
  have hp1 := h'.pos
  have hy1 := h'.byte
  have hm1 := h'.near.main
  by_cases hl : (lastCol && lastRow) = true
  · rw [if_pos hl, asI64_lt (n := t1.mainSize) (by omega), asI64_lt (n := t1.byteOffset) (by omega),
      i64op_ok (by omega) (by omega)]
    exact key t1 h' hm1 t1.mainSize hm1
  · rw [if_neg hl]
    have h2 : ({ t1 with col := (t1.col + 1) % t1.cols.length, item := 0 } : TableData).Back L M W :=
      ⟨⟨h'.near.data, h'.near.noQ, h'.near.offs, h'.near.main, h'.near.theap⟩, h'.pos, h'.byte, h'.main⟩
    rcases nextOffset_reach h2.near (by omega) (col := (t1.col + 1) % t1.cols.length) with e | ⟨off, e, h0, h1⟩
    · rw [e]
      exact h2.low
    · rw [e]
      exact key2 _ h2 off h0 h1

theorem finish_snd (v : DataValue) (r : Res Unit × TableData) : (finish v r).2 = r.2 := by
  obtain ⟨r, t⟩ := r
  cases r <;> rfl

theorem nextInHeap_low {c : Nat} {x : HeapState} (h : t.Low L M W) (hx : t.inHeap = some x) (hMW : M ≤ W)
    (hb : L + W + M + M < 2 ^ 62) : (t.nextInHeap .wrapping c x).2.Low L M W := by
  obtain ⟨hm1, hm2⟩ := h.heap x hx
  have hpos := h.pos
  have hbyte := h.byte
  have hL := h.near.data
  unfold nextInHeap
  split
  · split
    · rename_i bs rd hr
      obtain ⟨r1, r2, r3, -⟩ := read_ok hr (elem_pos _).1
      have hnear : ∀ (r : Reader) (o : Option HeapState), r.data = t.rd.data → ({ t with rd := r, inHeap := o } : TableData).Near L M :=
        fun r o e => ⟨by rw [← hL, ← e], h.near.noQ, h.near.offs, h.near.main, h.near.theap⟩
      have hstay : ∀ o : Option HeapState, o = none ∨ (∃ y : HeapState, o = some y ∧ y.mainPos = x.mainPos) →
          o ≠ none → ({ t with rd := rd, inHeap := o } : TableData).Low L M W := by
        intro o ho hne
        refine ⟨hnear rd o r1, ?_, hbyte, fun hn => absurd hn hne, ?_⟩
        · show rd.pos ≤ L + W
          omega
        · intro y hy
          rcases ho with rfl | ⟨z, rfl, hz⟩
          · cases hy
          · cases hy
            rw [hz]
            exact ⟨hm1, hm2⟩
      split
      · rename_i left _
        by_cases hz : left = 0
        · rw [if_pos hz, finish_snd]
          refine seekToNextCol_low ?_ hMW hb
          refine ⟨⟨?_, h.near.noQ, h.near.offs, h.near.main, h.near.theap⟩, hm1, hm2, rfl⟩
          show rd.data.length = L
          rw [r1, hL]
        · rw [if_neg hz]
          exact hstay _ (.inr ⟨_, rfl, rfl⟩) (by simp)
      · refine ⟨⟨?_, h.near.noQ, h.near.offs, h.near.main, h.near.theap⟩, ?_, hbyte, fun hn => ?_, h.heap⟩
        · show rd.data.length = L
          rw [r1, hL]
        · show rd.pos ≤ L + W
          omega
        · rw [show ({ t with rd := rd } : TableData).inHeap = t.inHeap from rfl, hx] at hn
          cases hn
      · refine ⟨⟨?_, h.near.noQ, h.near.offs, h.near.main, h.near.theap⟩, ?_, hbyte, fun hn => ?_, h.heap⟩
        · show rd.data.length = L
          rw [r1, hL]
        · show rd.pos ≤ L + W
          omega
        · rw [show ({ t with rd := rd } : TableData).inHeap = t.inHeap from rfl, hx] at hn
          cases hn
    · rename_i y rd hno hr
      obtain ⟨r1, r2⟩ := read_bad hr hno
      refine ⟨⟨?_, h.near.noQ, h.near.offs, h.near.main, h.near.theap⟩, ?_, hbyte, fun hn => ?_, h.heap⟩
      · show rd.data.length = L
        rw [r1, hL]
      · show rd.pos ≤ L + W
        omega
      · rw [show ({ t with rd := rd } : TableData).inHeap = t.inHeap from rfl, hx] at hn
        cases hn
  · exact h
  · exact h

/-- A read that failed, in the main table. -/
theorem Low.failed {rd : Reader} (h : t.Low L M W) (hn : t.inHeap = none) (h1 : rd.data = t.rd.data)
    (h2 : rd.pos = max t.rd.pos t.rd.data.length) : ({ t with rd := rd } : TableData).Low L M W := by
  have hpos := h.pos
  have hL := h.near.data
  refine ⟨⟨?_, h.near.noQ, h.near.offs, h.near.main, h.near.theap⟩, ?_, h.byte, fun _ => .inr ?_, fun x hx => ?_⟩
  · show rd.data.length = L
    rw [h1, hL]
  · show rd.pos ≤ L + W
    omega
  · show L ≤ rd.pos
    omega
  · rw [show ({ t with rd := rd } : TableData).inHeap = t.inHeap from rfl, hn] at hx
    cases hx

/-- A read that succeeded, in the main table. -/
theorem Low.back {rd : Reader} {n item : Nat} (h : t.Low L M W) (hn : t.inHeap = none) (h1 : rd.data = t.rd.data)
    (h2 : rd.pos = t.rd.pos + n) (h3 : t.rd.pos + n ≤ t.rd.data.length) (h4 : 0 < n) :
    ({ t with rd := rd, byteOffset := t.byteOffset + n, item := item } : TableData).Back L M W := by
  have hpos := h.pos
  have hL := h.near.data
  refine ⟨⟨?_, h.near.noQ, h.near.offs, h.near.main, h.near.theap⟩, ?_, ?_, hn⟩
  · show rd.data.length = L
    rw [h1, hL]
  · show rd.pos ≤ L
    omega
  · show t.byteOffset + n ≤ rd.pos + W
    rcases h.main hn with hx | hx <;> omega

theorem nextPlain_low {c rep : Nat} {ty : ElemTy} (h : t.Low L M W) (hn : t.inHeap = none) (hMW : M ≤ W)
    (hb : L + W + M + M < 2 ^ 62) : (t.nextPlain .wrapping c ty rep).2.Low L M W := by
  unfold nextPlain
  split
  · rename_i bs rd hr
    obtain ⟨r1, r2, r3, -⟩ := read_ok hr (elem_pos _).1
    have hB : ({ t with rd := rd, byteOffset := t.byteOffset + ty.bytes, item := t.item + 1 } : TableData).Back L M W :=
      h.back hn r1 r2 r3 (elem_pos _).1
    dsimp only
    split
    · rw [finish_snd]
      exact seekToNextCol_low hB hMW hb
    · exact hB.low
  · rename_i y rd hno hr
    obtain ⟨r1, r2⟩ := read_bad hr hno
    exact h.failed hn r1 r2

theorem heapOffset_reach {byteOffset theap offset : Nat} (h : byteOffset + theap + offset < 2 ^ 62) :
    ∃ off : Int, heapOffset .wrapping byteOffset theap offset = .ok off ∧ off ≤ theap + offset := by
  unfold heapOffset
  rw [asI64_lt (n := byteOffset) (by omega), asI64_lt (n := theap) (by omega), asI64_lt (n := offset) (by omega),
    i64op_ok (by omega) (by omega)]
  simp only [Res.bind_ok]
  rw [i64op_ok (by omega) (by omega)]
  simp only [Res.bind_ok]
  rw [i64op_ok (by omega) (by omega)]
  exact ⟨_, rfl, by omega⟩

theorem nextArray_low {c : Nat} {ty : ElemTy} {mk : Nat → Nat → DataValue} (h : t.Low L M W) (hn : t.inHeap = none) (hMW : M ≤ W)
    (hb : L + W + M + M < 2 ^ 62) : (t.nextArray .wrapping c ty 4 mk).2.Low L M W := by
  unfold nextArray
  split
  · rename_i bs rd hr
    obtain ⟨r1, r2, r3, r4⟩ := read_ok hr (by decide)
    have hB : ({ t with rd := rd, byteOffset := t.byteOffset + (4 + 4), item := t.item } : TableData).Back L M W :=
      h.back hn r1 r2 r3 (by decide)
    have ho : beNat (bs.drop 4) < 2 ^ 32 := by
      have := beNat_lt (bs.drop 4)
      rw [List.length_drop, r4] at this
      exact this
    dsimp only
    split
    all_goals
      revert hB
      show ({ t with rd := rd, byteOffset := t.byteOffset + (4 + 4) } : TableData).Back L M W → _
      generalize ({ t with rd := rd, byteOffset := t.byteOffset + (4 + 4) } : TableData) = t1
      intro hB
      generalize beNat (bs.drop 4) = offset at ho
      generalize beNat (bs.take 4) = num
      have hp := hB.pos
      have hy := hB.byte
      have hth := hB.near.theap
    · unfold jumpToHeap
      rw [hB.main]
      dsimp only
      obtain ⟨off, e, hoff⟩ := heapOffset_reach (byteOffset := t1.byteOffset) (theap := t1.ctx.theap) (offset := offset) (by omega)
      rw [e]
      dsimp only
      rcases seek_cases off t1.rd with ⟨q, hq, e⟩ | ⟨x, e⟩
      · rw [e]
        dsimp only
        have hu : ∃ l, umul .wrapping num ty.bytes = .ok l := by
          unfold umul
          split
          · exact ⟨_, rfl⟩
          · exact ⟨_, rfl⟩
        obtain ⟨l, hu⟩ := hu
        rw [hu]
        dsimp only
        refine nextInHeap_low ?_ rfl hMW hb
        refine ⟨⟨hB.near.data, hB.near.noQ, hB.near.offs, hB.near.main, hB.near.theap⟩, ?_, ?_, (fun hx => by cases hx), ?_⟩
        · show q ≤ L + W
          omega
        · show t1.byteOffset ≤ L + W + M
          omega
        · intro y hy'
          cases hy'
          exact ⟨hp, hy⟩
      · rw [e]
        exact ⟨⟨hB.near.data, hB.near.noQ, hB.near.offs, hB.near.main, hB.near.theap⟩, hB.low.pos, hB.low.byte,
          fun _ => .inl hB.byte, (fun x hx => by cases hx)⟩
    · rw [finish_snd]
      exact seekToNextCol_low hB hMW hb
  · rename_i y rd hno hr
    obtain ⟨r1, r2⟩ := read_bad hr hno
    exact h.failed hn r1 r2

theorem nextAt_low {c : Nat} (h : t.Low L M W) (hMW : M ≤ W) (hb : L + W + M + M < 2 ^ 62) :
    (t.nextAt .wrapping c).2.Low L M W := by
  unfold nextAt
  cases hx : t.inHeap with
  | some x => exact nextInHeap_low h hx hMW hb
  | none =>
    dsimp only
    split
    · exact h
    · split
      · exact h
      · exact nextPlain_low h hx hMW hb
      · exact nextArray_low h hx hMW hb
      · rename_i hq
        exact absurd (List.mem_of_getElem? hq) (h.near.noQ _)

/-- The state after a step forwards. -/
theorem Low.forward {q b k : Nat} (h : t.Low L M W) (hq : q = t.rd.pos + k) (hb : b = t.byteOffset + k) (hk : k ≤ M) :
    ({ t with rd := { t.rd with pos := q }, byteOffset := b } : TableData).Low L M (W + M) := by
  have hp := h.pos
  have hy := h.byte
  refine ⟨⟨h.near.data, h.near.noQ, h.near.offs, h.near.main, h.near.theap⟩, ?_, ?_, fun hx => ?_, fun x hx => ?_⟩
  · show q ≤ L + (W + M)
    omega
  · show b ≤ L + (W + M) + M
    omega
  · show b ≤ q + (W + M) ∨ L ≤ q
    rcases h.main hx with h' | h'
    · left; omega
    · right; omega
  · obtain ⟨h1, h2⟩ := h.heap x hx
    exact ⟨h1, by show b ≤ x.mainPos + (W + M); omega⟩

theorem unseek_low (h : t.Low L M W) : ({ t with seekFirst := false } : TableData).Low L M W :=
  ⟨⟨h.near.data, h.near.noQ, h.near.offs, h.near.main, h.near.theap⟩, h.pos, h.byte, h.main, h.heap⟩

theorem toFirstCol_low {c : Nat} (h : t.Low L M W) (hb : L + W + M + M < 2 ^ 62) :
    (t.toFirstCol .wrapping c).2.Low L M (W + M) ∧ (t.toFirstCol .wrapping c).2.seekFirst = false := by
  unfold toFirstCol
  by_cases hs : t.seekFirst = true
  · rw [if_pos hs]
    dsimp only
    have h' := unseek_low h
    split
    · exact ⟨h'.mono (by omega), rfl⟩
    · rename_i o ho
      have ho' := h.near.offs o (List.mem_of_getElem? ho)
      have hy := h.byte
      have hoM : o ≤ M := by omega
      rw [asI64_lt (by omega)]
      rcases advance_forward (t := { t with seekFirst := false }) (off := (o : Int)) (by omega) (by
          show (t.byteOffset : Int) + o < 2 ^ 63
          omega) with ⟨q, b, hq, hbb, e⟩ | ⟨e, he⟩
      · rw [e]
        refine ⟨h'.forward (k := o) ?_ ?_ hoM, rfl⟩
        · omega
        · omega
      · rw [he]
        exact ⟨h'.mono (by omega), rfl⟩
  · rw [if_neg hs]
    exact ⟨h.mono (by omega), by simpa using hs⟩

/-- Nothing else changes the flag. -/
theorem toFirstCol_none {c : Nat} (h : t.seekFirst = false) : t.toFirstCol .wrapping c = (none, t) := by
  unfold toFirstCol
  rw [if_neg (by simp [h])]

theorem next_low (h : t.Low L M W) (hMW : M ≤ W) (hb : L + W + M + M + M < 2 ^ 62) : (t.next .wrapping).2.Low L M (W + M) := by
  unfold next
  split
  · exact h.mono (by omega)
  · rename_i c _
    have h1 := (toFirstCol_low (c := c) h (by omega)).1
    split
    · rename_i e
      rw [e] at h1
      exact h1
    · rename_i e
      rw [e] at h1
      exact nextAt_low h1 (by omega) (by omega)

theorem next_low' (h : t.Low L M W) (hs : t.seekFirst = false) (hMW : M ≤ W) (hb : L + W + M + M < 2 ^ 62) :
    (t.next .wrapping).2.Low L M W := by
  unfold next
  split
  · exact h
  · rw [toFirstCol_none hs]
    exact nextAt_low h hMW hb

/-! #### The flag is set by `select_fields` only -/

theorem advance_first (p : Profile) (off : Int) (t : TableData) : (t.advance p off).2.seekFirst = t.seekFirst := by
  unfold advance
  split
  · split <;> rfl
  · rfl
  · rfl

theorem seekToNextCol_first (p : Profile) (t : TableData) : (t.seekToNextCol p).2.seekFirst = t.seekFirst := by
  unfold seekToNextCol
  split
  · unfold seekNext
    have h1 : ∀ b : Bool, (if b then { t with row := t.row + 1 } else t).seekFirst = t.seekFirst := by
      intro b
      cases b <;> rfl
    rename_i lc lr _ _
    have h1 := h1 (t.col == lc)
    generalize (if (t.col == lc) then { t with row := t.row + 1 } else t) = t1 at h1
    dsimp only
    split
    · split
      · rw [advance_first]; exact h1
      · exact h1
      · exact h1
    · split
      · rw [advance_first]; exact h1
      · exact h1
      · exact h1
  · rfl

theorem jumpToMainTable_first (t : TableData) : t.jumpToMainTable.seekFirst = t.seekFirst := by
  unfold jumpToMainTable
  split <;> rfl

theorem jumpToHeap_first (p : Profile) (ty : ElemTy) (o n k : Nat) (t : TableData) :
    (t.jumpToHeap p ty o n k).2.seekFirst = t.seekFirst := by
  unfold jumpToHeap
  split
  · rfl
  split
  · split
    · split <;> rfl
    · rfl
    · rfl
  · rfl
  · rfl

theorem nextInHeap_first (p : Profile) (c : Nat) (h : HeapState) (t : TableData) :
    (t.nextInHeap p c h).2.seekFirst = t.seekFirst := by
  unfold nextInHeap
  split
  · split
    · split
      · dsimp only
        split
        · rw [finish_snd, seekToNextCol_first, jumpToMainTable_first]
        · rfl
      · rfl
      · rfl
    · rfl
  · rfl
  · rfl

theorem nextAt_first (p : Profile) (c : Nat) (t : TableData) : (t.nextAt p c).2.seekFirst = t.seekFirst := by
  have ha : ∀ ty k mk, (t.nextArray p c ty k mk).2.seekFirst = t.seekFirst := by
    intro ty k mk
    unfold nextArray
    split
    · dsimp only
      split
      · split
        all_goals
          rename_i hj
          have hd := congrArg (fun x => x.2.seekFirst) hj
          dsimp only at hd
          rw [jumpToHeap_first] at hd
          dsimp only at hd
        · split
          · rw [nextInHeap_first, ← hd]
          · rw [← hd]
        · rw [← hd]
        · rw [← hd]
      · rw [finish_snd, seekToNextCol_first]
    · rfl
  unfold nextAt
  split
  · exact nextInHeap_first _ _ _ _
  split
  · rfl
  split
  · rfl
  · unfold nextPlain
    split
    · dsimp only
      split
      · rw [finish_snd, seekToNextCol_first]
      · rfl
    · rfl
  · exact ha _ _ _
  · exact ha _ _ _

/-- After a call that does not panic the flag is not set. -/
theorem next_first (h : t.Low L M W) (hb : L + W + M + M < 2 ^ 62) (hp : (t.next .wrapping).1 ≠ .panic) :
    (t.next .wrapping).2.seekFirst = false := by
  unfold next at hp ⊢
  split
  · rename_i hc
    rw [hc] at hp
    exact absurd rfl hp
  · rename_i c _
    have h1 := (toFirstCol_low (c := c) h hb).2
    split
    · rename_i e
      rw [e] at h1
      exact h1
    · rename_i e
      rw [e] at h1
      rw [nextAt_first]
      exact h1

/-- The offset of a row. -/
theorem rowOffset_reach {r n o M : Nat} (h : r * n + o ≤ M) (hM : M < 2 ^ 62) (hn : n < 2 ^ 62) (hr : r < 2 ^ 63 ∨ n = 0) :
    ∃ q : Nat, q ≤ M ∧ (i64op .wrapping (asI64 r * asI64 n) >>= fun a => i64op .wrapping (a + asI64 o)) = .ok (q : Int) := by
  refine ⟨r * n + o, h, ?_⟩
  have e1 : asI64 r * asI64 n = ((r * n : Nat) : Int) := by
    rcases hr with hr | h0
    · rw [asI64_lt hr, asI64_lt (by omega)]
      exact (Int.natCast_mul r n).symm
    · rw [h0, asI64_lt (n := 0) (Nat.two_pow_pos 63), Nat.mul_zero]
      exact Int.mul_zero _
  rw [e1]
  generalize r * n = a at h
  have e1 : i64op .wrapping (a : Int) = .ok (a : Int) := i64op_ok (by omega) (by omega)
  have e2 : i64op .wrapping ((a + o : Nat) : Int) = .ok ((a + o : Nat) : Int) := i64op_ok (by omega) (by omega)
  have e3 : asI64 o = (o : Int) := asI64_lt (by omega)
  rw [e1, Res.bind_ok, e3, ← Int.natCast_add]
  exact e2

theorem seekToRow_low {r : Nat} (h : t.Low L M W) (hMW : M ≤ W)
    (hb : L + W + M + M + M < 2 ^ 62) : (t.seekToRow .wrapping r).2.Low L M (W + M) := by
  unfold seekToRow
  by_cases hr : r ≥ t.ctx.naxis2
  · rw [if_pos hr]
    exact h.mono (by omega)
  rw [if_neg hr]
  dsimp only
  have h' : ({ t with col := 0, row := r, item := 0 } : TableData).Low L M W :=
    ⟨⟨h.near.data, h.near.noQ, h.near.offs, h.near.main, h.near.theap⟩, h.pos, h.byte, h.main, h.heap⟩
  cases ho : t.cols[0]?.bind (t.offsets[·]?) with
  | none => exact h'.mono (by omega)
  | some o =>
    dsimp only
    obtain ⟨c, -, hc⟩ := Option.bind_eq_some_iff.1 ho
    have ho' := h.near.offs o (List.mem_of_getElem? hc)
    have hy := h.byte
    have hpos := h.pos
    have hprod : r * t.ctx.naxis1 + t.ctx.naxis1 ≤ t.ctx.naxis1 * (t.ctx.naxis2 + 1) := by
      have := Nat.mul_le_mul_right t.ctx.naxis1 (show r + 1 ≤ t.ctx.naxis2 + 1 by omega)
      rw [Nat.add_mul, Nat.one_mul] at this
      rw [Nat.mul_comm t.ctx.naxis1]
      exact this
    generalize t.ctx.naxis1 * (t.ctx.naxis2 + 1) = k at ho' hprod
    have hr62 : r < 2 ^ 63 ∨ t.ctx.naxis1 = 0 := by
      by_cases h0 : t.ctx.naxis1 = 0
      · exact .inr h0
      · left
        have : r * 1 ≤ r * t.ctx.naxis1 := Nat.mul_le_mul_left r (by omega)
        omega
    have hnew := rowOffset_reach (o := o) (M := M) (r := r) (n := t.ctx.naxis1) (by omega) (by omega) (by omega) hr62
    obtain ⟨q, hq, e⟩ := hnew
    rw [e]
    dsimp only
    rw [asI64_lt (n := t.byteOffset) (by omega), i64op_ok (by omega) (by omega)]
    simp only [Res.bind_ok]
    rw [i64op_ok (by omega) (by omega)]
    dsimp only
    rcases seek_cases (-(t.byteOffset : Int) + q) t.rd with ⟨z, hz, e⟩ | ⟨x, e⟩
    · rw [e]
      dsimp only
      rw [asU64_nat (by omega)]
      refine ⟨⟨h.near.data, h.near.noQ, h.near.offs, h.near.main, h.near.theap⟩, ?_, ?_, fun hx => .inl ?_, fun x hx => ?_⟩
      · show z ≤ L + (W + M)
        omega
      · show q ≤ L + (W + M) + M
        omega
      · show q ≤ z + (W + M)
        omega
      · exact ⟨(h.heap x hx).1, by show q ≤ x.mainPos + (W + M); omega⟩
    · rw [e]
      exact h'.mono (by omega)

theorem selectFields_low {cs : List ColumnId} (h : t.Low L M W) : (t.selectFields cs).Low L M W :=
  ⟨⟨h.near.data, h.near.noQ, h.near.offs, h.near.main, h.near.theap⟩, h.pos, h.byte, h.main, h.heap⟩

end TableData

namespace TableRows
open TableData

theorem collect_low {L M W fuel row : Nat} {t u : TableData} {acc : List DataValue} {r : Res (Option (List DataValue))}
    (h : t.Low L M W) (hs : t.seekFirst = false) (hMW : M ≤ W) (hb : L + W + M + M < 2 ^ 62)
    (hc : collect .wrapping fuel row t acc = some (r, u)) : u.Low L M W := by
  induction fuel generalizing t acc with
  | zero => cases hc
  | succ n ih =>
    unfold collect at hc
    have h1 := next_low' h hs hMW hb
    have h2 := next_first h hb
    split at hc
    · split at hc
      all_goals
        rename_i e
        rw [e] at h1 h2
      · exact ih h1 (h2 (fun h => by cases h)) hc
      · cases hc; exact h1
      · cases hc; exact h1
      · cases hc; exact h1
    · cases hc; exact h

theorem collect_low_first {L M W fuel row : Nat} {t u : TableData} {acc : List DataValue} {r : Res (Option (List DataValue))}
    (h : t.Low L M W) (hMW : M ≤ W) (hb : L + W + M + M + M < 2 ^ 62)
    (hc : collect .wrapping fuel row t acc = some (r, u)) : u.Low L M (W + M) := by
  cases fuel with
  | zero => cases hc
  | succ n =>
    unfold collect at hc
    have h1 := next_low h hMW hb
    have h2 := next_first h (by omega)
    split at hc
    · split at hc
      all_goals
        rename_i e
        rw [e] at h1 h2
      · exact collect_low h1 (h2 (fun h => by cases h)) (by omega) (by omega) hc
      · cases hc; exact h1
      · cases hc; exact h1
      · cases hc; exact h1
    · cases hc; exact h.mono (by omega)

theorem next_low {L M W fuel : Nat} {x y : TableRows} {r : Res (Option (List DataValue))}
    (h : x.data.Low L M W) (hMW : M ≤ W) (hb : L + W + M + M + M < 2 ^ 62)
    (hc : x.next .wrapping fuel = some (r, y)) : y.data.Low L M (W + M) := by
  unfold TableRows.next at hc
  split at hc
  · cases hc
  · rename_i e
    cases hc
    exact collect_low_first h hMW hb e
  · rename_i e
    cases hc
    exact collect_low_first h hMW hb e

end TableRows

/-- The pixels of an image: the reader is at most `W` bytes after the end of the data, and the pixels have at most `M` bytes. -/
structure It.Low (L M W : Nat) (i : It) : Prop where
  data : i.rd.data.length = L
  pos : i.rd.pos ≤ L + W
  cur : i.cur ≤ i.numItems
  size : i.numItems * i.ty.byteSize ≤ M

theorem It.next_low {L M W : Nat} {i : It} (h : i.Low L M W) : i.next.2.Low L M W := by
  have hp := h.pos
  have hL := h.data
  unfold It.next
  split
  · exact h
  · rename_i hne
    have hcur := h.cur
    have h0 := readExact_pos i.ty.byteSize i.rd
    have hd := Reader.readExact_keeps (r := i.rd) (n := i.ty.byteSize)
    split
    all_goals
      rename_i e
      rw [e] at h0 hd
      dsimp only at h0 hd
      refine ⟨?_, ?_, ?_, h.size⟩
      · show List.length _ = L
        rw [hd, hL]
      · dsimp only
        omega
      · dsimp only
        omega

theorem It.readValue_low {L M W k : Nat} {i : It} (h : i.Low L M W) (hb : L + W + M + M < 2 ^ 62) :
    (i.readValue .wrapping k).2.Low L M (W + M) := by
  have hmono : ∀ j : It, j.Low L M W → j.Low L M (W + M) := fun j h => ⟨h.data, by have := h.pos; omega, h.cur, h.size⟩
  unfold It.readValue
  by_cases hk : k ≥ i.numItems
  · rw [if_pos hk]
    exact hmono _ h
  rw [if_neg hk]
  have hcur := h.cur
  have hsz := h.size
  have hbp : 1 ≤ i.ty.byteSize := by cases i.ty <;> decide
  have hn : i.numItems ≤ M := by
    have := Nat.mul_le_mul_left i.numItems hbp
    omega
  have h1 : k * i.ty.byteSize ≤ i.numItems * i.ty.byteSize := Nat.mul_le_mul_right _ (by omega)
  have h2 : i.cur * i.ty.byteSize ≤ i.numItems * i.ty.byteSize := Nat.mul_le_mul_right _ hcur
  have e : i.readOffset .wrapping k = .ok ((k * i.ty.byteSize : Nat) - (i.cur * i.ty.byteSize : Nat) : Int) := by
    unfold It.readOffset
    have e1 : ((k : Int) - i.cur) * i.ty.byteSize = (k * i.ty.byteSize : Nat) - (i.cur * i.ty.byteSize : Nat) := by
      push_cast
      exact Int.sub_mul _ _ _
    rw [asI64_lt (by omega), asI64_lt (by omega), i64op_ok (by omega) (by omega)]
    simp only [Res.bind_ok]
    rw [e1, i64op_ok (by omega) (by omega)]
  rw [e]
  dsimp only
  have hp := h.pos
  unfold It.readAt
  rcases seek_cases ((k * i.ty.byteSize : Nat) - (i.cur * i.ty.byteSize : Nat) : Int) i.rd with ⟨q, hq, e⟩ | ⟨x, e⟩
  · rw [e]
    dsimp only
    have hn := It.next_low (i := { i with rd := { i.rd with pos := q }, cur := k }) (L := L) (M := M) (W := W + M)
      ⟨h.data, by show q ≤ L + (W + M); omega, by show k ≤ i.numItems; omega, h.size⟩
    split <;> rename_i e <;> rw [e] at hn <;> exact hn
  · rw [e]
    exact hmono _ ⟨h.data, h.pos, h.cur, h.size⟩

theorem ByteStream.next_low {L W : Nat} {b : ByteStream} (h : b.rd.data.length = L ∧ b.rd.pos ≤ L + W) :
    b.next.2.rd.data.length = L ∧ b.next.2.rd.pos ≤ L + W := by
  obtain ⟨h1, h2⟩ := h
  unfold ByteStream.next
  split
  · exact ⟨h1, h2⟩
  · split
    · exact ⟨h1, h2⟩
    · rename_i x xs hf
      have hl := congrArg List.length hf
      unfold ByteStream.fill at hl
      rw [List.length_take, List.length_drop, List.length_cons] at hl
      refine ⟨h1, ?_⟩
      dsimp only
      omega

end Fitsrs

import Verif.Spec.Table
/-
Iterating over the values of a table comes to an end: what a call that gives a value changes.
-/

namespace Fitsrs

theorem ElemTy.bytes_one_le (ty : ElemTy) : 1 ≤ ty.bytes := by cases ty <;> decide

/-- A read that succeeds. -/
theorem Reader.readExact_moves {n : Nat} {r r' : Reader} {bs : List UInt8} (hn : 1 ≤ n) (h : r.readExact n = (.ok bs, r')) :
    r'.data = r.data ∧ r.pos < r'.pos ∧ r'.pos ≤ r.data.length := by
  unfold Reader.readExact at h
  dsimp only at h
  split at h
  · rename_i hl
    cases h
    rw [List.length_take, List.length_drop] at hl
    refine ⟨rfl, ?_, ?_⟩ <;> dsimp only <;> omega
  · cases h

namespace TableData

/-- What does not change. -/
structure Keeps (t t' : TableData) : Prop where
  data : t'.rd.data = t.rd.data
  cols : t'.cols = t.cols
  ctx : t'.ctx = t.ctx
  main : t'.mainSize = t.mainSize
  first : t'.seekFirst = t.seekFirst

theorem Keeps.trans {t u v : TableData} (h : t.Keeps u) (g : u.Keeps v) : t.Keeps v :=
  ⟨g.data.trans h.data, g.cols.trans h.cols, g.ctx.trans h.ctx, g.main.trans h.main, g.first.trans h.first⟩

theorem advance_keeps {p : Profile} {off : Int} {t t' : TableData} (h : t.advance p off = (.ok (), t')) :
    t.Keeps t' ∧ t'.row = t.row ∧ t'.col = t.col ∧ t'.inHeap = t.inHeap ∧ uadd p t.byteOffset (asU64 off) = .ok t'.byteOffset := by
  unfold advance at h
  unfold Reader.seekRelative at h
  dsimp only at h
  by_cases hq : 0 ≤ (t.rd.pos : Int) + off ∧ (t.rd.pos : Int) + off < two64
  · rw [if_pos hq] at h
    dsimp only at h
    cases hu : uadd p t.byteOffset (asU64 off) with
    | ok b => rw [hu] at h; cases h; exact ⟨⟨rfl, rfl, rfl, rfl, rfl⟩, rfl, rfl, rfl, rfl⟩
    | err e => rw [hu] at h; cases h
    | panic => rw [hu] at h; cases h
  · rw [if_neg hq] at h
    cases h

theorem i64op_mod {p : Profile} {x y : Int} (h : i64op p x = .ok y) : y % 2 ^ 64 = x % 2 ^ 64 := by
  unfold i64op at h
  split at h
  · cases h; rfl
  · cases p
    · cases h
    · cases h
      unfold toSigned
      split <;> omega

/-- The move to the end of the main table arrives there. -/
theorem arrives {p : Profile} {m b c : Nat} {off : Int} (hm : m < 2 ^ 64) (ho : i64op p (asI64 m - asI64 b) = .ok off)
    (hu : uadd p b (asU64 off) = .ok c) : c = m := by
  have h1 := i64op_mod ho
  have h2 : (asI64 m - asI64 b) % 2 ^ 64 = ((m : Int) - b) % 2 ^ 64 := by
    unfold asI64 two64
    split <;> split <;> omega
  rw [h2] at h1
  unfold asU64 at hu
  unfold uadd two64 at hu
  split at hu
  · cases hu; omega
  · cases p
    · cases hu
    · cases hu; omega

/-- After the last value of a cell. -/
theorem seekToNextCol_moves {p : Profile} {t t' : TableData} (h : t.seekToNextCol p = (.ok (), t')) (hr : t.row < t.ctx.naxis2)
    (hc : t.col < t.cols.length) (hm : t.mainSize < 2 ^ 64) :
    t.Keeps t' ∧ t'.inHeap = t.inHeap ∧
      ((t'.row = t.row ∧ t.col < t'.col ∧ t'.col < t.cols.length) ∨
       (t.row < t'.row ∧ t'.row < t.ctx.naxis2 ∧ t'.col < t.cols.length) ∨
       (t'.byteOffset = t.mainSize ∧ t.row ≤ t'.row)) := by
  unfold seekToNextCol usub at h
  rw [if_pos (by omega), if_pos (by omega)] at h
  dsimp only at h
  unfold seekNext at h
  dsimp only at h
  by_cases hlc : t.col = t.cols.length - 1
  · rw [beq_iff_eq.2 hlc] at h
    by_cases hlr : t.row = t.ctx.naxis2 - 1
    · rw [beq_iff_eq.2 hlr] at h
      simp only [if_true, Bool.and_self] at h
      cases ho : i64op p (asI64 t.mainSize - asI64 t.byteOffset) with
      | ok off =>
        rw [ho] at h
        obtain ⟨h1, h2, h3, h4, h5⟩ := advance_keeps h
        refine ⟨⟨h1.data, h1.cols, h1.ctx, h1.main, h1.first⟩, h4, .inr (.inr ⟨arrives hm ho h5, ?_⟩)⟩
        rw [h2]
        exact Nat.le_succ _
      | err e => rw [ho] at h; cases h
      | panic => rw [ho] at h; cases h
    · rw [beq_eq_false_iff_ne.2 hlr] at h
      simp only [if_true, Bool.and_false, Bool.false_eq_true, if_false] at h
      split at h
      · obtain ⟨h1, h2, h3, h4, -⟩ := advance_keeps h
        refine ⟨⟨h1.data, h1.cols, h1.ctx, h1.main, h1.first⟩, h4, .inr (.inl ⟨?_, ?_, ?_⟩)⟩
        · rw [h2]; exact Nat.lt_succ_self _
        · rw [h2]; show t.row + 1 < _; omega
        · rw [h3]; exact Nat.mod_lt _ (by omega)
      · cases h
      · cases h
  · rw [beq_eq_false_iff_ne.2 hlc] at h
    simp only [Bool.false_and, Bool.false_eq_true, if_false] at h
    split at h
    · obtain ⟨h1, h2, h3, h4, -⟩ := advance_keeps h
      have hmod : (t.col + 1) % t.cols.length = t.col + 1 := Nat.mod_eq_of_lt (by omega)
      refine ⟨⟨h1.data, h1.cols, h1.ctx, h1.main, h1.first⟩, h4, .inl ⟨h2, ?_, ?_⟩⟩
      · rw [h3]; show t.col < (t.col + 1) % _; omega
      · rw [h3]; exact Nat.mod_lt _ (by omega)
    · cases h
    · cases h

/-- What a call that gives a value has changed. -/
def Moves (t t' : TableData) : Prop :=
  t.Keeps t' ∧
    ((t'.row = t.row ∧ t'.col = t.col ∧ t.rd.pos < t'.rd.pos ∧ t'.rd.pos ≤ t.rd.data.length ∧ t'.inHeap.isSome = t.inHeap.isSome) ∨
     (t'.row = t.row ∧ t'.col = t.col ∧ t.inHeap = none ∧ t'.inHeap.isSome) ∨
     (t'.row = t.row ∧ t.col < t'.col ∧ t'.col < t.cols.length) ∨
     (t.row < t'.row ∧ t'.row < t.ctx.naxis2 ∧ t'.col < t.cols.length) ∨
     (t'.byteOffset = t.mainSize ∧ t'.inHeap = none ∧ t.row ≤ t'.row))

theorem finish_some {v w : DataValue} {r : Res Unit × TableData} {t' : TableData} (h : finish v r = (.ok (some w), t')) :
    r = (.ok (), t') := by
  unfold finish at h
  split at h <;> cases h
  rfl

theorem nextInHeap_moves {p : Profile} {c : Nat} {hs : HeapState} {t t' : TableData} {v : DataValue} (hh : t.inHeap = some hs)
    (hr : t.row < t.ctx.naxis2) (hc : t.col < t.cols.length) (hm : t.mainSize < 2 ^ 64)
    (h : t.nextInHeap p c hs = (.ok (some v), t')) : t.Moves t' := by
  unfold nextInHeap at h
  split at h
  · split at h
    · rename_i bs rd hrd
      obtain ⟨h1, h2, h3⟩ := Reader.readExact_moves (ElemTy.bytes_one_le _) hrd
      split at h
      · rename_i left _
        dsimp only at h
        split at h
        · have := finish_some h
          obtain ⟨g1, g2, g3⟩ := seekToNextCol_moves this hr hc hm
          refine ⟨⟨g1.data.trans h1, g1.cols, g1.ctx, g1.main, g1.first⟩, ?_⟩
          rcases g3 with g3 | g3 | g3
          · exact .inr (.inr (.inl g3))
          · exact .inr (.inr (.inr (.inl g3)))
          · exact .inr (.inr (.inr (.inr ⟨g3.1, g2, g3.2⟩)))
        · cases h
          exact ⟨⟨h1, rfl, rfl, rfl, rfl⟩, .inl ⟨rfl, rfl, h2, h3, by rw [hh]; rfl⟩⟩
      · cases h
      · cases h
    · cases h
  · cases h
  · cases h

theorem nextPlain_moves {p : Profile} {c rep : Nat} {ty : ElemTy} {t t' : TableData} {v : DataValue} (hh : t.inHeap = none)
    (hr : t.row < t.ctx.naxis2) (hc : t.col < t.cols.length) (hm : t.mainSize < 2 ^ 64)
    (h : t.nextPlain p c ty rep = (.ok (some v), t')) : t.Moves t' := by
  unfold nextPlain at h
  split at h
  · rename_i bs rd hrd
    obtain ⟨h1, h2, h3⟩ := Reader.readExact_moves (ElemTy.bytes_one_le _) hrd
    dsimp only at h
    split at h
    · have := finish_some h
      obtain ⟨g1, g2, g3⟩ := seekToNextCol_moves this hr hc hm
      refine ⟨⟨g1.data.trans h1, g1.cols, g1.ctx, g1.main, g1.first⟩, ?_⟩
      rcases g3 with g3 | g3 | g3
      · exact .inr (.inr (.inl g3))
      · exact .inr (.inr (.inr (.inl g3)))
      · exact .inr (.inr (.inr (.inr ⟨g3.1, g2.trans hh, g3.2⟩)))
    · cases h
      exact ⟨⟨h1, rfl, rfl, rfl, rfl⟩, .inl ⟨rfl, rfl, h2, h3, rfl⟩⟩
  · cases h

theorem nextArray_moves {p : Profile} {c k : Nat} {ty : ElemTy} {mk : Nat → Nat → DataValue} {t t' : TableData} {v : DataValue}
    (hk : 1 ≤ k) (hh : t.inHeap = none)
    (hr : t.row < t.ctx.naxis2) (hc : t.col < t.cols.length) (hm : t.mainSize < 2 ^ 64)
    (h : t.nextArray p c ty k mk = (.ok (some v), t')) : t.Moves t' := by
  unfold nextArray at h
  split at h
  · rename_i bs rd hrd
    obtain ⟨h1, h2, h3⟩ := Reader.readExact_moves (by omega) hrd
    dsimp only at h
    split at h
    · split at h
      · rename_i t1 hj
        have hk1 : t.Keeps t1 ∧ t1.row = t.row ∧ t1.col = t.col := by
          unfold jumpToHeap at hj
          rw [hh] at hj
          dsimp only at hj
          split at hj
          · unfold Reader.seekRelative at hj
            dsimp only at hj
            rename_i off _
            by_cases hq : 0 ≤ (rd.pos : Int) + off ∧ (rd.pos : Int) + off < two64
            · rw [if_pos hq] at hj
              dsimp only at hj
              split at hj
              · cases hj; exact ⟨⟨h1, rfl, rfl, rfl, rfl⟩, rfl, rfl⟩
              · cases hj
              · cases hj
            · rw [if_neg hq] at hj; cases hj
          · cases hj
          · cases hj
        obtain ⟨hk1, hk2, hk3⟩ := hk1
        split at h
        · rename_i hs hin
          obtain ⟨g1, g2⟩ := nextInHeap_moves hin (by rw [hk1.ctx, hk2]; exact hr) (by rw [hk1.cols, hk3]; exact hc)
            (by rw [hk1.main]; exact hm) h
          refine ⟨hk1.trans g1, ?_⟩
          rw [hk1.cols, hk1.ctx, hk1.main, hk2, hk3, hin] at g2
          rcases g2 with g | g | g | g | g
          · exact .inr (.inl ⟨g.1, g.2.1, hh, by rw [g.2.2.2.2]; rfl⟩)
          · cases g.2.2.1
          · exact .inr (.inr (.inl g))
          · exact .inr (.inr (.inr (.inl g)))
          · exact .inr (.inr (.inr (.inr g)))
        · cases h
      · cases h
      · cases h
    · have := finish_some h
      obtain ⟨g1, g2, g3⟩ := seekToNextCol_moves this hr hc hm
      refine ⟨⟨g1.data.trans h1, g1.cols, g1.ctx, g1.main, g1.first⟩, ?_⟩
      rcases g3 with g3 | g3 | g3
      · exact .inr (.inr (.inl g3))
      · exact .inr (.inr (.inr (.inl g3)))
      · exact .inr (.inr (.inr (.inr ⟨g3.1, g2.trans hh, g3.2⟩)))
  · cases h

theorem nextAt_moves {p : Profile} {c : Nat} {t t' : TableData} {v : DataValue}
    (hr : t.row < t.ctx.naxis2) (hc : t.col < t.cols.length) (hm : t.mainSize < 2 ^ 64)
    (h : t.nextAt p c = (.ok (some v), t')) : t.Moves t' := by
  unfold nextAt at h
  split at h
  · rename_i hs hh
    exact nextInHeap_moves hh hr hc hm h
  · rename_i hh
    split at h
    · cases h
    · split at h
      · cases h
      · exact nextPlain_moves hh hr hc hm h
      · exact nextArray_moves (by omega) hh hr hc hm h
      · exact nextArray_moves (by omega) hh hr hc hm h

end TableData
end Fitsrs

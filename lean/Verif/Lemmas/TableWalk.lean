import Verif.Lemmas.TablePlain
import Verif.Spec.TableWalk
/-
Scanning plain columns, in any order and any number of times: which bytes are read.
-/

namespace Fitsrs
open Spec TableData

/-- What is assumed of the table. -/
structure Tab.Walks (T : Tab) : Prop where
  width : T.x.naxis1 = total (T.x.tforms.map colBytes)
  small : T.x.naxis1 < 2 ^ 60
  file : T.data.length < 2 ^ 60
  size : T.start + T.x.naxis1 * T.x.naxis2 < 2 ^ 60
  plain : PlainIn T.x T.cols
  offsets : ∀ c < T.x.tforms.length, T.offsets[c]? = some (colStart T.x.tforms c)

theorem form_lt {x : BinTable} {c : Nat} {f : TForm} (h : x.tforms[c]? = some f) : c < x.tforms.length := by
  rcases Nat.lt_or_ge c x.tforms.length with h' | h'
  · exact h'
  · rw [List.getElem?_eq_none h'] at h; cases h

theorem land_le {w b o : Nat} (hw : 0 < w) : land w b o < b + w := by
  unfold land
  have := Nat.mod_lt (o + w - b % w) hw
  omega

/-- The start of a plain column is before the end of the row. -/
theorem Tab.Walks.start_lt {T : Tab} (hT : T.Walks) {c : Nat} {ty : ElemTy} {rep : Nat}
    (hf : T.x.tforms[c]? = some (.plain ty rep)) (hrep : 0 < rep) : colStart T.x.tforms c < T.x.naxis1 := by
  have := colStart_le hf
  rw [← hT.width, colBytes_plain] at this
  have := Nat.mul_pos (count_pos (ty := ty) hrep) (elemBytes_pos ty)
  omega

/-- The relative offset to a column. -/
theorem nextOffset_land {T : Tab} (hT : T.Walks) {r k i bo c : Nat} (hk : T.cols[k]? = some c)
    (hc : c < T.x.tforms.length) (hbo : bo < 2 ^ 62) (hs : colStart T.x.tforms c < T.x.naxis1) :
    ∃ off : Nat, (T.main r k i bo).nextOffset T.p k = .ok (off : Int) ∧ off < T.x.naxis1 ∧
      bo + off = land T.x.naxis1 bo (colStart T.x.tforms c) := by
  have hsm := hT.small
  have hm : bo % T.x.naxis1 < T.x.naxis1 := Nat.mod_lt _ (by omega)
  have ho := hT.offsets c hc
  unfold land
  generalize colStart T.x.tforms c = s at *
  unfold TableData.nextOffset
  rw [show (T.main r k i bo).cols[k]? = some c from hk]
  dsimp only
  rw [show (T.main r k i bo).offsets[c]? = some s from ho]
  dsimp only
  rw [if_neg (show ¬ (T.main r k i bo).ctx.naxis1 = 0 from by show ¬ T.x.naxis1 = 0; omega)]
  dsimp only [Tab.main]
  rw [asI64_lt (n := s) (by omega), asI64_lt (n := bo) (by omega), asI64_lt (n := T.x.naxis1) (by omega),
    ← Int.ofNat_tmod]
  rw [i64op_ok (by omega) (by omega)]
  simp only [Res.bind_ok]
  generalize hB : bo % T.x.naxis1 = B at *
  by_cases hle : B ≤ s
  · rw [if_neg (by omega)]
    refine ⟨s - B, by congr 1; omega, by omega, ?_⟩
    rw [show s + T.x.naxis1 - B = (s - B) + T.x.naxis1 by omega, Nat.add_mod_right, Nat.mod_eq_of_lt (by omega)]
  · rw [if_pos (by omega), i64op_ok (by omega) (by omega)]
    refine ⟨s + T.x.naxis1 - B, by congr 1; omega, by omega, ?_⟩
    rw [Nat.mod_eq_of_lt (by omega)]

/-- Going to the next column of the same row. -/
theorem walk_col {T : Tab} (hT : T.Walks) {r k it bo c : Nat} {ty : ElemTy} {rep : Nat} (hk : T.cols[k + 1]? = some c)
    (hf : T.x.tforms[c]? = some (.plain ty rep)) (hrep : 0 < rep) (hr : r < T.x.naxis2)
    (hb : T.start + bo < 2 ^ 61) : (T.main r k it bo).seekToNextCol T.p =
      (.ok (), T.main r (k + 1) 0 (land T.x.naxis1 bo (colStart T.x.tforms c))) := by
  have hkl : k + 1 < T.cols.length := (List.getElem?_eq_some_iff.1 hk).1
  have hsm := hT.small
  have hs := hT.start_lt hf hrep
  rw [seek_split (by omega) (by omega), show (k == T.cols.length - 1) = false by simp; omega]
  obtain ⟨off, v1, v2, v3⟩ := nextOffset_land (r := r) (i := 0) (bo := bo) hT hk (form_lt hf) (by omega) hs
  rw [seekNext_same _ (T.main r k it _) (c := k + 1)
    (by show (k + 1) % T.cols.length = k + 1; exact Nat.mod_eq_of_lt hkl) v1]
  refine (advance_main (T := T) (r := r) (k := k + 1) (i := 0) (by omega)).trans ?_
  rw [v3]

/-- Going to the next row. -/
theorem walk_row {T : Tab} (hT : T.Walks) {r k it bo c : Nat} {ty : ElemTy} {rep : Nat} (hk : T.cols[0]? = some c)
    (hf : T.x.tforms[c]? = some (.plain ty rep)) (hrep : 0 < rep) (hlast : k + 1 = T.cols.length)
    (hr : r + 1 < T.x.naxis2) (hb : T.start + bo < 2 ^ 61) : (T.main r k it bo).seekToNextCol T.p =
      (.ok (), T.main (r + 1) 0 0 (land T.x.naxis1 bo (colStart T.x.tforms c))) := by
  have hsm := hT.small
  have hs := hT.start_lt hf hrep
  rw [seek_split (by omega) (by omega), show (k == T.cols.length - 1) = true by simp; omega,
    show (r == T.x.naxis2 - 1) = false by simp; omega]
  obtain ⟨off, v1, v2, v3⟩ := nextOffset_land (r := r + 1) (i := 0) (bo := bo) hT hk (form_lt hf) (by omega) hs
  rw [seekNext_row (T.main r k it _) (c := 0)
    (by show (k + 1) % T.cols.length = 0; rw [hlast, Nat.mod_self]) v1]
  refine (advance_main (T := T) (r := r + 1) (k := 0) (i := 0) (by omega)).trans ?_
  rw [v3]

/-- Leaving the last cell. -/
theorem walk_last {T : Tab} (hT : T.Walks) {r k it bo : Nat} (hlast : k + 1 = T.cols.length) (hr : r + 1 = T.x.naxis2)
    (hb : T.start + bo < 2 ^ 61) :
    (T.p = .wrapping ∨ bo ≤ T.x.naxis1 * T.x.naxis2 → (T.main r k it bo).seekToNextCol T.p =
        (.ok (), T.main T.x.naxis2 k it (T.x.naxis1 * T.x.naxis2))) ∧
    (T.p = .checked → T.x.naxis1 * T.x.naxis2 < bo → ((T.main r k it bo).seekToNextCol T.p).1 = .panic) := by
  rw [seek_split (by omega) (by omega), show (k == T.cols.length - 1) = true by simp; omega,
    show (r == T.x.naxis2 - 1) = true by simp; omega]
  have hsz := hT.size
  generalize hm : T.x.naxis1 * T.x.naxis2 = m at *
  have hop : i64op T.p (asI64 (T.main r k it bo).mainSize - asI64 (T.main r k it bo).byteOffset) =
      .ok ((m : Int) - (bo : Int)) := by
    show i64op T.p (asI64 (T.x.naxis1 * T.x.naxis2) - asI64 bo) = _
    rw [hm, asI64_lt (by omega), asI64_lt (by omega), i64op_ok (by omega) (by omega)]
  have hnext : (T.main r k it bo).seekNext T.p true true = (T.main (r + 1) k it bo).advance T.p ((m : Int) - (bo : Int)) := by
    unfold TableData.seekNext
    simp only [Bool.and_true, if_true]
    rw [show i64op T.p (asI64 ({ T.main r k it bo with row := (T.main r k it bo).row + 1 } : TableData).mainSize -
      asI64 ({ T.main r k it bo with row := (T.main r k it bo).row + 1 } : TableData).byteOffset) = _ from hop]
    rfl
  have hseek : (T.main (r + 1) k it bo).rd.seekRelative ((m : Int) - (bo : Int)) =
      (.ok (), ⟨T.data, T.start + m⟩) :=
    seekRelative_nat (T.start + m) (by show ((T.start + bo : Nat) : Int) + _ = _; omega) (by unfold two64; omega)
  rw [hnext, hr]
  rw [hr] at hseek
  have hadv : (T.main T.x.naxis2 k it bo).advance T.p ((m : Int) - (bo : Int)) =
      match uadd T.p bo (asU64 ((m : Int) - (bo : Int))) with
      | .ok b => (.ok (), { T.main T.x.naxis2 k it bo with rd := ⟨T.data, T.start + m⟩, byteOffset := b })
      | .err e => (.err e, { T.main T.x.naxis2 k it bo with rd := ⟨T.data, T.start + m⟩ })
      | .panic => (.panic, { T.main T.x.naxis2 k it bo with rd := ⟨T.data, T.start + m⟩ }) := by
    unfold TableData.advance
    rw [hseek]
    rfl
  rw [hadv]
  by_cases hle : bo ≤ m
  · refine ⟨fun _ => ?_, fun _ h => by omega⟩
    rw [show ((m : Int) - (bo : Int)) = ((m - bo : Nat) : Int) by omega, asU64_nat (by omega),
      uadd_ok (by unfold two64; omega), show bo + (m - bo) = m by omega]
    unfold Tab.main
    rw [hm]
  · have hneg : asU64 ((m : Int) - (bo : Int)) = 2 ^ 64 - (bo - m) := by
      unfold asU64
      omega
    rw [hneg]
    unfold uadd
    rw [if_neg (by unfold two64; omega)]
    refine ⟨fun h => ?_, fun h _ => by rw [h]⟩
    have h : T.p = .wrapping := h.resolve_right (by omega)
    rw [h]
    dsimp only
    rw [show (bo + (2 ^ 64 - (bo - m))) % two64 = m by unfold two64; omega]
    unfold Tab.main
    rw [hm]

/-! ### The scan -/

/-- What is said of a scan that has the values `vs` to read, the last one of which ends at byte `e`. -/
def Tab.ScansTo (T : Tab) (e : Nat) (vs : List Visit) (t : TableData) : Prop :=
  (vs.all (legible T.x T.unit) = false ∨ T.p = .wrapping ∨ e ≤ T.x.naxis1 * T.x.naxis2 →
      ∀ n, t.run T.p n = scan ((vs.takeWhile (legible T.x T.unit)).map (Visit.value T.unit)) n) ∧
    (vs.all (legible T.x T.unit) = true → T.p = .checked → T.x.naxis1 * T.x.naxis2 < e →
      t.run T.p vs.length = vs.dropLast.map (fun v => .ok (some (v.value T.unit))) ++ [.panic])

theorem Tab.ScansTo.cons {T : Tab} {e : Nat} {v : Visit} {vs : List Visit} {t t' : TableData}
    (hv : legible T.x T.unit v = true)
    (h : t.next T.p = (.ok (some (v.value T.unit)), t')) (hne : vs ≠ []) (hs : T.ScansTo e vs t') :
    T.ScansTo e (v :: vs) t := by
  unfold Tab.ScansTo at *
  rw [List.all_cons, hv, Bool.true_and, List.takeWhile_cons_of_pos hv, List.dropLast_cons_of_ne_nil hne]
  refine ⟨fun h1 n => ?_, fun h1 h2 h3 => ?_⟩
  · cases n with
    | zero => simp [run, scan]
    | succ n =>
      rw [run, h]
      dsimp only
      rw [hs.1 h1]
      simp [scan]
  · rw [List.length_cons, run, h]
    dsimp only
    rw [hs.2 h1 h2 h3]
    rfl

theorem cellReads_plain {x : BinTable} {c s : Nat} {ty : ElemTy} {rep : Nat} (hf : x.tforms[c]? = some (.plain ty rep)) :
    cellReads x c s = (List.range (itemsRead (.plain ty rep))).map fun i => ⟨c, i, ty, s + i * elemBytes ty⟩ := by
  unfold cellReads
  rw [hf]

theorem bytesRead_plain {x : BinTable} {c : Nat} {ty : ElemTy} {rep : Nat} (hf : x.tforms[c]? = some (.plain ty rep)) :
    bytesRead x c = itemsRead (.plain ty rep) * elemBytes ty := by
  unfold bytesRead
  rw [hf]

theorem cellReads_drop {x : BinTable} {c s i : Nat} {ty : ElemTy} {rep : Nat} (hf : x.tforms[c]? = some (.plain ty rep))
    (hi : i < itemsRead (.plain ty rep)) :
    (cellReads x c s).drop i = ⟨c, i, ty, s + i * elemBytes ty⟩ :: (cellReads x c s).drop (i + 1) := by
  rw [cellReads_plain hf, List.drop_eq_getElem_cons (by simpa using hi)]
  simp

theorem cellReads_end {x : BinTable} {c s i : Nat} {ty : ElemTy} {rep : Nat} (hf : x.tforms[c]? = some (.plain ty rep))
    (hi : i = itemsRead (.plain ty rep)) : (cellReads x c s).drop i = [] := by
  rw [cellReads_plain hf, List.drop_eq_nil_of_le (by simp; omega)]

/-- The columns still to be read after the `k`-th one of row `r`. -/
def Tab.colsAfter (T : Tab) (r k : Nat) : List Nat :=
  T.cols.drop (k + 1) ++ (List.replicate (T.x.naxis2 - (r + 1)) T.cols).flatten

/-- The scan from a state of the main table. -/
theorem run_walk {T : Tab} (hT : T.Walks) (vs : List Visit) {r k c s i : Nat} {ty : ElemTy} {rep : Nat}
    (hr : r < T.x.naxis2) (hk : T.cols[k]? = some c) (hf : T.x.tforms[c]? = some (.plain ty rep)) (hrep : 0 < rep)
    (hi : i < itemsRead (.plain ty rep))
    (hvs : vs = (cellReads T.x c s).drop i ++ walk T.x (s + bytesRead T.x c) (T.colsAfter r k)) :
    T.ScansTo (walkEnd T.x (s + bytesRead T.x c) (T.colsAfter r k)) vs (T.main r k i (s + i * elemBytes ty)) := by
  have hun : T.unit.length = T.data.length - T.start := List.length_drop
  have hsz := hT.size
  have hfile := hT.file
  induction vs generalizing r k c s i ty rep with
  | nil => rw [cellReads_drop hf hi] at hvs; cases hvs
  | cons v vs ih =>
    have hp := elemBytes_pos ty
    rw [cellReads_drop hf hi, List.cons_append] at hvs
    obtain ⟨rfl, hvt⟩ := List.cons.inj hvs
    have hkl : k < T.cols.length := (List.getElem?_eq_some_iff.1 hk).1
    by_cases hleg : legible T.x T.unit ⟨c, i, ty, s + i * elemBytes ty⟩ = true
    · have hleg' := hleg
      unfold legible at hleg'
      rw [Bool.and_eq_true, decide_eq_true_iff, decide_eq_true_iff] at hleg'
      obtain ⟨g1, g2⟩ := hleg'
      dsimp only at g1 g2
      have hread := next_plain_read (T := T) (r := r) (i := i) hk hf g1 (by omega)
      rw [Nat.add_assoc s, ← Nat.succ_mul] at hread
      by_cases hlast : i + 1 = itemsRead (.plain ty rep)
      · rw [if_pos hlast] at hread
        have hbytes := bytesRead_plain hf
        rw [← hlast] at hbytes
        have hsm : (i + 1) * elemBytes ty = i * elemBytes ty + elemBytes ty := Nat.succ_mul _ _
        have hb : T.start + (s + bytesRead T.x c) < 2 ^ 61 := by omega
        rw [show (i.succ) * elemBytes ty = bytesRead T.x c from hbytes.symm] at hread
        rw [cellReads_end hf hlast, List.nil_append] at hvt
        by_cases hk1 : k + 1 < T.cols.length
        · have hkc : T.cols[k + 1]? = some T.cols[k + 1] := List.getElem?_eq_getElem hk1
          obtain ⟨ty', rep', hf', hrep'⟩ := hT.plain _ (List.getElem_mem hk1)
          have hcs : T.colsAfter r k = T.cols[k + 1] :: T.colsAfter r (k + 1) := by
            unfold Tab.colsAfter
            rw [List.drop_eq_getElem_cons hk1, List.cons_append]
          rw [walk_col hT hkc hf' hrep' hr hb] at hread
          rw [hcs, walk] at hvt
          rw [hcs, walkEnd]
          refine .cons hleg hread ?_ ?_
          · rw [hvt, ← List.drop_zero (l := cellReads _ _ _), cellReads_drop hf' (itemsRead_pos hrep')]
            exact List.cons_ne_nil _ _
          · have := ih hr hkc hf' hrep' (itemsRead_pos hrep') (i := 0) (by rw [List.drop_zero]; exact hvt)
            rw [Nat.zero_mul] at this; exact this
        · have hk1 : k + 1 = T.cols.length := by omega
          by_cases hr1 : r + 1 < T.x.naxis2
          · have h0 : 0 < T.cols.length := by omega
            have hkc : T.cols[0]? = some T.cols[0] := List.getElem?_eq_getElem h0
            obtain ⟨ty', rep', hf', hrep'⟩ := hT.plain _ (List.getElem_mem h0)
            have hcs : T.colsAfter r k = T.cols[0] :: T.colsAfter (r + 1) 0 := by
              unfold Tab.colsAfter
              rw [List.drop_eq_nil_of_le (by omega), List.nil_append,
                show T.x.naxis2 - (r + 1) = (T.x.naxis2 - (r + 1 + 1)) + 1 by omega, List.replicate_succ,
                List.flatten_cons, ← List.cons_append]
              congr 1
              conv => lhs; rw [← List.drop_zero (l := T.cols), List.drop_eq_getElem_cons h0]
            rw [walk_row hT hkc hf' hrep' hk1 hr1 hb] at hread
            rw [hcs, walk] at hvt
            rw [hcs, walkEnd]
            refine .cons hleg hread ?_ ?_
            · rw [hvt, ← List.drop_zero (l := cellReads _ _ _), cellReads_drop hf' (itemsRead_pos hrep')]
              exact List.cons_ne_nil _ _
            · have := ih hr1 hkc hf' hrep' (itemsRead_pos hrep') (i := 0) (by rw [List.drop_zero]; exact hvt)
              rw [Nat.zero_mul] at this; exact this
          · have hr1 : r + 1 = T.x.naxis2 := by omega
            have hcs : T.colsAfter r k = [] := by
              unfold Tab.colsAfter
              rw [List.drop_eq_nil_of_le (by omega), hr1, Nat.sub_self]
              rfl
            rw [hcs, walk] at hvt
            rw [hcs, walkEnd, hvt]
            obtain ⟨k1, k2⟩ := walk_last (it := i + 1) hT hk1 hr1 hb
            unfold Tab.ScansTo
            rw [List.all_cons, hleg, List.all_nil, List.takeWhile_cons_of_pos hleg]
            refine ⟨fun h n => ?_, fun _ h1 h2 => ?_⟩
            · rw [k1 (h.resolve_left (by simp))] at hread
              cases n with
              | zero => simp [run, scan]
              | succ n =>
                rw [run, hread]
                show Res.ok (some _) :: (T.main T.x.naxis2 k (i + 1) (T.x.naxis1 * T.x.naxis2)).run T.p n = _
                rw [run_plain_stop hk hf (.inl rfl)]
                simp [scan, Visit.value]
            · have h3 := k2 h1 h2
              show [((T.main r k i (s + i * elemBytes ty)).next T.p).1] = [.panic]
              rw [hread]
              revert h3
              generalize (T.main r k (i + 1) _).seekToNextCol T.p = q
              intro h3
              obtain ⟨a, b⟩ := q
              dsimp only at h3
              subst h3
              rfl
      · rw [if_neg hlast] at hread
        have hi' : i + 1 < itemsRead (.plain ty rep) := by omega
        refine .cons hleg hread ?_ (ih hr hk hf hrep hi' hvt)
        rw [hvt, cellReads_drop hf hi', List.cons_append]
        exact List.cons_ne_nil _ _
    · have hleg' := hleg
      unfold legible at hleg'
      rw [Bool.and_eq_true, decide_eq_true_iff, decide_eq_true_iff] at hleg'
      dsimp only at hleg'
      unfold Tab.ScansTo
      rw [List.takeWhile_cons_of_neg hleg]
      refine ⟨fun _ n => ?_, fun h => ?_⟩
      · refine run_plain_stop hk hf ?_ n
        by_cases h : s + i * elemBytes ty = T.x.naxis1 * T.x.naxis2
        · exact .inl h
        · right
          have : ¬ s + i * elemBytes ty + elemBytes ty ≤ T.unit.length := fun h' => hleg' ⟨h, h'⟩
          omega
      · rw [List.all_cons, Bool.and_eq_true] at h
        exact absurd h.1 hleg

end Fitsrs

import Verif.Lemmas.TablePrefix
import Verif.Spec.TablePlain
/-
Scanning tables of plain values whatever the repeat counts of the bit columns: which bytes are read.
-/

namespace Fitsrs
open Spec TableData

/-! ### Arithmetic -/

theorem range_split' {n : Nat} (h : 0 < n) : List.range n = 0 :: (List.range n).drop (0 + 1) := by
  conv => lhs; rw [← List.drop_zero (l := List.range n), List.drop_eq_getElem_cons (by simpa using h), List.getElem_range]


theorem itemsRead_eq (ty : ElemTy) (rep : Nat) : itemsRead (.plain ty rep) = itemCount ty rep := by
  cases ty <;> rfl

theorem itemsRead_pos {ty : ElemTy} {rep : Nat} (h : 0 < rep) : 0 < itemsRead (.plain ty rep) := by
  cases ty <;> first | exact h | exact Nat.succ_pos _

/-- The bytes read in a column. -/
theorem itemsRead_bytes {ty : ElemTy} {rep : Nat} : itemsRead (.plain ty rep) * elemBytes ty =
    colBytes (.plain ty rep) + (isOver (.plain ty rep)).toNat := by
  rw [colBytes_plain]
  cases ty <;> first
    | rfl
    | (show (rep / 8 + 1) * 1 = (rep + 7) / 8 * 1 + (rep % 8 == 0).toNat
       by_cases h : rep % 8 = 0
       · rw [h]
         show _ = _ + 1
         omega
       · rw [show (rep % 8 == 0) = false by simpa using h]
         show _ = _ + 0
         omega)

theorem overBefore_succ {ts : List TForm} {c : Nat} {f : TForm} (h : ts[c]? = some f) :
    overBefore ts (c + 1) = overBefore ts c + (isOver f).toNat := by
  unfold overBefore
  rw [List.take_add_one, h]
  cases hf : isOver f <;> simp [hf]

theorem overBefore_zero (ts : List TForm) : overBefore ts 0 = 0 := rfl

theorem land_same {q N s o off : Nat} (hs : s < N) (ho : o ≤ 1)
    (h1 : (q * N + s + o) % N ≤ s → off + (q * N + s + o) % N = s)
    (h2 : s < (q * N + s + o) % N → off + (q * N + s + o) % N = s + N) :
    q * N + s + o + off = q * N + o * N + s := by
  have e : (q * N + s + o) % N = (s + o) % N := by
    rw [Nat.add_assoc, Nat.add_comm, Nat.add_mul_mod_self_right]
  rw [e] at h1 h2
  generalize q * N = A
  rcases Nat.eq_zero_or_pos o with rfl | h
  · rw [Nat.add_zero, Nat.mod_eq_of_lt hs] at h1
    have := h1 (Nat.le_refl _)
    omega
  · obtain rfl : o = 1 := by omega
    rcases Nat.lt_or_ge (s + 1) N with h3 | h3
    · rw [Nat.mod_eq_of_lt h3] at h2
      have := h2 (by omega)
      omega
    · obtain rfl : N = s + 1 := by omega
      rw [Nat.mod_self] at h1
      have := h1 (by omega)
      omega

theorem land_next {q N o off : Nat} (hN : 0 < N) (ho : o ≤ 1)
    (h1 : (q * N + N + o) % N ≤ 0 → off + (q * N + N + o) % N = 0)
    (h2 : 0 < (q * N + N + o) % N → off + (q * N + N + o) % N = 0 + N) :
    q * N + N + o + off = q * N + N + o * N := by
  have e : (q * N + N + o) % N = o % N := by
    rw [← Nat.succ_mul, Nat.add_comm, Nat.add_mul_mod_self_right]
  rw [e] at h1 h2
  generalize q * N = A
  rcases Nat.eq_zero_or_pos o with rfl | h
  · rw [Nat.zero_mod] at h1
    have := h1 (Nat.le_refl _)
    omega
  · obtain rfl : o = 1 := by omega
    rcases Nat.lt_or_ge 1 N with h3 | h3
    · rw [Nat.mod_eq_of_lt h3] at h2
      have := h2 (by omega)
      omega
    · obtain rfl : N = 1 := by omega
      rw [Nat.mod_self] at h1
      have := h1 (by omega)
      omega

/-! ### Going to the next cell -/

/-- Where the values of a cell start. -/
def Tab.cellTaken (T : Tab) (r c : Nat) : Nat := rowTaken T.x r c * T.x.naxis1 + colStart T.x.tforms c

theorem seek_split {T : Tab} {r c it bo : Nat} (hr : 0 < T.x.naxis2) (hc : 0 < T.cols.length) :
    (T.main r c it bo).seekToNextCol T.p =
      (T.main r c it bo).seekNext T.p (c == T.cols.length - 1) (r == T.x.naxis2 - 1) := by
  unfold TableData.seekToNextCol
  rw [show usub T.p (T.main r c it bo).cols.length 1 =
      .ok (T.cols.length - 1) from usub_ok (by show 1 ≤ T.cols.length; omega),
    show usub T.p (T.main r c it bo).ctx.naxis2 1 =
      .ok (T.x.naxis2 - 1) from usub_ok (by show 1 ≤ T.x.naxis2; omega)]
  rfl

theorem seek_same_row {T : Tab} (hT : T.Pre) (hcols : T.cols = List.range T.x.tforms.length) {r c it : Nat} {f : TForm}
    (hf : T.x.tforms[c]? = some f) (hc : c + 1 < T.x.tforms.length) (hr : 0 < T.x.naxis2)
    (hlt : colStart T.x.tforms (c + 1) < T.x.naxis1)
    (hb : T.start + (T.cellTaken r c + colBytes f) < 2 ^ 61) :
    (T.main r c it (T.cellTaken r c + colBytes f + (isOver f).toNat)).seekToNextCol T.p =
      (.ok (), T.main r (c + 1) 0 (T.cellTaken r (c + 1))) := by
  have hlen : T.cols.length = T.x.tforms.length := by rw [hcols, List.length_range]
  have hkc : T.cols[c + 1]? = some (c + 1) := by rw [hcols, List.getElem?_range hc]
  have hsm := hT.small
  have hs := colStart_succ hf
  have ho := overBefore_succ hf
  have hov : (isOver f).toNat ≤ 1 := Bool.toNat_le _
  have hN : T.cellTaken r c + colBytes f = rowTaken T.x r c * T.x.naxis1 + colStart T.x.tforms (c + 1) := by
    unfold Tab.cellTaken; omega
  have hN' : T.cellTaken r (c + 1) =
      rowTaken T.x r c * T.x.naxis1 + (isOver f).toNat * T.x.naxis1 + colStart T.x.tforms (c + 1) := by
    unfold Tab.cellTaken rowTaken
    rw [ho, ← Nat.add_assoc, Nat.add_mul _ (isOver f).toNat]
  rw [seek_split hr (by omega), show (c == T.cols.length - 1) = false by simp; omega, hN']
  rw [hN] at hb ⊢
  obtain ⟨off, v1, v2, v3, v4⟩ := nextOffset_main (r := r) (k := c + 1) (i := 0)
    (bo := rowTaken T.x r c * T.x.naxis1 + colStart T.x.tforms (c + 1) + (isOver f).toNat) hT hkc hc rfl
    (by omega) (by omega) (by omega)
  rw [seekNext_same _ (T.main r c it _) (c := c + 1)
    (by show (c + 1) % T.cols.length = c + 1; exact Nat.mod_eq_of_lt (by omega)) v1]
  refine (advance_main (T := T) (r := r) (k := c + 1) (i := 0) (by omega)).trans ?_
  rw [land_same hlt hov v3 v4]

theorem seek_next_row {T : Tab} (hT : T.Pre) (hcols : T.cols = List.range T.x.tforms.length) {r c it : Nat} {f : TForm}
    (hf : T.x.tforms[c]? = some f) (hc : c + 1 = T.x.tforms.length) (hr : r + 1 < T.x.naxis2)
    (hN0 : 0 < T.x.naxis1) (hb : T.start + (T.cellTaken r c + colBytes f) < 2 ^ 61) :
    (T.main r c it (T.cellTaken r c + colBytes f + (isOver f).toNat)).seekToNextCol T.p =
      (.ok (), T.main (r + 1) 0 0 (T.cellTaken (r + 1) 0)) := by
  have hlen : T.cols.length = T.x.tforms.length := by rw [hcols, List.length_range]
  have hkc : T.cols[0]? = some 0 := by rw [hcols, List.getElem?_range (by omega)]
  have hsm := hT.small
  have hs := colStart_succ hf
  have ho := overBefore_succ hf
  rw [hc] at hs ho
  have hend : colStart T.x.tforms T.x.tforms.length = T.x.naxis1 := by
    rw [hT.width]; unfold colStart; rw [List.take_of_length_le (by rw [List.length_map]; exact Nat.le_refl _)]
  have hov : (isOver f).toNat ≤ 1 := Bool.toNat_le _
  have hN : T.cellTaken r c + colBytes f = rowTaken T.x r c * T.x.naxis1 + T.x.naxis1 := by
    unfold Tab.cellTaken; omega
  have hN' : T.cellTaken (r + 1) 0 =
      rowTaken T.x r c * T.x.naxis1 + T.x.naxis1 + (isOver f).toNat * T.x.naxis1 := by
    unfold Tab.cellTaken rowTaken
    rw [show colStart T.x.tforms 0 = 0 from rfl, overBefore_zero, ho, Nat.succ_mul r]
    generalize r * _ = R
    generalize overBefore T.x.tforms c = B
    rw [show R + (1 + (B + (isOver f).toNat)) + 0 = R + B + 1 + (isOver f).toNat by omega, Nat.add_mul, Nat.succ_mul]
    rfl
  rw [seek_split (by omega) (by omega), show (c == T.cols.length - 1) = true by simp; omega,
    show (r == T.x.naxis2 - 1) = false by simp; omega, hN']
  rw [hN] at hb ⊢
  obtain ⟨off, v1, v2, v3, v4⟩ := nextOffset_main (r := r + 1) (k := 0) (i := 0)
    (bo := rowTaken T.x r c * T.x.naxis1 + T.x.naxis1 + (isOver f).toNat) (s := 0) hT hkc (by omega) rfl
    (by omega) (by omega) (by omega)
  rw [seekNext_row (T.main r c it _) (c := 0)
    (by show (c + 1) % T.cols.length = 0; rw [show c + 1 = T.cols.length by omega, Nat.mod_self]) v1]
  refine (advance_main (T := T) (r := r + 1) (k := 0) (i := 0) (by omega)).trans ?_
  rw [land_next hN0 hov v3 v4]

/-- Where the last cell ends. -/
theorem cellTaken_last {T : Tab} (hT : T.Pre) {r c : Nat} {f : TForm}
    (hf : T.x.tforms[c]? = some f) (hc : c + 1 = T.x.tforms.length) (hr : r + 1 = T.x.naxis2) :
    T.x.naxis1 * T.x.naxis2 ≤ T.cellTaken r c + colBytes f + (isOver f).toNat ∧
      (0 < T.x.naxis1 → (T.cellTaken r c + colBytes f + (isOver f).toNat = T.x.naxis1 * T.x.naxis2 ↔
        overBefore T.x.tforms T.x.tforms.length = 0)) := by
  have hs := colStart_succ hf
  have ho := overBefore_succ hf
  rw [hc] at hs ho
  have hend : colStart T.x.tforms T.x.tforms.length = T.x.naxis1 := by
    rw [hT.width]; unfold colStart; rw [List.take_of_length_le (by rw [List.length_map]; exact Nat.le_refl _)]
  rw [hend] at hs
  unfold Tab.cellTaken rowTaken
  rw [← hr, Nat.mul_comm T.x.naxis1 (r + 1), Nat.succ_mul r T.x.naxis1]
  generalize overBefore T.x.tforms T.x.tforms.length = b at *
  rw [Nat.mul_add, Nat.mul_one, Nat.add_assoc r, Nat.add_mul r]
  generalize hM : (r * b + overBefore T.x.tforms c) * T.x.naxis1 = M
  refine ⟨by omega, fun hN0 => ⟨fun h => ?_, fun h => ?_⟩⟩
  · have h0 : M = 0 := by omega
    rw [h0] at hM
    have : r * b + overBefore T.x.tforms c = 0 := by
      rcases Nat.mul_eq_zero.1 hM with h | h
      · exact h
      · omega
    omega
  · subst h
    rw [Nat.mul_zero, Nat.zero_add, show overBefore T.x.tforms c = 0 by omega, Nat.zero_mul] at hM
    omega

/-- Leaving the last cell. -/
theorem seek_last {T : Tab} (hT : T.Pre) (hcols : T.cols = List.range T.x.tforms.length) {r c it : Nat} {f : TForm}
    (hf : T.x.tforms[c]? = some f) (hc : c + 1 = T.x.tforms.length) (hr : r + 1 = T.x.naxis2)
    (hN0 : 0 < T.x.naxis1) (hb : T.start + (T.cellTaken r c + colBytes f) < 2 ^ 61) :
    (T.p = .wrapping ∨ overBefore T.x.tforms T.x.tforms.length = 0 →
      (T.main r c it (T.cellTaken r c + colBytes f + (isOver f).toNat)).seekToNextCol T.p =
        (.ok (), T.main T.x.naxis2 c it (T.x.naxis1 * T.x.naxis2))) ∧
    (T.p = .checked → 0 < overBefore T.x.tforms T.x.tforms.length →
      ((T.main r c it (T.cellTaken r c + colBytes f + (isOver f).toNat)).seekToNextCol T.p).1 = .panic) := by
  have hlen : T.cols.length = T.x.tforms.length := by rw [hcols, List.length_range]
  have hov : (isOver f).toNat ≤ 1 := Bool.toNat_le _
  obtain ⟨hge, hiff⟩ := cellTaken_last hT hf hc hr
  replace hiff := hiff hN0
  rw [seek_split (by omega) (by omega), show (c == T.cols.length - 1) = true by simp; omega,
    show (r == T.x.naxis2 - 1) = true by simp; omega]
  rw [← Nat.add_assoc] at hb
  generalize hbo : T.cellTaken r c + colBytes f + (isOver f).toNat = bo at *
  have hsz := hT.size
  generalize hm : T.x.naxis1 * T.x.naxis2 = m at *
  have hop : i64op T.p (asI64 (T.main r c it bo).mainSize - asI64 (T.main r c it bo).byteOffset) =
      .ok ((m : Int) - (bo : Int)) := by
    show i64op T.p (asI64 (T.x.naxis1 * T.x.naxis2) - asI64 bo) = _
    rw [hm, asI64_lt (by omega), asI64_lt (by omega), i64op_ok (by omega) (by omega)]
  have hnext : (T.main r c it bo).seekNext T.p true true = (T.main (r + 1) c it bo).advance T.p ((m : Int) - (bo : Int)) := by
    unfold TableData.seekNext
    simp only [Bool.and_true, if_true]
    rw [show i64op T.p (asI64 ({ T.main r c it bo with row := (T.main r c it bo).row + 1 } : TableData).mainSize -
      asI64 ({ T.main r c it bo with row := (T.main r c it bo).row + 1 } : TableData).byteOffset) = _ from hop]
    rfl
  have hseek : (T.main (r + 1) c it bo).rd.seekRelative ((m : Int) - (bo : Int)) =
      (.ok (), ⟨T.data, T.start + m⟩) :=
    seekRelative_nat (T.start + m) (by show ((T.start + bo : Nat) : Int) + _ = _; omega) (by unfold two64; omega)
  rw [hnext, hr]
  rw [hr] at hseek
  have hadv : (T.main T.x.naxis2 c it bo).advance T.p ((m : Int) - (bo : Int)) =
      match uadd T.p bo (asU64 ((m : Int) - (bo : Int))) with
      | .ok b => (.ok (), { T.main T.x.naxis2 c it bo with rd := ⟨T.data, T.start + m⟩, byteOffset := b })
      | .err e => (.err e, { T.main T.x.naxis2 c it bo with rd := ⟨T.data, T.start + m⟩ })
      | .panic => (.panic, { T.main T.x.naxis2 c it bo with rd := ⟨T.data, T.start + m⟩ }) := by
    unfold TableData.advance
    rw [hseek]
    rfl
  rw [hadv]
  by_cases heq : bo = m
  · refine ⟨fun _ => ?_, fun _ h => by omega⟩
    rw [heq, Int.sub_self, show asU64 0 = 0 from rfl, uadd_ok (by unfold two64; omega)]
    unfold Tab.main
    rw [hm]
    rfl
  · have hneg : asU64 ((m : Int) - (bo : Int)) = 2 ^ 64 - (bo - m) := by
      unfold asU64
      omega
    rw [hneg]
    unfold uadd
    rw [if_neg (by unfold two64; omega)]
    refine ⟨fun h => ?_, fun h _ => by rw [h]⟩
    have h : T.p = .wrapping := h.resolve_right (by omega)
    rw [h]
    dsimp only
    rw [show (bo + (2 ^ 64 - (bo - m))) % two64 = m by unfold two64; omega]
    unfold Tab.main
    rw [hm]

/-! ### The scan -/

/-- A value is read. -/
theorem next_plain_read {T : Tab} {r k c i bo : Nat} {ty : ElemTy} {rep : Nat} (hk : T.cols[k]? = some c)
    (hf : T.x.tforms[c]? = some (.plain ty rep)) (h1 : bo ≠ T.x.naxis1 * T.x.naxis2)
    (h2 : T.start + bo + elemBytes ty ≤ T.data.length) :
    (T.main r k i bo).next T.p =
      if i + 1 = itemsRead (.plain ty rep) then
        TableData.finish (.cell c i (Cell.ofBytes ty (bytesAt T.unit bo (elemBytes ty))))
          ((T.main r k (i + 1) (bo + elemBytes ty)).seekToNextCol T.p)
      else (.ok (some (.cell c i (Cell.ofBytes ty (bytesAt T.unit bo (elemBytes ty))))),
        T.main r k (i + 1) (bo + elemBytes ty)) := by
  rw [next_nextAt (T := T) hk rfl rfl rfl, nextAt_form (f := .plain ty rep) rfl h1 hf]
  show TableData.nextPlain T.p c ty rep _ = _
  unfold TableData.nextPlain
  rw [elemBytes_eq, show (T.main r k i bo).rd.readExact (elemBytes ty) = _ from read_unit h2, itemsRead_eq]
  rfl

/-- Nothing more is read. -/
theorem run_plain_stop {T : Tab} {r k c i bo : Nat} {ty : ElemTy} {rep : Nat} (hk : T.cols[k]? = some c)
    (hf : T.x.tforms[c]? = some (.plain ty rep))
    (h : bo = T.x.naxis1 * T.x.naxis2 ∨ T.data.length < T.start + bo + elemBytes ty) (n : Nat) :
    (T.main r k i bo).run T.p n = scan [] n := by
  have hp := elemBytes_pos ty
  by_cases h1 : bo = T.x.naxis1 * T.x.naxis2
  · have hn : (T.main r k i bo).next T.p = (.ok none, T.main r k i bo) := by
      rw [next_nextAt (T := T) hk rfl rfl rfl]
      unfold TableData.nextAt
      rw [show (T.main r k i bo).inHeap = none from rfl]
      dsimp only
      rw [if_pos (by exact h1)]
    induction n with
    | zero => rfl
    | succ n ih =>
      rw [run, hn]
      dsimp only
      rw [ih]
      simp [scan, List.replicate_succ]
  · have hstuck : ∀ pos, T.data.length < pos + elemBytes ty →
        ({ T.main r k i bo with rd := ⟨T.data, pos⟩ } : TableData).next T.p =
        (.ok none, { T.main r k i bo with rd := ⟨T.data, max pos T.data.length⟩ }) := by
      intro pos h
      rw [next_nextAt (T := T) hk rfl rfl rfl, nextAt_form (f := .plain ty rep) rfl h1 hf]
      exact nextPlain_eof h
    have hrun : ∀ pos, T.data.length < pos + elemBytes ty → ∀ n,
        ({ T.main r k i bo with rd := ⟨T.data, pos⟩ } : TableData).run T.p n = scan [] n := by
      intro pos h n
      induction n generalizing pos with
      | zero => rfl
      | succ n ih =>
        rw [run, hstuck pos h]
        dsimp only
        rw [ih _ (by omega)]
        simp [scan, List.replicate_succ]
    exact hrun _ (h.resolve_left h1) n

/-- The values still to be read before value `i` of the cell of row `r` and column `c`. -/
def Tab.visitsFrom (T : Tab) (r c i : Nat) : List Visit :=
  (cellVisits T.x r c).drop i ++ (((List.range T.x.tforms.length).drop (c + 1)).flatMap (cellVisits T.x r) ++
    ((List.range T.x.naxis2).drop (r + 1)).flatMap (rowVisits T.x))

theorem cellVisits_plain {x : BinTable} {r c : Nat} {ty : ElemTy} {rep : Nat}
    (hf : x.tforms[c]? = some (.plain ty rep)) : cellVisits x r c =
      (List.range (itemsRead (.plain ty rep))).map fun i =>
        ⟨c, i, ty, rowTaken x r c * x.naxis1 + colStart x.tforms c + i * elemBytes ty⟩ := by
  unfold cellVisits
  rw [hf]

theorem Tab.visitsFrom_cons {T : Tab} {r c i : Nat} {ty : ElemTy} {rep : Nat}
    (hf : T.x.tforms[c]? = some (.plain ty rep)) (hi : i < itemsRead (.plain ty rep)) :
    T.visitsFrom r c i = ⟨c, i, ty, T.cellTaken r c + i * elemBytes ty⟩ :: T.visitsFrom r c (i + 1) := by
  unfold Tab.visitsFrom
  rw [cellVisits_plain hf, List.drop_eq_getElem_cons (by simpa using hi)]
  simp [Tab.cellTaken]

theorem Tab.visitsFrom_end {T : Tab} {r c i : Nat} {ty : ElemTy} {rep : Nat}
    (hf : T.x.tforms[c]? = some (.plain ty rep)) (hi : i = itemsRead (.plain ty rep)) :
    T.visitsFrom r c i = ((List.range T.x.tforms.length).drop (c + 1)).flatMap (cellVisits T.x r) ++
      ((List.range T.x.naxis2).drop (r + 1)).flatMap (rowVisits T.x) := by
  unfold Tab.visitsFrom
  rw [cellVisits_plain hf, List.drop_eq_nil_of_le (by simp; omega)]
  rfl

theorem Tab.visitsFrom_col {T : Tab} {r c i : Nat} {ty : ElemTy} {rep : Nat}
    (hf : T.x.tforms[c]? = some (.plain ty rep)) (hi : i = itemsRead (.plain ty rep))
    (hc : c + 1 < T.x.tforms.length) : T.visitsFrom r c i = T.visitsFrom r (c + 1) 0 := by
  rw [Tab.visitsFrom_end hf hi, List.drop_eq_getElem_cons (by simpa using hc), List.getElem_range, List.flatMap_cons]
  unfold Tab.visitsFrom
  rw [List.drop_zero, List.append_assoc]

theorem Tab.visitsFrom_row {T : Tab} {r c i : Nat} {ty : ElemTy} {rep : Nat}
    (hf : T.x.tforms[c]? = some (.plain ty rep)) (hi : i = itemsRead (.plain ty rep))
    (hc : c + 1 = T.x.tforms.length) (hr : r + 1 < T.x.naxis2) : T.visitsFrom r c i = T.visitsFrom (r + 1) 0 0 := by
  rw [Tab.visitsFrom_end hf hi, List.drop_eq_nil_of_le (by simp; omega),
    List.drop_eq_getElem_cons (l := List.range T.x.naxis2) (by simpa using hr), List.getElem_range, List.flatMap_cons]
  unfold Tab.visitsFrom
  rw [List.drop_zero, List.flatMap_nil, List.nil_append, ← List.append_assoc]
  congr 1
  unfold rowVisits
  conv => lhs; rw [range_split' (n := T.x.tforms.length) (by omega), List.flatMap_cons]

theorem Tab.visitsFrom_last {T : Tab} {r c i : Nat} {ty : ElemTy} {rep : Nat}
    (hf : T.x.tforms[c]? = some (.plain ty rep)) (hi : i = itemsRead (.plain ty rep))
    (hc : c + 1 = T.x.tforms.length) (hr : r + 1 = T.x.naxis2) : T.visitsFrom r c i = [] := by
  rw [Tab.visitsFrom_end hf hi, List.drop_eq_nil_of_le (by simp; omega), List.drop_eq_nil_of_le (by simp; omega)]
  rfl

/-- What is said of a scan that has the values `vs` to read. -/
def Tab.Scans (T : Tab) (vs : List Visit) (t : TableData) : Prop :=
  (vs.all (legible T.x T.unit) = false ∨ T.p = .wrapping ∨ overBefore T.x.tforms T.x.tforms.length = 0 →
      ∀ n, t.run T.p n = scan ((vs.takeWhile (legible T.x T.unit)).map (Visit.value T.unit)) n) ∧
    (vs.all (legible T.x T.unit) = true → T.p = .checked → 0 < overBefore T.x.tforms T.x.tforms.length →
      t.run T.p vs.length = vs.dropLast.map (fun v => .ok (some (v.value T.unit))) ++ [.panic])

theorem Tab.Scans.cons {T : Tab} {v : Visit} {vs : List Visit} {t t' : TableData} (hv : legible T.x T.unit v = true)
    (h : t.next T.p = (.ok (some (v.value T.unit)), t')) (hne : vs ≠ []) (hs : T.Scans vs t') : T.Scans (v :: vs) t := by
  unfold Tab.Scans at *
  rw [List.all_cons, hv, Bool.true_and, List.takeWhile_cons_of_pos hv, List.dropLast_cons_of_ne_nil hne]
  refine ⟨fun h1 n => ?_, fun h1 h2 h3 => ?_⟩
  · cases n with
    | zero => simp [run, scan]
    | succ n =>
      rw [run, h]
      dsimp only
      rw [hs.1 h1]
      simp [scan]
  · rw [List.length_cons, run, h]
    dsimp only
    rw [hs.2 h1 h2 h3]
    rfl

/-- The scan from a state of the main table. -/
theorem run_visits {T : Tab} (hT : T.Pre) (hcols : T.cols = List.range T.x.tforms.length) (hx : AllPlain T.x)
    (vs : List Visit) {r c i : Nat} {ty : ElemTy} {rep : Nat} (hr : r < T.x.naxis2)
    (hf : T.x.tforms[c]? = some (.plain ty rep)) (hi : i < itemsRead (.plain ty rep)) (hvs : vs = T.visitsFrom r c i) :
    T.Scans vs (T.main r c i (T.cellTaken r c + i * elemBytes ty)) := by
  have hcl : c < T.x.tforms.length := by
    rcases Nat.lt_or_ge c T.x.tforms.length with h | h
    · exact h
    · rw [List.getElem?_eq_none h] at hf; cases hf
  have hkc : T.cols[c]? = some c := by rw [hcols, List.getElem?_range hcl]
  have hun : T.unit.length = T.data.length - T.start := List.length_drop
  have hsz := hT.size
  have hfile := hT.file
  have hp := elemBytes_pos ty
  induction vs generalizing r c i ty rep with
  | nil => rw [Tab.visitsFrom_cons hf hi] at hvs; cases hvs
  | cons v vs ih =>
    rw [Tab.visitsFrom_cons hf hi] at hvs
    obtain ⟨rfl, hvt⟩ := List.cons.inj hvs
    by_cases hleg : legible T.x T.unit ⟨c, i, ty, T.cellTaken r c + i * elemBytes ty⟩ = true
    · have hleg' := hleg
      unfold legible at hleg'
      rw [Bool.and_eq_true, decide_eq_true_iff, decide_eq_true_iff] at hleg'
      obtain ⟨g1, g2⟩ := hleg'
      dsimp only at g1 g2
      have hread := next_plain_read (T := T) (r := r) (i := i) hkc hf g1 (by omega)
      rw [Nat.add_assoc (T.cellTaken r c), ← Nat.succ_mul] at hread
      by_cases hlast : i + 1 = itemsRead (.plain ty rep)
      · rw [if_pos hlast] at hread
        have hbytes := itemsRead_bytes (ty := ty) (rep := rep)
        rw [← hlast] at hbytes
        have hsm : (i + 1) * elemBytes ty = i * elemBytes ty + elemBytes ty := Nat.succ_mul _ _
        have hb : T.start + (T.cellTaken r c + colBytes (.plain ty rep)) < 2 ^ 61 := by omega
        rw [hbytes, ← Nat.add_assoc] at hread
        have hw : ∀ k ty' rep', T.x.tforms[k]? = some (.plain ty' rep') → 0 < rep' →
            colStart T.x.tforms k < T.x.naxis1 := by
          intro k ty' rep' h1 h2
          have := colStart_le h1
          rw [← hT.width, colBytes_plain] at this
          have := Nat.mul_pos (count_pos (ty := ty') h2) (elemBytes_pos ty')
          omega
        obtain ⟨ty0, rep0, h0, h0'⟩ := hx c hcl
        have hN0 := hw c ty0 rep0 h0 h0'
        by_cases hc1 : c + 1 < T.x.tforms.length
        · obtain ⟨ty', rep', hf', hrep'⟩ := hx (c + 1) hc1
          rw [seek_same_row hT hcols hf hc1 (by omega) (hw _ _ _ hf' hrep') hb] at hread
          have hvs' := hvt.trans (Tab.visitsFrom_col hf hlast hc1)
          refine .cons hleg hread ?_ ?_
          · rw [hvs', Tab.visitsFrom_cons hf' (itemsRead_pos hrep')]; exact List.cons_ne_nil _ _
          · have := ih hr hf' (itemsRead_pos hrep') hvs' hc1 (by rw [hcols, List.getElem?_range hc1]) (elemBytes_pos _)
            rwa [Nat.zero_mul, Nat.add_zero] at this
        · have hc1 : c + 1 = T.x.tforms.length := by omega
          by_cases hr1 : r + 1 < T.x.naxis2
          · obtain ⟨ty', rep', hf', hrep'⟩ := hx 0 (by omega)
            rw [seek_next_row hT hcols hf hc1 hr1 (by omega) hb] at hread
            have hvs' := hvt.trans (Tab.visitsFrom_row hf hlast hc1 hr1)
            refine .cons hleg hread ?_ ?_
            · rw [hvs', Tab.visitsFrom_cons hf' (itemsRead_pos hrep')]; exact List.cons_ne_nil _ _
            · have := ih hr1 hf' (itemsRead_pos hrep') hvs' (by omega) (by rw [hcols, List.getElem?_range (by omega)])
                (elemBytes_pos _)
              rwa [Nat.zero_mul, Nat.add_zero] at this
          · have hr1 : r + 1 = T.x.naxis2 := by omega
            rw [hvt.trans (Tab.visitsFrom_last hf hlast hc1 hr1)]
            obtain ⟨k1, k2⟩ := seek_last (it := i + 1) hT hcols hf hc1 hr1 (by omega) hb
            unfold Tab.Scans
            rw [List.all_cons, hleg, List.all_nil, List.takeWhile_cons_of_pos hleg]
            refine ⟨fun h n => ?_, fun _ h1 h2 => ?_⟩
            · rw [k1 (h.resolve_left (by simp))] at hread
              cases n with
              | zero => simp [run, scan]
              | succ n =>
                rw [run, hread]
                show Res.ok (some _) :: (T.main T.x.naxis2 c (i + 1) (T.x.naxis1 * T.x.naxis2)).run T.p n = _
                rw [run_plain_stop hkc hf (.inl rfl)]
                simp [scan, Visit.value]
            · have h3 := k2 h1 h2
              show [((T.main r c i (T.cellTaken r c + i * elemBytes ty)).next T.p).1] = [.panic]
              rw [hread]
              revert h3
              generalize (T.main r c (i + 1) _).seekToNextCol T.p = q
              intro h3
              obtain ⟨a, b⟩ := q
              dsimp only at h3
              subst h3
              rfl
      · rw [if_neg hlast] at hread
        have hi' : i + 1 < itemsRead (.plain ty rep) := by omega
        refine .cons hleg hread ?_ (ih hr hf hi' hvt hcl hkc hp)
        rw [hvt, Tab.visitsFrom_cons hf hi']
        exact List.cons_ne_nil _ _
    · have hleg' := hleg
      unfold legible at hleg'
      rw [Bool.and_eq_true, decide_eq_true_iff, decide_eq_true_iff] at hleg'
      dsimp only at hleg'
      unfold Tab.Scans
      rw [List.takeWhile_cons_of_neg hleg]
      refine ⟨fun _ n => ?_, fun h => ?_⟩
      · refine run_plain_stop hkc hf ?_ n
        by_cases h : T.cellTaken r c + i * elemBytes ty = T.x.naxis1 * T.x.naxis2
        · exact .inl h
        · right
          have : ¬ T.cellTaken r c + i * elemBytes ty + elemBytes ty ≤ T.unit.length := fun h' => hleg' ⟨h, h'⟩
          omega
      · rw [List.all_cons, Bool.and_eq_true] at h
        exact absurd h.1 hleg

end Fitsrs

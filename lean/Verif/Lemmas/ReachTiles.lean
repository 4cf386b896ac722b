import Verif.Lemmas.Reach
/-
The calls on a compressed image move the reader by a bounded number of bytes, in builds without overflow checks.
-/

namespace Fitsrs
open Spec

namespace TableData

/-! #### The description of the table does not change -/


theorem advance_same (p : Profile) (off : Int) (t : TableData) : (t.advance p off).2.ctx = t.ctx := by
  unfold advance
  split
  · split <;> rfl
  · rfl
  · rfl

theorem seekToNextCol_same (p : Profile) (t : TableData) : (t.seekToNextCol p).2.ctx = t.ctx := by
  unfold seekToNextCol
  split
  · unfold seekNext
    have h1 : ∀ b : Bool, (if b then { t with row := t.row + 1 } else t).ctx = t.ctx := by
      intro b
      cases b <;> rfl
    rename_i lc lr _ _
    have h1 := h1 (t.col == lc)
    generalize (if (t.col == lc) then { t with row := t.row + 1 } else t) = t1 at h1
    dsimp only
    split
    · split
      · rw [advance_same]; exact h1
      · exact h1
      · exact h1
    · split
      · rw [advance_same]; exact h1
      · exact h1
      · exact h1
  · rfl

theorem jumpToMainTable_same (t : TableData) : t.jumpToMainTable.ctx = t.ctx := by
  unfold jumpToMainTable
  split <;> rfl

theorem jumpToHeap_same (p : Profile) (ty : ElemTy) (o n k : Nat) (t : TableData) :
    (t.jumpToHeap p ty o n k).2.ctx = t.ctx := by
  unfold jumpToHeap
  split
  · rfl
  split
  · split
    · split <;> rfl
    · rfl
    · rfl
  · rfl
  · rfl

theorem nextInHeap_same (p : Profile) (c : Nat) (h : HeapState) (t : TableData) :
    (t.nextInHeap p c h).2.ctx = t.ctx := by
  unfold nextInHeap
  split
  · split
    · split
      · dsimp only
        split
        · rw [finish_snd, seekToNextCol_same, jumpToMainTable_same]
        · rfl
      · rfl
      · rfl
    · rfl
  · rfl
  · rfl

theorem nextAt_same (p : Profile) (c : Nat) (t : TableData) : (t.nextAt p c).2.ctx = t.ctx := by
  have ha : ∀ ty k mk, (t.nextArray p c ty k mk).2.ctx = t.ctx := by
    intro ty k mk
    unfold nextArray
    split
    · dsimp only
      split
      · split
        all_goals
          rename_i hj
          have hd := congrArg (fun x => x.2.ctx) hj
          dsimp only at hd
          rw [jumpToHeap_same] at hd
          dsimp only at hd
        · split
          · rw [nextInHeap_same, ← hd]
          · rw [← hd]
        · rw [← hd]
        · rw [← hd]
      · rw [finish_snd, seekToNextCol_same]
    · rfl
  unfold nextAt
  split
  · exact nextInHeap_same _ _ _ _
  split
  · rfl
  split
  · rfl
  · unfold nextPlain
    split
    · dsimp only
      split
      · rw [finish_snd, seekToNextCol_same]
      · rfl
    · rfl
  · exact ha _ _ _
  · exact ha _ _ _

theorem next_same (p : Profile) (t : TableData) : (t.next p).2.ctx = t.ctx := by
  unfold next
  split
  · rfl
  · rename_i c _
    have h1 := toFirstCol_ctx p c t
    split
    · rename_i e
      rw [e] at h1
      exact h1
    · rename_i e
      rw [e] at h1
      rw [nextAt_same]
      exact h1

/-! #### The descriptors are of 32 bits -/

/-- A value that is not a descriptor of 64 bits, and if it is one of 32 bits, its numbers are. -/
def Short : DataValue → Prop
  | .cell .. => True
  | .vla32 _ offset => offset < 2 ^ 32
  | .vla64 .. => False

theorem finish_short {v : DataValue} {r : Res Unit × TableData} {x : DataValue} (hv : Short v)
    (h : (finish v r).1 = .ok (some x)) : Short x := by
  obtain ⟨r, t⟩ := r
  cases r with
  | ok u => cases h; exact hv
  | err e => cases h
  | panic => cases h

theorem nextInHeap_short {p : Profile} {c : Nat} {y : HeapState} {t : TableData} {x : DataValue}
    (h : (t.nextInHeap p c y).1 = .ok (some x)) : Short x := by
  unfold nextInHeap at h
  split at h
  · split at h
    · split at h
      · dsimp only at h
        split at h
        · exact finish_short (v := .cell ..) trivial h
        · cases h; trivial
      · cases h
      · cases h
    · cases h
  · cases h
  · cases h

theorem nextAt_short {p : Profile} {c : Nat} {t : TableData} {x : DataValue} (hq : ∀ ty, .Q ty ∉ t.ctx.tforms)
    (h : (t.nextAt p c).1 = .ok (some x)) : Short x := by
  unfold nextAt at h
  split at h
  · exact nextInHeap_short h
  · split at h
    · cases h
    · split at h
      · cases h
      · unfold nextPlain at h
        split at h
        · dsimp only at h
          split at h
          · exact finish_short (v := .cell ..) trivial h
          · cases h; trivial
        · cases h
      · unfold nextArray at h
        split at h
        · rename_i bs rd hr
          obtain ⟨-, -, -, r4⟩ := read_ok hr (by decide)
          have ho : beNat (bs.drop 4) < 2 ^ 32 := by
            have := beNat_lt (bs.drop 4)
            rw [List.length_drop, r4] at this
            exact this
          dsimp only at h
          split at h
          · split at h
            · split at h
              · exact nextInHeap_short h
              · cases h
            · cases h
            · cases h
          · exact finish_short (v := .vla32 ..) ho h
        · cases h
      · rename_i hx
        exact absurd (List.mem_of_getElem? hx) (hq _)

theorem next_short {p : Profile} {t : TableData} {x : DataValue} (hq : ∀ ty, .Q ty ∉ t.ctx.tforms)
    (h : (t.next p).1 = .ok (some x)) : Short x := by
  unfold next at h
  split at h
  · cases h
  · rename_i c _
    have h1 := toFirstCol_ctx p c t
    split at h
    · rename_i r t' e
      have hr : ∀ v, r ≠ .ok (some v) := by
        intro v hv
        subst hv
        unfold toFirstCol at e
        split at e
        · dsimp only at e
          split at e
          · cases e
          · split at e <;> cases e
        · cases e
      exact absurd h (hr x)
    · rename_i e
      rw [e] at h1
      exact nextAt_short (by rw [h1]; exact hq) h

end TableData

namespace TableRows
open TableData

theorem collect_same {p : Profile} {fuel row : Nat} {t u : TableData} {acc : List DataValue} {r : Res (Option (List DataValue))}
    (hc : collect p fuel row t acc = some (r, u)) : u.ctx = t.ctx := by
  induction fuel generalizing t acc with
  | zero => cases hc
  | succ n ih =>
    unfold collect at hc
    have h1 := next_same p t
    split at hc
    · split at hc
      all_goals
        rename_i e
        rw [e] at h1
      · rw [ih hc, h1]
      · cases hc; exact h1
      · cases hc; exact h1
      · cases hc; exact h1
    · cases hc; rfl

theorem collect_short {p : Profile} {fuel row : Nat} {t u : TableData} {acc vs : List DataValue}
    (hq : ∀ ty, .Q ty ∉ t.ctx.tforms) (ha : ∀ v ∈ acc, Short v)
    (hc : collect p fuel row t acc = some (.ok (some vs), u)) : ∀ v ∈ vs, Short v := by
  induction fuel generalizing t acc with
  | zero => cases hc
  | succ n ih =>
    unfold collect at hc
    have h1 := next_same p t
    have h2 := fun x => next_short (p := p) (t := t) (x := x) hq
    split at hc
    · split at hc
      all_goals
        rename_i e
        rw [e] at h1 h2
      · rename_i v _
        refine ih (by rw [h1]; exact hq) ?_ hc
        intro w hw
        rcases List.mem_append.1 hw with hw | hw
        · exact ha w hw
        · rw [List.mem_singleton.1 hw]
          exact h2 _ rfl
      · cases hc
      · cases hc
      · cases hc
    · cases hc; exact ha

theorem collect_first {L M W fuel row : Nat} {t u : TableData} {acc : List DataValue} {r : Res (Option (List DataValue))}
    (h : t.Low L M W) (hs : t.seekFirst = false) (hMW : M ≤ W) (hb : L + W + M + M < 2 ^ 62)
    (hc : collect .wrapping fuel row t acc = some (r, u)) (hp : r ≠ .panic) : u.seekFirst = false := by
  induction fuel generalizing t acc with
  | zero => cases hc
  | succ n ih =>
    unfold collect at hc
    have h1 := next_low' h hs hMW hb
    have h2 := next_first h hb
    split at hc
    · split at hc
      all_goals
        rename_i e
        rw [e] at h1 h2
      · exact ih h1 (h2 (fun h => by cases h)) hc
      · cases hc; exact h2 (fun h => by cases h)
      · cases hc; exact h2 (fun h => by cases h)
      · cases hc; exact absurd rfl hp
    · cases hc; exact hs

end TableRows

namespace TileIt
open TableData TableRows

/-- The pixels of a compressed image: the reader of its table is at most `W` bytes after the end of the data, and at most `j`
rows have been read, all those that can be having at most `M` bytes. -/
structure Low (L M W K j : Nat) (it : TileIt) : Prop where
  table : it.rows.data.Low L M W
  first : it.rows.data.seekFirst = false
  rows : it.rows.row ≤ j
  wide : K * it.rows.data.ctx.naxis1 ≤ M

variable {L M W K j : Nat} {it : TileIt}

theorem tileOffset_reach {row naxis1 theap offset : Nat} (h : row * naxis1 + theap + offset < 2 ^ 62) :
    tileOffset .wrapping row naxis1 theap offset = .ok ((theap : Int) + offset - (row * naxis1 : Nat)) := by
  unfold tileOffset heapOffset
  generalize hm : row * naxis1 = m at h
  have hu : umul .wrapping row naxis1 = .ok m := by
    unfold umul two64
    rw [if_pos (by omega), hm]
  rw [hu, Res.bind_ok, asI64_lt (n := m) (by omega), asI64_lt (n := theap) (by omega), asI64_lt (n := offset) (by omega),
    i64op_ok (by omega) (by omega)]
  simp only [Res.bind_ok]
  rw [i64op_ok (by omega) (by omega)]
  simp only [Res.bind_ok]
  rw [i64op_ok (by omega) (by omega)]
  exact congrArg Res.ok (by omega)

theorem Low.congr {it' : TileIt} (h : it.Low L M W K j) (e : it'.rows = it.rows) : it'.Low L M W K j := by
  obtain ⟨h1, h2, h3, h4⟩ := h
  rw [← e] at h1 h2 h3 h4
  exact ⟨h1, h2, h3, h4⟩

theorem Low.mono {W' j' : Nat} (h : it.Low L M W K j) (hw : W ≤ W') (hj : j ≤ j') : it.Low L M W' K j' :=
  ⟨h.table.mono hw, h.first, by have := h.rows; omega, h.wide⟩

/-- The table once its reader has been left elsewhere. -/
theorem Low.moved {rd : Reader} (h : it.Low L M W K j) (hd : rd.data = it.rows.data.rd.data) (hp : rd.pos ≤ L + (W + 2 * M))
    (hq : it.rows.data.rd.pos ≤ rd.pos + M) :
    ({ it with rows := { it.rows with data := { it.rows.data with rd } } } : TileIt).Low L M (W + 2 * M) K j := by
  have hL := h.table.near.data
  have hb := h.table.byte
  refine ⟨⟨⟨?_, h.table.near.noQ, h.table.near.offs, h.table.near.main, h.table.near.theap⟩, hp, ?_, fun hx => ?_, fun x hx => ?_⟩,
    h.first, h.rows, h.wide⟩
  · show rd.data.length = L
    rw [hd, hL]
  · show it.rows.data.byteOffset ≤ L + (W + 2 * M) + M
    omega
  · left
    show it.rows.data.byteOffset ≤ rd.pos + (W + 2 * M)
    rcases h.table.main hx with h1 | h1 <;> omega
  · obtain ⟨h1, h2⟩ := h.table.heap x hx
    exact ⟨h1, by show it.rows.data.byteOffset ≤ x.mainPos + (W + 2 * M); omega⟩

theorem fill_low {gz : Gunzip} {fuel : Nat} {off : Int} {r : Res Bool} {it' : TileIt} (h : it.Low L M W K j)
    (h1 : off ≤ M) (h2 : -(M : Int) ≤ off) (hf : it.fill .wrapping gz fuel off = some (r, it')) :
    it'.Low L M (W + 2 * M) K j := by
  have hp := h.table.pos
  have hL := h.table.near.data
  unfold fill at hf
  dsimp only at hf
  rcases seek_cases off it.rows.data.rd with ⟨q, hq, e⟩ | ⟨x, e⟩
  · rw [e] at hf
    dsimp only at hf
    split at hf
    · cases hf
    · cases hf
      exact Low.congr (h.mono (by omega) (Nat.le_refl _)) rfl
    · cases hf
      refine Low.congr (it := { it with rows := { it.rows with data := { it.rows.data with rd := _ } } })
        (h.moved (rd := { it.rows.data.rd with pos := q + min _ (it.rows.data.rd.data.length - q) }) rfl ?_ ?_) rfl
      · dsimp only
        omega
      · dsimp only
        omega
    · cases hf
      exact h.moved rfl (by dsimp only; omega) (by dsimp only; omega)
  · rw [e] at hf
    cases hf
    exact Low.congr (h.mono (by omega) (Nat.le_refl _)) rfl

theorem arrayOffset_short {vs : List DataValue} {i n : Nat} (hv : ∀ v ∈ vs, Short v) (h : arrayOffset vs i = .ok n) :
    n < 2 ^ 32 := by
  unfold arrayOffset at h
  split at h
  · rename_i hx
    cases h
    exact hv _ (List.mem_of_getElem? hx)
  · rename_i hx
    exact (hv _ (List.mem_of_getElem? hx)).elim
  · cases h

theorem openTile_low {gz : Gunzip} {fuel : Nat} {vs : List DataValue} {r : Res Bool} {it' : TileIt} (h : it.Low L M W K j)
    (hj : j ≤ K) (hb : L + W + M + M + M < 2 ^ 62) (hv : ∀ v ∈ vs, Short v)
    (hf : it.openTile .wrapping gz fuel vs = some (r, it')) : it'.Low L M (W + 2 * M) K j := by
  unfold openTile at hf
  split at hf
  · rename_i offset n ho _
    have ho := arrayOffset_short hv ho
    have hth := h.table.near.theap
    have hrow : it.rows.row * it.rows.data.ctx.naxis1 ≤ M :=
      Nat.le_trans (Nat.mul_le_mul_right _ (Nat.le_trans h.rows hj)) h.wide
    dsimp only at hf
    split at hf
    · rw [tileOffset_reach (by omega)] at hf
      dsimp only at hf
      refine fill_low (it := { it with nPixels := n, remaining := n, kw := _ }) (h.congr rfl) ?_ ?_ hf
      · omega
      · omega
    · cases hf
      exact Low.congr (h.mono (by omega) (Nat.le_refl _)) rfl
  · cases hf
    exact h.mono (by omega) (Nat.le_refl _)

theorem load_low {gz : Gunzip} {fuel : Nat} {r : Res Bool} {it' : TileIt} (h : it.Low L M W K j)
    (hj : j + 1 ≤ K) (hMW : M ≤ W) (hb : L + W + M + M + M < 2 ^ 62) (hp : r ≠ .panic)
    (hf : it.load .wrapping gz fuel = some (r, it')) : it'.Low L M (W + 2 * M) K (j + 1) := by
  unfold load TableRows.next at hf
  have key : ∀ {x u}, collect .wrapping fuel it.rows.row it.rows.data [] = some (x, u) → x ≠ .panic → ∀ k ≤ j + 1,
      ({ it with rows := { data := u, row := k } } : TileIt).Low L M W K (j + 1) := by
    intro x u e hx k hk
    refine ⟨collect_low h.table h.first hMW (by omega) e, collect_first h.table h.first hMW (by omega) e hx, hk, ?_⟩
    show K * u.ctx.naxis1 ≤ M
    rw [collect_same e]
    exact h.wide
  have hrow := h.rows
  cases hc : collect .wrapping fuel it.rows.row it.rows.data [] with
  | none => rw [hc] at hf; cases hf
  | some y =>
    obtain ⟨x, u⟩ := y
    rw [hc] at hf
    cases x with
    | panic => cases hf; exact absurd rfl hp
    | err e =>
      cases hf
      exact (key hc (fun h => by cases h) it.rows.row (by omega)).mono (by omega) (Nat.le_refl _)
    | ok o =>
      cases o with
      | none =>
        cases hf
        exact (key hc (fun h => by cases h) it.rows.row (by omega)).mono (by omega) (Nat.le_refl _)
      | some vs =>
        dsimp only at hf
        exact openTile_low (key hc (fun h => by cases h) (it.rows.row + 1) (by omega)) hj hb
          (collect_short h.table.near.noQ (fun v hv => by cases hv) hc) hf

theorem next_low {gz : Gunzip} {fuel : Nat} {r : Res (Option TilePixel)} {it' : TileIt} (h : it.Low L M W K j)
    (hj : j + 1 ≤ K) (hMW : M ≤ W) (hb : L + W + M + M + M < 2 ^ 62) (hp : r ≠ .panic)
    (hf : it.next .wrapping gz fuel = some (r, it')) : it'.Low L M (W + 2 * M) K (j + 1) := by
  have hpix : ∀ {x : TileIt} {W' j' : Nat}, x.Low L M W' K j' → some (x.pixel .wrapping) = some (r, it') → it'.Low L M W' K j' := by
    intro x W' j' hx e
    refine hx.congr ?_
    have e := congrArg Prod.snd (Option.some.inj e)
    dsimp only at e
    rw [← e]
    exact pixel_rows _ _
  unfold next at hf
  split at hf
  · split at hf
    · cases hf
    · rename_i e
      exact hpix (load_low h hj hMW hb (fun h => by cases h) e) hf
    · rename_i e
      cases hf
      exact load_low h hj hMW hb (fun h => by cases h) e
    · rename_i e
      cases hf
      exact load_low h hj hMW hb (fun h => by cases h) e
    · cases hf
      exact absurd rfl hp
  · exact (hpix h hf).mono (by omega) (by omega)

end TileIt

theorem It.Low.mono {L M W W' : Nat} {i : It} (h : i.Low L M W) (hw : W ≤ W') : i.Low L M W' :=
  ⟨h.data, by have := h.pos; omega, h.cur, h.size⟩

/-- What is opened, with its reader at most `W` bytes after the end of the data, and with at most `j` rows read of a compressed
image. -/
def OpenUnit.Low (L M W K j : Nat) : OpenUnit → Prop
  | .image d => d.pixels.Low L M W
  | .bytes b => b.rd.data.length = L ∧ b.rd.pos ≤ L + W
  | .table t => t.Low L M W
  | .rows r => r.data.Low L M W
  | .tiles it => it.Low L M W K j

theorem OpenUnit.Low.rd {L M W K j : Nat} {o : OpenUnit} (h : o.Low L M W K j) :
    o.rd.data.length = L ∧ o.rd.pos ≤ L + W := by
  cases o with
  | image d => exact ⟨It.Low.data h, It.Low.pos h⟩
  | bytes b => exact h
  | table t => exact ⟨TableData.Near.data (TableData.Low.near h), TableData.Low.pos h⟩
  | rows r => exact ⟨TableData.Near.data (TableData.Low.near h), TableData.Low.pos h⟩
  | tiles t => exact ⟨TableData.Near.data (TableData.Low.near (TileIt.Low.table h)), TableData.Low.pos (TileIt.Low.table h)⟩

end Fitsrs

import Verif.Spec.Session
import Verif.Lemmas.Next
import Verif.Lemmas.History
import Verif.Props.C29_C32
/-
Lemmas on programs: what is done with an opened data unit does not change the contents of the file.
-/

namespace Fitsrs
open Spec Fits

/-! ### The contents of the file -/

namespace TableData

theorem advance_data (p : Profile) (off : Int) (t : TableData) : (t.advance p off).2.rd.data = t.rd.data := by
  have hs := Reader.seekRelative_data (r := t.rd) (o := off)
  unfold advance
  split
  · rename_i hq
    rw [hq] at hs
    split <;> exact hs
  · rename_i hq; rw [hq] at hs; exact hs
  · rename_i hq; rw [hq] at hs; exact hs

theorem seekNext_data (p : Profile) (a b : Bool) (t : TableData) : (t.seekNext p a b).2.rd.data = t.rd.data := by
  unfold seekNext
  dsimp only
  have h : (if a then { t with row := t.row + 1 } else t : TableData).rd = t.rd := by split <;> rfl
  generalize (if a then { t with row := t.row + 1 } else t : TableData) = u at h
  rw [← h]
  split
  · split
    · exact advance_data _ _ _
    · rfl
    · rfl
  · split
    · exact advance_data _ _ _
    · rfl
    · rfl

theorem seekToNextCol_data (p : Profile) (t : TableData) : (t.seekToNextCol p).2.rd.data = t.rd.data := by
  unfold seekToNextCol
  split
  · exact seekNext_data _ _ _ _
  · rfl

theorem seekToRow_data (p : Profile) (i : Nat) (t : TableData) : (t.seekToRow p i).2.rd.data = t.rd.data := by
  unfold seekToRow
  split
  · rfl
  dsimp only
  split
  · rfl
  split
  · split
    · rename_i off _
      have hs := Reader.seekRelative_data (r := t.rd) (o := off)
      split <;> rename_i hq <;> rw [hq] at hs <;> exact hs
    · rfl
    · rfl
  · rfl
  · rfl

theorem jumpToHeap_data (p : Profile) (ty : ElemTy) (o n s : Nat) (t : TableData) :
    (t.jumpToHeap p ty o n s).2.rd.data = t.rd.data := by
  unfold jumpToHeap
  split
  · rfl
  split
  · rename_i off _
    have hs := Reader.seekRelative_data (r := t.rd) (o := off)
    split
    · rename_i hq
      rw [hq] at hs
      split <;> exact hs
    · rename_i hq; rw [hq] at hs; exact hs
    · rename_i hq; rw [hq] at hs; exact hs
  · rfl
  · rfl

theorem jumpToMainTable_data (t : TableData) : t.jumpToMainTable.rd.data = t.rd.data := by
  unfold jumpToMainTable
  split <;> rfl

theorem finish_data (v : DataValue) (r : Res Unit × TableData) : (finish v r).2 = r.2 := by
  unfold finish
  split <;> rfl

theorem nextInHeap_data (p : Profile) (c : Nat) (h : HeapState) (t : TableData) :
    (t.nextInHeap p c h).2.rd.data = t.rd.data := by
  have hs := Reader.readExact_keeps (r := t.rd) (n := h.ty.bytes)
  unfold nextInHeap
  split
  · split
    · rename_i hq
      rw [hq] at hs
      split
      · dsimp only
        split
        · rw [finish_data, seekToNextCol_data, jumpToMainTable_data]
          exact hs
        · exact hs
      · exact hs
      · exact hs
    · rename_i hq; rw [hq] at hs; exact hs
  · rfl
  · rfl

theorem nextPlain_data (p : Profile) (c : Nat) (ty : ElemTy) (k : Nat) (t : TableData) :
    (t.nextPlain p c ty k).2.rd.data = t.rd.data := by
  have hs := Reader.readExact_keeps (r := t.rd) (n := ty.bytes)
  unfold nextPlain
  split
  · rename_i hq
    rw [hq] at hs
    dsimp only
    split
    · rw [finish_data, seekToNextCol_data]
      exact hs
    · exact hs
  · rename_i hq; rw [hq] at hs; exact hs

theorem nextArray_data (p : Profile) (c : Nat) (ty : ElemTy) (k : Nat) (mk : Nat → Nat → DataValue) (t : TableData) :
    (t.nextArray p c ty k mk).2.rd.data = t.rd.data := by
  have hs := Reader.readExact_keeps (r := t.rd) (n := k + k)
  unfold nextArray
  split
  · rename_i hq
    rw [hq] at hs
    dsimp only
    split
    · split
      all_goals
        rename_i hj
        have hd := congrArg (fun x => x.2.rd.data) hj
        dsimp only at hd
        rw [jumpToHeap_data] at hd
        dsimp only at hd
      · split
        · rw [nextInHeap_data, ← hd]; exact hs
        · rw [← hd]; exact hs
      · rw [← hd]; exact hs
      · rw [← hd]; exact hs
    · rw [finish_data, seekToNextCol_data]
      exact hs
  · rename_i hq; rw [hq] at hs; exact hs

theorem toFirstCol_data (p : Profile) (c : Nat) (t : TableData) : (t.toFirstCol p c).2.rd.data = t.rd.data := by
  unfold toFirstCol
  split
  · dsimp only
    split
    · rfl
    · rename_i o _
      have hs := advance_data p (asI64 o) { t with seekFirst := false }
      split <;> rename_i hq <;> rw [hq] at hs <;> exact hs
  · rfl

theorem nextAt_data (p : Profile) (c : Nat) (t : TableData) : (t.nextAt p c).2.rd.data = t.rd.data := by
  unfold nextAt
  split
  · exact nextInHeap_data _ _ _ _
  split
  · rfl
  split
  · rfl
  · exact nextPlain_data _ _ _ _ _
  · exact nextArray_data _ _ _ _ _ _
  · exact nextArray_data _ _ _ _ _ _

theorem next_data (p : Profile) (t : TableData) : (t.next p).2.rd.data = t.rd.data := by
  unfold TableData.next
  split
  · rfl
  · rename_i c _
    have hs := toFirstCol_data p c t
    split
    · rename_i hq; rw [hq] at hs; exact hs
    · rename_i hq; rw [hq] at hs; exact (nextAt_data _ _ _).trans hs

end TableData

namespace TableRows

theorem collect_data (p : Profile) (fuel row : Nat) (t : TableData) (acc : List DataValue)
    {r : Res (Option (List DataValue))} {u : TableData} (h : collect p fuel row t acc = some (r, u)) :
    u.rd.data = t.rd.data := by
  induction fuel generalizing t acc with
  | zero => simp [collect] at h
  | succ n ih =>
    unfold collect at h
    split at h
    · have hs := TableData.next_data p t
      split at h
      · rename_i hq; rw [hq] at hs; exact (ih _ _ h).trans hs
      all_goals
        rename_i hq; rw [hq] at hs
        cases h
        exact hs
    · cases h; rfl

theorem next_data (p : Profile) (fuel : Nat) (t : TableRows) {r : Res (Option (List DataValue))} {u : TableRows}
    (h : t.next p fuel = some (r, u)) : u.data.rd.data = t.data.rd.data := by
  unfold TableRows.next at h
  split at h
  · cases h
  · rename_i hc
    cases h
    exact collect_data _ _ _ _ _ hc
  · rename_i hc
    cases h
    exact collect_data _ _ _ _ _ hc

end TableRows

namespace TileIt

theorem fill_data (p : Profile) (gz : Gunzip) (fuel : Nat) (off : Int) (it : TileIt) {r : Res Bool}
    {u : TileIt} (h : it.fill p gz fuel off = some (r, u)) : u.rows.data.rd.data = it.rows.data.rd.data := by
  unfold fill at h
  dsimp only at h
  have hs := Reader.seekRelative_data (r := it.rows.data.rd) (o := off)
  split at h
  · rename_i hq
    rw [hq] at hs
    split at h
    · cases h
    · cases h; rfl
    · cases h; exact hs
    · cases h; exact hs
  · rename_i hq; rw [hq] at hs; cases h; exact hs
  · rename_i hq; rw [hq] at hs; cases h; exact hs

theorem openTile_data (p : Profile) (gz : Gunzip) (fuel : Nat) (vs : List DataValue) (it : TileIt)
    {r : Res Bool} {u : TileIt} (h : it.openTile p gz fuel vs = some (r, u)) :
    u.rows.data.rd.data = it.rows.data.rd.data := by
  unfold openTile at h
  split at h
  · dsimp only at h
    split at h
    · split at h
      · have := fill_data _ _ _ _ _ h
        exact this
      · cases h; rfl
    · cases h; rfl
  · cases h; rfl

theorem load_data (p : Profile) (gz : Gunzip) (fuel : Nat) (it : TileIt)
    {r : Res Bool} {u : TileIt} (h : it.load p gz fuel = some (r, u)) :
    u.rows.data.rd.data = it.rows.data.rd.data := by
  unfold load at h
  split at h
  · cases h
  all_goals
    rename_i hq
    have hs := TableRows.next_data _ _ _ hq
  · exact (openTile_data _ _ _ _ _ h).trans hs
  · cases h; exact hs
  · cases h; exact hs
  · cases h; exact hs

theorem pixel_rows (p : Profile) (it : TileIt) : (it.pixel p).2.rows = it.rows := by
  unfold pixel
  split
  · split <;> rfl
  · rfl

theorem next_data (p : Profile) (gz : Gunzip) (fuel : Nat) (it : TileIt)
    {r : Res (Option TilePixel)} {u : TileIt} (h : it.next p gz fuel = some (r, u)) :
    u.rows.data.rd.data = it.rows.data.rd.data := by
  unfold TileIt.next at h
  split at h
  · split at h
    · cases h
    all_goals
      rename_i hq
      have hs := load_data _ _ _ _ hq
    · have := Option.some.inj h
      have := congrArg (fun x => x.2.rows) this
      dsimp only at this
      rw [← this, pixel_rows]
      exact hs
    · cases h; exact hs
    · cases h; exact hs
    · cases h; exact hs
  · have := Option.some.inj h
    have := congrArg (fun x => x.2.rows) this
    dsimp only at this
    rw [← this, pixel_rows]

end TileIt

theorem ByteStream.next_data (s : ByteStream) : s.next.2.rd.data = s.rd.data := by
  unfold ByteStream.next
  split
  · rfl
  · split <;> rfl

/-! ### Opening and using a data unit -/

theorem TableData.new_rd {p : Profile} {rd : Reader} {x : BinTable} {n : Nat} {t : TableData}
    (h : TableData.new p rd x n = .ok t) : t.rd = rd := by
  unfold TableData.new at h
  repeat
    first
    | obtain ⟨_, -, h⟩ := Res.bind_eq_ok.1 h
    | (cases h; rfl)

theorem TileIt.new_rd {p : Profile} {t : TableData} {h : Header BinTable} {z : TileCompressedImage} {it : TileIt}
    (e : TileIt.new p t h z = .ok it) : it.rows.data.rd = t.rd := by
  unfold TileIt.new at e
  obtain ⟨n, -, e⟩ := Res.bind_eq_ok.1 e
  obtain ⟨size, -, e⟩ := Res.bind_eq_ok.1 e
  split at e
  · cases e
  obtain ⟨kw, -, e⟩ := Res.bind_eq_ok.1 e
  cases e
  rfl

/-- `get_data` does not move the reader. -/
theorem Fits.getData_rd {p : Profile} {f : Fits} {h : HDU} {o : OpenUnit} (e : f.getData p h = .ok o) : o.rd = f.rd := by
  have img : ∀ (x : Hdu Image), (f.getImage p x).map OpenUnit.image = .ok o → o.rd = f.rd := by
    intro x e
    obtain ⟨d, hd, rfl⟩ := Res.map_eq_ok.1 e
    unfold Fits.getImage ImageData.new at hd
    obtain ⟨n, -, hd⟩ := Res.bind_eq_ok.1 hd
    cases hd
    rfl
  cases h with
  | primary x => exact img x e
  | image x => exact img x e
  | asciiTable x =>
    obtain ⟨d, hd, rfl⟩ := Res.map_eq_ok.1 e
    unfold Fits.openAscii at hd
    obtain ⟨n, -, hd⟩ := Res.bind_eq_ok.1 hd
    cases hd
    rfl
  | binTable x =>
    unfold Fits.getData at e
    dsimp only at e
    split at e
    · obtain ⟨d, hd, rfl⟩ := Res.map_eq_ok.1 e
      unfold Fits.getTiles at hd
      obtain ⟨t, ht, hd⟩ := Res.bind_eq_ok.1 hd
      exact (TileIt.new_rd hd).trans (TableData.new_rd ht)
    · obtain ⟨d, hd, rfl⟩ := Res.map_eq_ok.1 e
      unfold Fits.getTable at hd
      obtain ⟨t, ht, hd⟩ := Res.bind_eq_ok.1 hd
      have := TableData.new_rd ht
      cases hd
      show (if _ then _ else _ : TableData).rd = _
      split
      · exact this
      · exact this

namespace Session

theorem nextItem_data {p : Profile} {gz : Gunzip} {fuel : Nat} {o u : OpenUnit} {r : Res Seen}
    (h : nextItem p gz fuel o = some (r, u)) : u.rd.data = o.rd.data := by
  cases o with
  | image d => cases h; exact It.next_rd _
  | bytes b => cases h; exact ByteStream.next_data _
  | table t => cases h; exact TableData.next_data _ _
  | rows t =>
    unfold nextItem at h
    dsimp only at h
    cases hn : t.next p fuel with
    | none => rw [hn] at h; cases h
    | some x =>
      rw [hn] at h
      cases h
      exact TableRows.next_data _ _ _ hn
  | tiles t =>
    unfold nextItem at h
    dsimp only at h
    cases hn : t.next p gz fuel with
    | none => rw [hn] at h; cases h
    | some x =>
      rw [hn] at h
      cases h
      exact TileIt.next_data _ _ _ _ hn

/-- What is seen is not an HDU. -/
def NotHdu : Res Seen → Prop
  | .ok (.hdu _) => False
  | _ => True

theorem nextItem_notHdu {p : Profile} {gz : Gunzip} {fuel : Nat} {o u : OpenUnit} {r : Res Seen}
    (h : nextItem p gz fuel o = some (r, u)) : NotHdu r := by
  have key : ∀ {α : Type} {g : α → Seen} (x : Res α), (∀ a, NotHdu (.ok (g a))) → NotHdu (x.map g) := by
    intro α g x hg
    cases x with
    | ok a => exact hg a
    | err e => trivial
    | panic => trivial
  cases o with
  | image d => cases h; trivial
  | bytes b => cases h; trivial
  | table t => cases h; exact key _ fun _ => trivial
  | rows t =>
    unfold nextItem at h
    dsimp only at h
    cases hn : t.next p fuel with
    | none => rw [hn] at h; cases h
    | some x =>
      rw [hn] at h
      cases h
      exact key _ fun _ => trivial
  | tiles t =>
    unfold nextItem at h
    dsimp only at h
    cases hn : t.next p gz fuel with
    | none => rw [hn] at h; cases h
    | some x =>
      rw [hn] at h
      cases h
      exact key _ fun _ => trivial

theorem onOpened_data {p : Profile} {c : Call} {o u : OpenUnit} {r : Res Seen}
    (h : onOpened p c o = (r, some u)) : u.rd.data = o.rd.data := by
  unfold onOpened at h
  split at h
  · cases h; exact It.readValue_rd _ _ _
  · cases h
  · cases h; rfl
  · cases h; exact TableData.seekToRow_data _ _ _
  all_goals cases h; rfl

theorem onOpened_notHdu {p : Profile} {c : Call} {o : OpenUnit} {r : Res Seen} {u : Option OpenUnit}
    (h : onOpened p c o = (r, u)) : NotHdu r := by
  have key : ∀ {α : Type} {g : α → Seen} (x : Res α), (∀ a, NotHdu (.ok (g a))) → NotHdu (x.map g) := by
    intro α g x hg
    cases x with
    | ok a => exact hg a
    | err e => trivial
    | panic => trivial
  unfold onOpened at h
  split at h
  all_goals cases h; first | trivial | exact key _ fun _ => trivial

/-- The iterator is in the state `f`, but for the position of the reader. -/
structure At (s : Session) (f : Fits) : Prop where
  start : s.close.fits.start = f.start
  posStart : s.close.fits.posStart = f.posStart
  numBytes : s.close.fits.numBytes = f.numBytes
  errored : s.close.fits.errored = f.errored
  data : s.close.fits.rd.data = f.rd.data
  first : f.start = true → s.fits = f ∧ s.opened = none ∧ s.hdus = []

theorem close_put {s : Session} {o : OpenUnit} : (s.put o).close.fits = { s.fits with rd := o.rd } := rfl

theorem close_opened {s : Session} {o : OpenUnit} (h : s.opened = some o) :
    s.close.fits = { s.fits with rd := o.rd } := by
  unfold close
  rw [h]

theorem close_close {s : Session} : s.close.close = s.close := by
  cases s with
  | mk f hs o => cases o <;> rfl

theorem close_hdus {s : Session} : s.close.hdus = s.hdus := by
  cases s with
  | mk f hs o => cases o <;> rfl

theorem close_none {s : Session} (h : s.opened = none) : s.close = s := by
  unfold close
  rw [h]

theorem close_isNone {s : Session} : s.close.opened = none := by
  cases s with
  | mk f hs o => cases o <;> rfl

theorem openData_close {p : Profile} {k : Nat} {s s' : Session} {r : Res Seen} (ho : s.opened = none)
    (h : s.openData p k = (r, s')) : s'.close = s ∧ NotHdu r ∧ (s.hdus = [] → s' = s) := by
  unfold openData at h
  split at h
  · cases h
    exact ⟨close_none ho, trivial, fun _ => rfl⟩
  · rename_i x hx
    have hne : s.hdus ≠ [] := by
      intro e
      rw [e] at hx
      simp at hx
    split at h
    · rename_i o hg
      cases h
      refine ⟨?_, trivial, fun e => absurd e hne⟩
      have := getData_rd hg
      cases s with
      | mk f hs q =>
        dsimp only at ho this
        subst ho
        show Session.mk { f with rd := o.rd } hs none = _
        rw [this]
    · cases h
      exact ⟨close_none ho, trivial, fun _ => rfl⟩
    · cases h
      exact ⟨close_none ho, trivial, fun _ => rfl⟩

/-- The calls other than `next` on the iterator keep the iterator where it is. -/
theorem call_at {p : Profile} {gz : Gunzip} {fuel : Nat} {c : Call} {s s' : Session} {f : Fits}
    {r : Res Seen} (hc : c ≠ .hdu) (ha : s.At f) (h : s.call p gz fuel c = some (r, s')) :
    s'.At f ∧ NotHdu r ∧ s'.hdus = s.hdus := by
  have hput : ∀ o u : OpenUnit, s.opened = some o → u.rd.data = o.rd.data → (s.put u).At f := by
    intro o u ho hu
    obtain ⟨a, b, c, d, e, g⟩ := ha
    rw [close_opened ho] at a b c d e
    refine ⟨a, b, c, d, hu.trans e, fun hs => ?_⟩
    rw [(g hs).2.1] at ho
    cases ho
  unfold call at h
  split at h
  · exact absurd rfl hc
  · rename_i k
    have h := Option.some.inj h
    obtain ⟨e1, e2, e3⟩ := openData_close close_isNone h
    have e4 : s'.hdus = s.hdus := by
      have := close_hdus (s := s')
      rw [e1, close_hdus] at this
      exact this.symm
    refine ⟨?_, e2, e4⟩
    obtain ⟨a, b, c, d, e, g⟩ := ha
    rw [← e1] at a b c d e
    refine ⟨a, b, c, d, e, fun hs => ?_⟩
    obtain ⟨g1, g2, g3⟩ := g hs
    have := e3 (close_hdus.trans g3)
    rw [this, close_none g2]
    exact ⟨g1, g2, g3⟩
  · split at h
    · cases h
      exact ⟨ha, trivial, rfl⟩
    · rename_i o ho
      unfold useOpened at h
      split at h
      · cases hn : nextItem p gz fuel o with
        | none => rw [hn] at h; cases h
        | some x =>
          rw [hn] at h
          cases h
          exact ⟨hput o _ ho (nextItem_data hn), nextItem_notHdu hn, rfl⟩
      · split at h
        · rename_i hn
          cases h
          exact ⟨hput o _ ho (onOpened_data hn), onOpened_notHdu hn, rfl⟩
        · rename_i hn
          cases h
          obtain ⟨a, b, c, d, e, g⟩ := ha
          rw [← close_close] at a b c d e
          refine ⟨⟨a, b, c, d, e, fun hs => ?_⟩, onOpened_notHdu hn, close_hdus⟩
          rw [(g hs).2.1] at ho
          cases ho

/-! ### The next HDU -/

/-- The next HDU read where the last data unit ends. -/
theorem next_ready {p : Profile} {f : Fits} (hs : f.start = false) (he : f.errored = false) (hr : Ready p f) :
    f.next p = record p
      (extensionItem (extensionAt p f.rd.data (f.posStart + roundUp2880 f.numBytes)))
      { f with rd := (extensionAt p f.rd.data (f.posStart + roundUp2880 f.numBytes)).2.rd } := by
  cases p with
  | checked => exact next_inside hs he (hr.inside rfl).1 (hr.inside rfl).2 hr.fits
  | wrapping => exact next_of_skip hs he (consumeUntilNextHdu_wrapping hr.small hr.fits)

/-- What is seen when the iterator gives an item. -/
def seenOf : Option (Res HDU) → Res Seen
  | none => .ok (.hdu none)
  | some (.ok h) => .ok (.hdu (some h))
  | some (.err e) => .err e
  | some .panic => .panic

theorem nextHdu_eq (p : Profile) (s : Session) :
    s.nextHdu p = (seenOf (s.fits.next p).1, { s with
      fits := (s.fits.next p).2,
      hdus := match (s.fits.next p).1 with | some (.ok h) => h :: s.hdus | _ => s.hdus }) := by
  unfold nextHdu
  split <;> rename_i e <;> rw [e] <;> rfl

/-- Two states of the iterator that differ in the position of the reader only give the same HDU. -/
theorem next_same {p : Profile} {f g : Fits} (h1 : g.start = f.start) (h2 : g.posStart = f.posStart)
    (h3 : g.numBytes = f.numBytes) (h4 : g.errored = f.errored) (h5 : g.rd.data = f.rd.data)
    (hs : f.start = false) (he : f.errored = false) (hf : Ready p f) (hg : Ready p g) : g.next p = f.next p := by
  rw [next_ready hs he hf, next_ready (h1.trans hs) (h4.trans he) hg, h2, h3, h5]
  cases f
  cases g
  simp only at h1 h2 h3 h4 h5
  subst h1 h2 h3 h4
  rfl

end Session

end Fitsrs

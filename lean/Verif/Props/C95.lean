import Verif.Model.InputTiles
import Verif.Props.C94
import Verif.Props.C84
/-
C95: the pixels of compressed images do not depend on the kind of reader.
-/

namespace Fitsrs
open Spec

/-- The positions to which `next` moves the reader are below the limit: those of the row, of the tile and after the row. -/
def Spec.TileWithin (limit : Nat) (p : Profile) (fuel : Nat) (it : TileIt) : Prop :=
  it.remaining = 0 → ((it.withRd ⟨[], 0⟩).rows.nextP p fuel).Below limit it.rows.data.rd ∧
    ∀ vs rows, it.rows.next p fuel = some (.ok (some vs), rows) →
      ∀ it' off, ({ it with rows } : TileIt).prepare p vs = some (it', off) →
        rows.data.rd.pos < limit ∧ (rows.data.rd.seekRelative off).2.pos < limit

/-- The call is one of those of the model, the positions are below the limit, and what follows the use of a stream of bytes
is the next HDU. -/
def Spec.EveryWithin (limit : Nat) (p : Profile) (fuel : Nat) (c : Call) (s : Session) : Prop :=
  match c, s.opened with
  | .next, some (.tiles it) => TileWithin limit p fuel it
  | .rowIter, some (.tiles _) => True
  | .tableData, some (.tiles _) => True
  | c, _ => AnyWithin limit p fuel c s

/-- All the calls of a program are so, up to the first in which a read, a move or a decompression fails. -/
def Spec.WithinEvery (limit : Nat) (p : Profile) (gz : Gunzip) (fuel : Nat) : List Call → Session → Prop
  | [], _ => True
  | c :: cs, s => EveryWithin limit p fuel c s ∧
    ∀ r s', s.call p gz fuel c = some (r, s') → s.failsEvery p gz fuel c = false → Settled s' ∧ WithinEvery limit p gz fuel cs s'

/-! ### Tiles -/

namespace TileIt

theorem withRd_rd (rd : Reader) (it : TileIt) : (it.withRd rd).rows.data.rd = rd := rfl

theorem withRd_withRd (r r' : Reader) (it : TileIt) : (it.withRd r).withRd r' = it.withRd r' := rfl

theorem withRd_self (it : TileIt) : it.withRd it.rows.data.rd = it := rfl

theorem pixel_withRd (p : Profile) (rd : Reader) (it : TileIt) :
    (it.withRd rd).pixel p = ((it.pixel p).1, (it.pixel p).2.withRd rd) := by
  unfold pixel
  show (match usub p it.nPixels it.remaining >>= fun i => rawValue it.ty it.cmp it.buf i >>= toPixel it.kw with
    | .ok (x, kw) =>
      match usub p it.remaining 1 with
      | .ok r => (Res.ok (some x), ({ it.withRd rd with kw, remaining := r } : TileIt))
      | _ => (.panic, { it.withRd rd with kw })
    | _ => (.panic, it.withRd rd)) = _
  rcases usub p it.nPixels it.remaining >>= fun i => rawValue it.ty it.cmp it.buf i >>= toPixel it.kw with ⟨x, kw⟩ | e | _
  · dsimp only
    cases usub p it.remaining 1 <;> rfl
  · rfl
  · rfl

theorem prepare_withRd (p : Profile) (vs : List DataValue) (rd : Reader) (it : TileIt) :
    (it.withRd rd).prepare p vs = (it.prepare p vs).map fun x => (x.1.withRd rd, x.2) := by
  unfold prepare
  show (match arrayOffset vs it.dataIdx, product p it.zTile 1 with
    | .ok offset, .ok n =>
      match tileKw p it.rows.row vs it.kw with
      | .ok kw =>
        match tileOffset p it.rows.row it.rows.data.ctx.naxis1 it.rows.data.ctx.theap offset with
        | .ok off => some ({ it.withRd rd with nPixels := n, remaining := n, kw }, off)
        | _ => none
      | _ => none
    | _, _ => none) = _
  rcases arrayOffset vs it.dataIdx with offset | e | _
  · rcases product p it.zTile 1 with n | e | _
    · dsimp only
      rcases tileKw p it.rows.row vs it.kw with kw | e | _
      · dsimp only
        rcases tileOffset p it.rows.row it.rows.data.ctx.naxis1 it.rows.data.ctx.theap offset with off | e | _ <;> rfl
      · rfl
      · rfl
    · rfl
    · rfl
  · rfl
  · rfl

theorem openTile_prepare (p : Profile) (gz : Gunzip) (fuel : Nat) (vs : List DataValue) (it : TileIt) :
    (∃ it' off, it.prepare p vs = some (it', off) ∧ it.openTile p gz fuel vs = it'.fill p gz fuel off ∧
      it'.rows = it.rows) ∨
    (it.prepare p vs = none ∧ ∃ it', it.openTile p gz fuel vs = some (.panic, it')) := by
  unfold prepare openTile
  rcases arrayOffset vs it.dataIdx with offset | e | _
  · rcases product p it.zTile 1 with n | e | _
    · dsimp only
      rcases tileKw p it.rows.row vs it.kw with kw | e | _
      · dsimp only
        rcases tileOffset p it.rows.row it.rows.data.ctx.naxis1 it.rows.data.ctx.theap offset with off | e | _
        · exact .inl ⟨_, _, rfl, rfl, rfl⟩
        · exact .inr ⟨rfl, _, rfl⟩
        · exact .inr ⟨rfl, _, rfl⟩
      · exact .inr ⟨rfl, _, rfl⟩
      · exact .inr ⟨rfl, _, rfl⟩
    · exact .inr ⟨rfl, _, rfl⟩
    · exact .inr ⟨rfl, _, rfl⟩
  · exact .inr ⟨rfl, _, rfl⟩
  · exact .inr ⟨rfl, _, rfl⟩

end TileIt

theorem Prog.fails_bad {α : Type} {bad : α → Prop} (x : Prog α) (hx : x.FailsAs bad) {r : Reader} (h : x.fails r = true) :
    bad (x.val r).1 := by
  induction x generalizing r with
  | done a => cases h
  | read n no k ih =>
    unfold fails at h
    rcases reads n r with ⟨bs, r', hr⟩ | ⟨e, r', hr⟩
    · rw [hr] at h
      rw [read_ok hr]
      exact ih bs (hx.2 bs) h
    · rw [read_err hr]
      exact hx.1 e
  | move off no k ih =>
    unfold fails at h
    rcases moves off r with ⟨r', hr⟩ | ⟨e, r', hr⟩
    · rw [hr] at h
      rw [move_ok hr]
      exact ih hx.2 h
    · rw [move_err hr]
      exact hx.1 e
  | tell k ih => exact ih _ (hx _) h
  | goto pos no k ih => exact ih hx.2 h

namespace Input
variable {σ : Type} {S : Input σ} {more : SomeBytes σ} {limit : Nat} {R : σ → Reader → Prop}

theorem drain_is (hM : Gives more False R) (fuel : Nat) {s : σ} {r : Reader} (h : R s r) (hf : (r.data.drop r.pos).length < fuel) :
    ∃ s' pos, drain more fuel s = (.ok (r.data.drop r.pos), s') ∧ R s' ⟨r.data, pos⟩ := by
  induction fuel generalizing s r with
  | zero => omega
  | succ fuel ih =>
    unfold drain
    rcases hM 32768 (by omega) h with ⟨k, hk, hk0, h1, h2⟩ | ⟨hF, -⟩
    · generalize more 32768 s = y at h1 h2
      obtain ⟨y1, y2⟩ := y
      dsimp only at h1 h2
      subst h1
      cases hb : (r.data.drop r.pos).take k with
      | nil =>
        rw [hb] at h2
        refine ⟨y2, _, ?_, h2⟩
        rcases List.take_eq_nil_iff.1 hb with h | h
        · exact absurd h hk0
        · rw [h]
      | cons b bs =>
        have hlen : ((r.data.drop r.pos).take k).length = bs.length + 1 := by rw [hb]; rfl
        have hlen' := hlen
        rw [List.length_take] at hlen'
        have hdrop : r.data.drop (r.pos + ((r.data.drop r.pos).take k).length) = (r.data.drop r.pos).drop k := by
          rw [← List.drop_drop, List.length_take]
          rcases Nat.le_total k (r.data.drop r.pos).length with hle | hle
          · rw [Nat.min_eq_left hle]
          · rw [Nat.min_eq_right hle, List.drop_of_length_le (Nat.le_refl _), List.drop_of_length_le hle]
        obtain ⟨s', pos, e1, e2⟩ := ih h2 (by
          dsimp only
          rw [hdrop, List.length_drop]
          omega)
        dsimp only at e1 e2
        rw [hdrop] at e1
        refine ⟨s', pos, ?_, e2⟩
        dsimp only
        rw [e1]
        dsimp only [Res.map]
        rw [← hb, List.take_append_drop]
    · exact hF.elim

/-- What is done with the reader for a tile. -/
theorem fillTile_same (hS : Simulates S False limit R) (hM : Gives more False R) (p : Profile) (gz : Gunzip) (fuel : Nat) (off : Int)
    (it : TileIt) {s : σ} {r : Reader} (h : R s r) (hl : r.pos < limit) (hl' : (r.seekRelative off).2.pos < limit) :
    ((it.withRd r).fill p gz fuel off = none ∧ S.fillTile more p gz fuel off it s = none) ∨
      ∃ res it1 it2 s', (it.withRd r).fill p gz fuel off = some (res, it2) ∧ S.fillTile more p gz fuel off it s = some (res, it1, s') ∧
        (res = .ok true → it2 = it1.withRd r ∧ R s' r) := by
  unfold TileIt.fill fillTile
  rw [TileIt.withRd_rd]
  obtain ⟨ht1, ht2⟩ := hS.tell h
  obtain ⟨hs1, hs2⟩ := hS.current off ht2 hl'
  generalize S.seekCurrent off (S.tell s).2 = x at hs1 hs2
  obtain ⟨x1, x2⟩ := x
  dsimp only at hs1 hs2
  rcases moves off r with ⟨r', hr⟩ | ⟨e, r', hr⟩
  · rw [hr] at hs1 hs2 ⊢
    dsimp only at hs1 hs2 ⊢
    subst hs1
    have hR := hs2 rfl
    dsimp only
    obtain ⟨s', pos, e1, e2⟩ := drain_is hM (S.size x2 + 1) hR (by
      rw [hS.size hR, List.length_drop]
      omega)
    rw [e1]
    dsimp only
    have hd : r'.data = r.data := by
      unfold Reader.seekRelative at hr
      dsimp only at hr
      split at hr <;> cases hr <;> rfl
    have hq : TileIt.decompress p gz fuel (it.withRd r).cmp (it.withRd r).nPixels (it.withRd r).buf.length (r'.data.drop r'.pos) =
        TileIt.decompress p gz fuel it.cmp it.nPixels it.buf.length (r'.data.drop r'.pos) := rfl
    rw [hq]
    clear hq
    rcases TileIt.decompress p gz fuel it.cmp it.nPixels it.buf.length (r'.data.drop r'.pos) with _ | (buf | e | _)
    · exact .inl ⟨rfl, rfl⟩
    · right
      obtain ⟨g1, g2⟩ := hS.goto r.pos e2 hl
      dsimp only
      rw [ht1]
      generalize S.seekStart r.pos s' = y at g1 g2
      obtain ⟨y1, y2⟩ := y
      dsimp only at g1 g2
      subst g1
      refine ⟨_, _, _, _, rfl, rfl, fun _ => ⟨rfl, ?_⟩⟩
      have : Reader.seekStart r.pos ⟨r'.data, pos⟩ = r := by
        rw [hd]
        rfl
      rw [this] at g2
      exact g2
    · exact .inr ⟨_, _, _, _, rfl, rfl, fun h => by cases h⟩
    · exact .inr ⟨_, _, _, _, rfl, rfl, fun h => by cases h⟩
  · rw [hr] at hs1 hs2 ⊢
    dsimp only at hs1 hs2 ⊢
    subst hs1
    exact .inr ⟨_, _, _, _, rfl, rfl, fun h => by cases h⟩

/-- The outcomes of `next`. -/
def TileSame (R : σ → Reader → Prop) (stops : Bool) (x : Option ((Res (Option TilePixel) × Bool) × TileIt × σ))
    (y : Option (Res (Option TilePixel) × TileIt)) : Prop :=
  (y = none ∧ x = none) ∨ ∃ v it1 it2 s', y = some (v, it2) ∧ x = some ((v, stops), it1, s') ∧
    (stops = false → it2 = it1.withRd it2.rows.data.rd ∧ R s' it2.rows.data.rd)

theorem openTile_same (hS : Simulates S False limit R) (hM : Gives more False R) (p : Profile) (gz : Gunzip) (fuel : Nat)
    (vs : List DataValue) (it : TileIt) {s : σ} {r : Reader} (h : R s r)
    (hw : ∀ it' off, (it.withRd r).prepare p vs = some (it', off) → r.pos < limit ∧ (r.seekRelative off).2.pos < limit) :
    TileSame R
      (match (it.withRd r).openTile p gz fuel vs with
        | some (.ok true, _) => false
        | _ => true)
      (S.openTile more p gz fuel vs it s)
      (match (it.withRd r).openTile p gz fuel vs with
        | none => none
        | some (.ok true, it) => some (it.pixel p)
        | some (.ok false, it) => some (.ok none, it)
        | some (.err _, it) => some (.ok none, it)
        | some (.panic, it) => some (.panic, it)) := by
  unfold openTile
  rcases TileIt.openTile_prepare p gz fuel vs (it.withRd r) with ⟨it', off, e1, e2, -⟩ | ⟨e1, it', e2⟩
  · obtain ⟨hl, hl'⟩ := hw it' off e1
    rw [e2]
    rw [TileIt.prepare_withRd] at e1
    cases e3 : it.prepare p vs with
    | none => rw [e3] at e1; cases e1
    | some x =>
      obtain ⟨it1, off1⟩ := x
      rw [e3] at e1
      obtain ⟨rfl, rfl⟩ : it1.withRd r = it' ∧ off1 = off := by
        have := Option.some.inj e1
        exact ⟨congrArg Prod.fst this, congrArg Prod.snd this⟩
      dsimp only
      rcases fillTile_same hS hM p gz fuel off1 it1 h hl hl' with ⟨f1, f2⟩ | ⟨res, i1, i2, s', f1, f2, f3⟩
      · rw [f1, f2]
        exact .inl ⟨rfl, rfl⟩
      · rw [f1, f2]
        rcases res with (_ | _) | e | _
        · exact .inr ⟨_, _, _, _, rfl, rfl, fun h => by cases h⟩
        · obtain ⟨rfl, hR⟩ := f3 rfl
          dsimp only
          rw [TileIt.pixel_withRd]
          exact .inr ⟨_, _, _, _, rfl, rfl, fun _ => ⟨rfl, hR⟩⟩
        · exact .inr ⟨_, _, _, _, rfl, rfl, fun h => by cases h⟩
        · exact .inr ⟨_, _, _, _, rfl, rfl, fun h => by cases h⟩
  · rw [e2]
    rw [TileIt.prepare_withRd] at e1
    cases e3 : it.prepare p vs with
    | none => exact .inr ⟨_, _, _, _, rfl, rfl, fun h => by cases h⟩
    | some x => rw [e3] at e1; cases e1

theorem nextTile_same (hS : Simulates S False limit R) (hM : Gives more False R) (p : Profile) (gz : Gunzip) (fuel : Nat) (it : TileIt)
    {s : σ} {r : Reader} (h : R s r) (hw : TileWithin limit p fuel (it.withRd r)) :
    TileSame R ((it.withRd r).stops p gz fuel) (S.nextTile more p gz fuel (it.withRd ⟨[], 0⟩) s) ((it.withRd r).next p gz fuel) := by
  unfold TileIt.stops nextTile TileIt.next
  rw [TileIt.withRd_withRd, TileIt.withRd_rd]
  by_cases hz : it.remaining = 0
  · rw [if_pos (show (it.withRd r).remaining = 0 from hz), if_pos (show (it.withRd ⟨[], 0⟩).remaining = 0 from hz),
      if_pos (show (it.withRd r).remaining = 0 from hz)]
    obtain ⟨hb, hw2⟩ := hw hz
    rw [TileIt.withRd_withRd, TileIt.withRd_rd] at hb
    have hfails : ((it.withRd ⟨[], 0⟩).rows.nextP p fuel).FailsAs fun x => ∃ t', x = some (.ok none, t') := by
      unfold TableRows.nextP
      refine (TableRows.collectP_fails p fuel _ _ _).map ?_
      rintro _ ⟨t', rfl⟩
      exact ⟨_, rfl⟩
    obtain ⟨v1, v2⟩ := TableRows.nextP_val p fuel (it.withRd ⟨[], 0⟩).rows r
    obtain ⟨e1, e2⟩ := (Prog.sim hS _ h hb hfails).resolve_right fun h => h.1
    have hrows : ({ (it.withRd ⟨[], 0⟩).rows with data := { (it.withRd ⟨[], 0⟩).rows.data with rd := r } } : TableRows) =
        (it.withRd r).rows := rfl
    rw [hrows] at v1 v2
    have hbad := Prog.fails_bad _ hfails (r := r)
    unfold TileIt.load
    generalize (it.withRd ⟨[], 0⟩).rows.nextP p fuel = prog at *
    generalize prog.on S s = x at e1 e2
    obtain ⟨x1, x2⟩ := x
    dsimp only at e1 e2
    subst e1
    rw [v1] at hbad ⊢
    generalize hy : (it.withRd r).rows.next p fuel = y at *
    rcases y with _ | ⟨res, rows⟩
    · exact .inl ⟨rfl, rfl⟩
    · have e3 := v2 _ rfl
      rw [e3] at e2
      have late : prog.fails r = false → R x2 rows.data.rd := e2
      rcases res with (_ | vs) | e | _
      · exact .inr ⟨_, _, _, _, rfl, rfl, fun hf => ⟨rfl, late hf⟩⟩
      · have hf : prog.fails r = false := by
          rcases hq : prog.fails r with _ | _
          · rfl
          · obtain ⟨t', ht⟩ := hbad hq
            cases ht
        have hR := late hf
        have hw3 := hw2 vs rows rfl
        exact openTile_same hS hM p gz fuel vs (({ it with rows } : TileIt).withRd ⟨[], 0⟩) hR hw3
      · exact .inr ⟨_, _, _, _, rfl, rfl, fun hf => ⟨rfl, late hf⟩⟩
      · exact .inr ⟨_, _, _, _, rfl, rfl, fun hf => by cases hf⟩
  · rw [if_neg (show ¬ (it.withRd r).remaining = 0 from hz), if_neg (show ¬ (it.withRd ⟨[], 0⟩).remaining = 0 from hz),
      if_neg (show ¬ (it.withRd r).remaining = 0 from hz)]
    rw [TileIt.pixel_withRd, TileIt.pixel_withRd]
    exact .inr ⟨_, _, _, _, rfl, rfl, fun _ => ⟨rfl, h⟩⟩

/-! ### Sessions -/

theorem callEvery_other (p : Profile) (gz : Gunzip) (fuel : Nat) (c : Call) (g : Session σ)
    (h : ∀ it, g.opened = some (.tiles it) → c ≠ .next ∧ c ≠ .rowIter ∧ c ≠ .tableData) :
    S.callEvery more p gz fuel c g = S.callAny more p fuel c g := by
  unfold callEvery
  split
  · rename_i it ho
    exact absurd rfl (h it ho).1
  · rename_i it ho
    exact absurd rfl (h it ho).2.1
  · rename_i it ho
    exact absurd rfl (h it ho).2.2
  · rfl

theorem failsEvery_other (p : Profile) (gz : Gunzip) (fuel : Nat) (c : Call) (s : Fitsrs.Session)
    (h : ∀ it, s.opened = some (.tiles it) → c ≠ .next ∧ c ≠ .rowIter ∧ c ≠ .tableData) :
    s.failsEvery p gz fuel c = s.failsAny p fuel c := by
  unfold Fitsrs.Session.failsEvery
  split
  · rename_i it ho
    exact absurd rfl (h it ho).1
  · rename_i it ho
    exact absurd rfl (h it ho).2.1
  · rename_i it ho
    exact absurd rfl (h it ho).2.2
  · rfl

theorem within_other {p : Profile} {fuel : Nat} {c : Call} {s : Fitsrs.Session} (hw : EveryWithin limit p fuel c s)
    (h : ∀ it, s.opened = some (.tiles it) → c ≠ .next ∧ c ≠ .rowIter ∧ c ≠ .tableData) : AnyWithin limit p fuel c s := by
  unfold EveryWithin at hw
  split at hw
  · rename_i it ho
    exact absurd rfl (h it ho).1
  · rename_i it ho
    exact absurd rfl (h it ho).2.1
  · rename_i it ho
    exact absurd rfl (h it ho).2.2
  · exact hw

theorem every_same (hS : Simulates S False limit R) (hM : Gives more False R) (p : Profile) (gz : Gunzip) (fuel : Nat) (c : Call)
    {g : Session σ} {s : Fitsrs.Session} (h : Kin R g s) (hw : EveryWithin limit p fuel c s) :
    AnySame False R (s.failsEvery p gz fuel c) (S.callEvery more p gz fuel c g) (s.call p gz fuel c) := by
  have tiles : ∀ it, g.opened = some (.tiles it) → Same R g s ∧ s.opened = some (.tiles (it.withRd s.close.fits.rd)) := by
    intro it hg
    rcases h with ⟨h, -⟩ | ⟨b, gb, pos, h⟩
    · refine ⟨h, ?_⟩
      rw [h.opened, hg]
      rfl
    · rw [h.opened'] at hg
      cases hg
  have tiles' : ∀ it, s.opened = some (.tiles it) → ∃ it', g.opened = some (.tiles it') := by
    intro it hs
    rcases h with ⟨h, -⟩ | ⟨b, gb, pos, h⟩
    · have ho := h.opened
      rw [hs] at ho
      cases hg : g.opened with
      | none => rw [hg] at ho; cases ho
      | some o =>
        rw [hg] at ho
        have ho := Option.some.inj ho
        cases o with
        | tiles it' => exact ⟨it', rfl⟩
        | _ => cases ho
    · rw [h.opened] at hs
      cases hs
  by_cases hc : ∃ it, g.opened = some (.tiles it) ∧ (c = .next ∨ c = .rowIter ∨ c = .tableData)
  · obtain ⟨it, hg, hc⟩ := hc
    obtain ⟨hsame, hs⟩ := tiles it hg
    rcases hc with rfl | rfl | rfl
    · unfold EveryWithin at hw
      rw [hs] at hw
      unfold Fitsrs.Session.failsEvery callEvery Fitsrs.Session.call
      rw [hs, hg]
      dsimp only
      have := nextTile_same hS hM p gz fuel it hsame.file.rd hw
      show AnySame False R _ _ (((TileIt.next p gz fuel (it.withRd s.close.fits.rd)).map _).map _)
      rcases this with ⟨h1, h2⟩ | ⟨v, it1, it2, s', h1, h2, h3⟩
      · rw [h1, h2]
        exact .inl (.inl ⟨rfl, rfl⟩)
      · rw [h1, h2]
        refine .inl (.inr ⟨_, _, _, rfl, rfl, fun hf => .inl ⟨hsame.hdus, ?_, ?_⟩⟩)
        · obtain ⟨-, hR⟩ := h3 hf
          rw [close_put]
          have hc := close_fits s
          exact ⟨hsame.file.start.trans (by rw [← hc]), hsame.file.posStart.trans (by rw [← hc]),
            hsame.file.numBytes.trans (by rw [← hc]), hsame.file.errored.trans (by rw [← hc]), hR⟩
        · obtain ⟨hi, -⟩ := h3 hf
          rw [close_put]
          show some (OpenUnit.tiles it2) = some (OpenUnit.tiles (it1.withRd it2.rows.data.rd))
          rw [← hi]
    · refine .inl (.inr ⟨.ok .unit, { g with opened := some (.rows it.rows) },
        s.put (.rows (it.withRd s.close.fits.rd).rows), ?_, ?_, fun _ => .inl ⟨hsame.hdus, ?_, ?_⟩⟩)
      · unfold Fitsrs.Session.call
        dsimp only
        rw [hs]
        rfl
      · unfold callEvery Fitsrs.Session.failsEvery
        rw [hg, hs]
      · rw [close_put]
        have hf := hsame.file
        rw [← close_fits s] at hf
        exact hf
      · rfl
    · refine .inl (.inr ⟨.ok .unit, { g with opened := some (.table it.rows.data) },
        s.put (.table (it.withRd s.close.fits.rd).rows.data), ?_, ?_, fun _ => .inl ⟨hsame.hdus, ?_, ?_⟩⟩)
      · unfold Fitsrs.Session.call
        dsimp only
        rw [hs]
        rfl
      · unfold callEvery Fitsrs.Session.failsEvery
        rw [hg, hs]
      · rw [close_put]
        have hf := hsame.file
        rw [← close_fits s] at hf
        exact hf
      · rfl
  · have o1 : ∀ it, g.opened = some (.tiles it) → c ≠ .next ∧ c ≠ .rowIter ∧ c ≠ .tableData := fun it hg =>
      ⟨fun e => hc ⟨it, hg, .inl e⟩, fun e => hc ⟨it, hg, .inr (.inl e)⟩, fun e => hc ⟨it, hg, .inr (.inr e)⟩⟩
    have o2 : ∀ it, s.opened = some (.tiles it) → c ≠ .next ∧ c ≠ .rowIter ∧ c ≠ .tableData := by
      intro it hs
      obtain ⟨it', hg⟩ := tiles' it hs
      exact o1 it' hg
    rw [callEvery_other p gz fuel c g o1, failsEvery_other p gz fuel c s o2]
    exact any_same hS hM p gz fuel c h (within_other hw o2)

/-- A whole program. -/
theorem runEvery_same (hS : Simulates S False limit R) (hM : Gives more False R) (p : Profile) (gz : Gunzip) (fuel : Nat)
    (cs : List Call) {g : Session σ} {s : Fitsrs.Session} (h : Kin R g s) (hw : WithinEvery limit p gz fuel cs s) :
    S.runEvery more p gz fuel cs g = s.runEvery p gz fuel cs := by
  induction cs generalizing g s with
  | nil => rfl
  | cons c cs ih =>
    unfold WithinEvery at hw
    have hc := every_same hS hM p gz fuel c h hw.1
    unfold runEvery Fitsrs.Session.runEvery
    rcases hc with (⟨hy, hx⟩ | ⟨r, g', s', hy, hx, hs⟩) | ⟨hF, -⟩
    · rw [hx, hy]
    · rw [hx, hy]
      cases hf : s.failsEvery p gz fuel c with
      | true => cases r <;> rfl
      | false =>
        obtain ⟨hset, hw2⟩ := hw.2 r s' hy hf
        have hkin : Kin R g' s' := by
          rcases hs hf with h | h
          · exact kin_of_same h hset
          · exact .inr h
        have hr := ih hkin hw2
        cases r with
        | panic => rfl
        | _ =>
          dsimp only
          rw [if_neg (by simp), hr]
    · exact hF.elim

end Input

/-- What a program sees is the beginning of what it sees if it goes on after a failure. -/
theorem C95_prefix (p : Profile) (gz : Gunzip) (fuel : Nat) (cs : List Call) (s : Session) :
    s.runEvery p gz fuel cs <+: s.run p gz fuel cs := by
  induction cs generalizing s with
  | nil => exact List.prefix_rfl
  | cons c cs ih =>
    unfold Session.runEvery Session.run
    rcases s.call p gz fuel c with _ | ⟨r, s'⟩
    · exact List.prefix_rfl
    · cases r with
      | panic => exact List.prefix_rfl
      | _ =>
        dsimp only
        split
        · exact ⟨_, rfl⟩
        · obtain ⟨t, ht⟩ := ih s'
          exact ⟨t, by rw [← ht]; rfl⟩

/-- **C95, files.** A program that reads a file of less than 2^63 bytes, with compressed images, through a `BufReader` sees what it
sees with the file in memory, whatever the capacity of the buffer and the gzip decoder are, and however the file delivers its bytes, as
long as reads do not fail. -/
theorem C95_file (p : Profile) (gz : Gunzip) (fuel : Nat) (data : List UInt8) (cap : Nat) (plan : List ReadEvent)
    (cs : List Call) (hd : data.length < 2 ^ 63) (hp : .fails ∉ plan)
    (hw : WithinEvery (2 ^ 63) p gz fuel cs (Session.new ⟨data, 0⟩)) :
    bufInput.runEvery bufSome p gz fuel cs (Input.Session.new (BufReader.new cap ⟨data, 0, plan⟩)) =
      (Session.new ⟨data, 0⟩).runEvery p gz fuel cs :=
  Input.runEvery_same (buf_simulates False) (buf_gives False) p gz fuel cs (Input.kin_new (reads_new hd (.inr hp))) hw

/-- **C95, FITSFile.** The same for a file opened with `FITSFile::open`. -/
theorem C95_fitsfile (p : Profile) (gz : Gunzip) (fuel : Nat) (data : List UInt8) (cap : Nat) (plan : List ReadEvent)
    (cs : List Call) (hd : data.length < 2 ^ 63) (hp : .fails ∉ plan)
    (hw : WithinEvery (2 ^ 63) p gz fuel cs (Session.new ⟨data, 0⟩)) :
    gzInput.runEvery bufSome p gz fuel cs (Input.Session.new (BufReader.new cap ⟨data, 0, plan⟩)) =
      (Session.new ⟨data, 0⟩).runEvery p gz fuel cs :=
  Input.runEvery_same (gz_simulates False) (buf_gives False) p gz fuel cs (Input.kin_new (reads_new hd (.inr hp))) hw

/-- **C95, memory.** The same for a `Cursor`, in either version. -/
theorem C95_cursor (limit : Nat) (p : Profile) (gz : Gunzip) (fuel : Nat) (data : List UInt8) (cs : List Call)
    (hw : WithinEvery limit p gz fuel cs (Session.new ⟨data, 0⟩)) :
    cursorInput.runEvery cursorSome p gz fuel cs (Input.Session.new ⟨data, 0⟩) = (Session.new ⟨data, 0⟩).runEvery p gz fuel cs ∧
      oldCursorInput.runEvery cursorSome p gz fuel cs (Input.Session.new ⟨data, 0⟩) =
        (Session.new ⟨data, 0⟩).runEvery p gz fuel cs :=
  ⟨Input.runEvery_same (cursor_simulates limit) cursor_gives p gz fuel cs (Input.kin_new rfl) hw,
    Input.runEvery_same (oldCursor_simulates limit) cursor_gives p gz fuel cs (Input.kin_new rfl) hw⟩

/-! ### Examples -/

def checkTileWithin (limit : Nat) (p : Profile) (fuel : Nat) (it : TileIt) : Bool :=
  decide (it.remaining ≠ 0) || (checkBelow limit ((it.withRd ⟨[], 0⟩).rows.nextP p fuel) it.rows.data.rd &&
    match it.rows.next p fuel with
    | some (.ok (some vs), rows) =>
      match ({ it with rows } : TileIt).prepare p vs with
      | some (_, off) => decide (rows.data.rd.pos < limit ∧ (rows.data.rd.seekRelative off).2.pos < limit)
      | none => true
    | _ => true)

theorem checkTileWithin_sound {limit : Nat} {p : Profile} {fuel : Nat} {it : TileIt}
    (h : checkTileWithin limit p fuel it = true) : TileWithin limit p fuel it := by
  intro hz
  unfold checkTileWithin at h
  rw [Bool.or_eq_true, Bool.and_eq_true] at h
  rcases h with h | ⟨h1, h2⟩
  · exact absurd hz (of_decide_eq_true h)
  · refine ⟨checkBelow_sound _ h1, fun vs rows hn it' off hp => ?_⟩
    rw [hn] at h2
    dsimp only at h2
    rw [hp] at h2
    exact of_decide_eq_true h2

def checkEvery (limit : Nat) (p : Profile) (fuel : Nat) (c : Call) (s : Session) : Bool :=
  match c, s.opened with
  | .next, some (.tiles it) => checkTileWithin limit p fuel it
  | .rowIter, some (.tiles _) => true
  | .tableData, some (.tiles _) => true
  | c, _ => checkAny false limit p fuel c s

theorem checkEvery_sound {limit : Nat} {p : Profile} {fuel : Nat} {c : Call} {s : Session}
    (h : checkEvery limit p fuel c s = true) : EveryWithin limit p fuel c s := by
  unfold checkEvery at h
  unfold EveryWithin
  have sound := fun c => checkAny_within (limit := limit) (p := p) (fuel := fuel) (c := c) (s := s)
  generalize s.opened = o at h
  rcases o with _ | (_ | _ | _ | _ | it) <;> cases c <;>
    first | exact sound _ h | trivial | exact checkTileWithin_sound h

def checkEveryRun (limit : Nat) (p : Profile) (gz : Gunzip) (fuel : Nat) : List Call → Session → Bool
  | [], _ => true
  | c :: cs, s => checkEvery limit p fuel c s &&
    match s.call p gz fuel c with
    | none => true
    | some (_, s') => checkSettled s' && checkEveryRun limit p gz fuel cs s'

theorem checkEveryRun_sound {limit : Nat} {p : Profile} {gz : Gunzip} {fuel : Nat} {cs : List Call} {s : Session}
    (h : checkEveryRun limit p gz fuel cs s = true) : WithinEvery limit p gz fuel cs s := by
  induction cs generalizing s with
  | nil => trivial
  | cons c cs ih =>
    unfold checkEveryRun at h
    rw [Bool.and_eq_true] at h
    refine ⟨checkEvery_sound h.1, fun r s' hs _ => ?_⟩
    have h := h.2
    rw [hs] at h
    dsimp only at h
    rw [Bool.and_eq_true] at h
    exact ⟨checkSettled_sound h.1, ih h.2⟩

/-- The pixels of two tiles, the end, the table, and the next HDU. -/
def tileProgram : List Call := [.hdu, .hdu, .getData 0, .next, .next, .next, .next, .next, .rowIter, .tableData, .hdu]

/-- An image of integers in tiles of GZIP data. -/
def tileSample : List UInt8 :=
  tileFile "TFORM1  = '1PB'" "ZCMPTYPE= 'GZIP_1'" "ZBITPIX =                   32" "ZTILE1  =                    2"

set_option maxRecDepth 20000 in
theorem tileProgram_within :
    WithinEvery (2 ^ 63) .checked (.of fun xs => xs ++ xs) 100 tileProgram (Session.new ⟨tileSample, 0⟩) :=
  checkEveryRun_sound (by decide +kernel)

set_option maxRecDepth 20000 in
theorem floatProgram_within :
    WithinEvery (2 ^ 63) .wrapping (.of fun xs => xs) 100 tileProgram (Session.new ⟨floatTilesFile, 0⟩) :=
  checkEveryRun_sound (by decide +kernel)

set_option maxRecDepth 20000 in
/-- Integers, through a buffer of 7 bytes, single bytes and interruptions. -/
example : (bufInput.runEvery bufSome .checked (.of fun xs => xs ++ xs) 100 tileProgram
      (Input.Session.new (BufReader.new 7 ⟨tileSample, 0, [.short 0, .interrupted, .short 3, .short 100]⟩))).drop 2 =
    [some (.ok .unit), some (.ok (.tilePixel (some (.int 7)))), some (.ok (.tilePixel (some (.int 0)))),
     some (.ok (.tilePixel (some (.int 5)))), some (.ok (.tilePixel (some (.int 0)))), some (.ok (.tilePixel none)),
     some (.ok .unit), some (.ok .unit), some (.ok (.hdu none))] := by
  rw [C95_file .checked _ 100 tileSample 7 _ tileProgram (by decide +kernel) (by decide) tileProgram_within]
  decide +kernel

set_option maxRecDepth 20000 in
/-- Floats in tiles of RICE data. -/
example : ((gzInput.runEvery bufSome .wrapping (.of fun xs => xs) 100 tileProgram
      (Input.Session.new (BufReader.new 7 ⟨floatTilesFile, 0, [.short 0, .interrupted, .short 3, .short 100]⟩))).drop 5).take 3 =
    [some (.ok (.tilePixel (some (.linear 8 (.double 4611686018427387904) (.double 4607182418800017408))))),
     some (.ok (.tilePixel (some .nan))), some (.ok (.tilePixel none))] := by
  rw [C95_fitsfile .wrapping _ 100 floatTilesFile 7 _ tileProgram (by decide +kernel) (by decide) floatProgram_within]
  decide +kernel

end Fitsrs

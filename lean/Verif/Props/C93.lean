import Verif.Lemmas.InputData
import Verif.Props.C69
import Verif.Spec.TableSamples
/-
C93: the data of images and binary tables do not depend on the kind of reader.
-/

namespace Fitsrs
open Spec

/-- The positions to which a program moves the reader are below the limit. -/
def Prog.Below {α : Type} (limit : Nat) : Prog α → Reader → Prop
  | .done _, _ => True
  | .read n _ k, r =>
    match r.readExact n with
    | (.ok bs, r') => (k bs).Below limit r'
    | _ => True
  | .move off _ k, r => (r.seekRelative off).2.pos < limit ∧
    match r.seekRelative off with
    | (.ok _, r') => k.Below limit r'
    | _ => True
  | .tell k, r => (k r.pos).Below limit r
  | .goto pos _ k, r => pos < limit ∧ k.Below limit (r.seekStart pos)

/-- The call on what is opened is one of those of Model/InputData.lean, and the positions are below the limit. -/
def Spec.UnitWithin (limit : Nat) (p : Profile) (fuel : Nat) (c : Call) : Option OpenUnit → Prop
  | none => True
  | some o => ∃ prog, o.detached.useP p fuel c = some prog ∧ prog.Below limit o.rd

/-- The call is one of those of Model/InputData.lean, and the positions are below the limit. -/
def Spec.CallWithin (limit : Nat) (p : Profile) (fuel : Nat) (c : Call) (s : Session) : Prop :=
  match c with
  | .hdu => (s.close.fits.next p).2.rd.pos < limit
  | .getData _ => True
  | c => UnitWithin limit p fuel c s.opened

/-- The call is one of those of Model/InputData.lean. -/
def Spec.CallCovered (p : Profile) (fuel : Nat) (c : Call) (s : Session) : Prop :=
  match c with
  | .hdu => True
  | .getData _ => True
  | c =>
    match s.opened with
    | none => True
    | some o => (o.detached.useP p fuel c).isSome = true

/-- All the calls of a program are so, up to the first in which a read fails. -/
def Spec.Covered (p : Profile) (gz : Gunzip) (fuel : Nat) : List Call → Session → Prop
  | [], _ => True
  | c :: cs, s => CallCovered p fuel c s ∧
    ∀ r s', s.call p gz fuel c = some (r, s') → s.failsIn p fuel c = false → Covered p gz fuel cs s'

/-- All the calls of a program are below the limit, up to the first in which a read fails. -/
def Spec.Within (limit : Nat) (p : Profile) (gz : Gunzip) (fuel : Nat) : List Call → Session → Prop
  | [], _ => True
  | c :: cs, s => CallWithin limit p fuel c s ∧
    ∀ r s', s.call p gz fuel c = some (r, s') → s.failsIn p fuel c = false → Within limit p gz fuel cs s'

/-- The call ended early: there is nothing, or an error. -/
def Spec.NothingOrError : Option (Res Seen) → Prop
  | some (.ok (.hdu none)) | some (.ok (.pixel none)) | some (.ok (.value none)) | some (.ok (.row none)) => True
  | some (.err _) => True
  | _ => False

namespace Prog
variable {α σ : Type} {S : Input σ} {F : Prop} {limit : Nat} {R : σ → Reader → Prop}

theorem sim (hS : Input.Simulates S F limit R) (x : Prog α) {s : σ} {r : Reader} (hR : R s r) (hb : x.Below limit r)
    {bad : α → Prop} (hx : x.FailsAs bad) :
    ((x.on S s).1 = (.ok (x.val r).1, x.fails r) ∧ (x.fails r = false → R (x.on S s).2 (x.val r).2)) ∨
      F ∧ ∃ a s', x.on S s = ((.ok a, true), s') ∧ bad a := by
  induction x generalizing s r with
  | done a => exact .inl ⟨rfl, fun _ => hR⟩
  | read n no k ih =>
    unfold Below at hb
    rcases hS.read n hR with ⟨h1, h2⟩ | ⟨hF, e, he, -⟩
    · rcases reads n r with ⟨bs, r', h⟩ | ⟨e, r', h⟩
      · rw [h] at h1 h2 hb
        rw [read_ok h]
        have e2 : (read n no k).fails r = (k bs).fails r' := by conv => lhs; unfold fails
                                                                rw [h]
        have e1 : (read n no k).on S s = (k bs).on S (S.readExact n s).2 := by
          conv => lhs; unfold on
          generalize S.readExact n s = y at h1
          obtain ⟨y1, y2⟩ := y
          dsimp only at h1
          rw [h1]
        rw [e1, e2]
        exact ih bs (h2 ⟨bs, rfl⟩) hb (hx.2 bs)
      · rw [h] at h1
        rw [read_err h]
        have e2 : (read n no k).fails r = true := by unfold fails; rw [h]
        have e1 : (read n no k).on S s = ((.ok (no e), true), (S.readExact n s).2) := by
          unfold on
          generalize S.readExact n s = y at h1
          obtain ⟨y1, y2⟩ := y
          dsimp only at h1
          rw [h1]
        rw [e1, e2]
        exact .inl ⟨rfl, fun h => by cases h⟩
    · refine .inr ⟨hF, no e, (S.readExact n s).2, ?_, hx.1 e⟩
      unfold on
      generalize S.readExact n s = y at he
      obtain ⟨y1, y2⟩ := y
      dsimp only at he
      rw [he]
  | move off no k ih =>
    unfold Below at hb
    obtain ⟨h1, h2⟩ := hS.seek off hR hb.1
    have hb := hb.2
    rcases moves off r with ⟨r', h⟩ | ⟨e, r', h⟩
    · rw [h] at h1 h2 hb
      rw [move_ok h]
      have e2 : (move off no k).fails r = k.fails r' := by conv => lhs; unfold fails
                                                           rw [h]
      have e1 : (move off no k).on S s = k.on S (S.seekRelative off s).2 := by
        conv => lhs; unfold on
        generalize S.seekRelative off s = y at h1
        obtain ⟨y1, y2⟩ := y
        dsimp only at h1
        rw [h1]
      rw [e1, e2]
      exact ih (h2 rfl) hb hx.2
    · rw [h] at h1
      rw [move_err h]
      have e2 : (move off no k).fails r = true := by unfold fails; rw [h]
      have e1 : (move off no k).on S s = ((.ok (no e), true), (S.seekRelative off s).2) := by
        unfold on
        generalize S.seekRelative off s = y at h1
        obtain ⟨y1, y2⟩ := y
        dsimp only at h1
        rw [h1]
      rw [e1, e2]
      exact .inl ⟨rfl, fun h => by cases h⟩
  | tell k ih =>
    obtain ⟨h1, h2⟩ := hS.tell hR
    have e1 : (tell k).on S s = (k r.pos).on S (S.tell s).2 := by
      conv => lhs; unfold on
      rw [h1]
    rw [e1]
    exact ih r.pos h2 hb (hx _)
  | goto pos no k ih =>
    obtain ⟨h1, h2⟩ := hS.goto pos hR hb.1
    have e1 : (goto pos no k).on S s = k.on S (S.seekStart pos s).2 := by
      conv => lhs; unfold on
      generalize S.seekStart pos s = y at h1
      obtain ⟨y1, y2⟩ := y
      dsimp only at h1
      rw [h1]
    rw [e1]
    exact ih h2 hb.2 hx.2

end Prog

theorem It.nextP_fails (it : It) : it.nextP.FailsAs fun x => x.1 = none := by
  unfold It.nextP
  split
  · trivial
  · exact ⟨fun _ => rfl, fun _ => trivial⟩

theorem It.readValueP_fails (p : Profile) (i : Nat) (it : It) : (it.readValueP p i).FailsAs fun x => ∃ e, x.1 = .err e := by
  unfold It.readValueP
  split
  · trivial
  · split
    · refine ⟨fun e => ⟨e, rfl⟩, (It.nextP_fails _).map ?_⟩
      rintro ⟨o, it'⟩ h
      obtain rfl : o = none := h
      exact ⟨_, rfl⟩
    · trivial
    · trivial

theorem TableRows.collectP_fails (p : Profile) (fuel row : Nat) (t : TableData) (acc : List DataValue) :
    (collectP p fuel row t acc).FailsAs fun x => ∃ t', x = some (.ok none, t') := by
  induction fuel generalizing t acc with
  | zero => trivial
  | succ fuel ih =>
    unfold collectP
    split
    · refine (TableData.nextP_fails p t).andThen ?_ ?_
      · rintro ⟨x, u⟩ h
        obtain rfl : x = .ok none := h
        exact ⟨_, rfl⟩
      · rintro ⟨x, u⟩
        cases x with
        | ok o =>
          cases o with
          | none => trivial
          | some v => exact ih _ _
        | err e => trivial
        | panic => trivial
    · trivial

/-- What a call on what is opened gives when a read fails. -/
theorem OpenUnit.useP_fails (p : Profile) (fuel : Nat) (c : Call) (o : OpenUnit) {prog : Prog (Option (Res Seen × OpenUnit))}
    (h : o.useP p fuel c = some prog) : prog.FailsAs fun x => ∃ r o', x = some (r, o') ∧ NothingOrError (some r) := by
  unfold OpenUnit.useP at h
  split at h <;> first | (cases h; done) | (injection h with h; subst h)
  · refine (It.nextP_fails _).map ?_
    rintro ⟨o, it'⟩ h
    obtain rfl : o = none := h
    exact ⟨_, _, rfl, trivial⟩
  · refine (It.readValueP_fails p _ _).map ?_
    rintro ⟨o, it'⟩ ⟨e, h⟩
    obtain rfl : o = .err e := h
    exact ⟨_, _, rfl, trivial⟩
  · refine (TableData.nextP_fails p _).map ?_
    rintro ⟨o, it'⟩ h
    obtain rfl : o = .ok none := h
    exact ⟨_, _, rfl, trivial⟩
  · refine (TableData.seekToRowP_fails p _ _).map ?_
    rintro ⟨o, it'⟩ ⟨e, h⟩
    obtain rfl : o = .err e := h
    exact ⟨_, _, rfl, trivial⟩
  · trivial
  · trivial
  · trivial
  · unfold TableRows.nextP
    refine ((TableRows.collectP_fails p fuel _ _ _).map (bad' := fun x => ∃ t', x = some (.ok none, t')) ?_).map ?_
    · rintro _ ⟨t', rfl⟩
      exact ⟨_, rfl⟩
    · rintro _ ⟨t', rfl⟩
      exact ⟨_, _, rfl, trivial⟩

/-! ### Sessions -/

theorem OpenUnit.withRd_rd (o : OpenUnit) (r : Reader) : (o.withRd r).rd = r := by cases o <;> rfl

theorem OpenUnit.withRd_withRd (o : OpenUnit) (r r' : Reader) : (o.withRd r).withRd r' = o.withRd r' := by cases o <;> rfl

theorem OpenUnit.withRd_self (o : OpenUnit) : o.withRd o.rd = o := by cases o <;> rfl

theorem TileIt.new_withRd (p : Profile) (t : TableData) (rd : Reader) (h : Header BinTable) (z : TileCompressedImage) :
    TileIt.new p { t with rd := rd } h z =
      (TileIt.new p t h z).map fun it => { it with rows := { it.rows with data := { it.rows.data with rd := rd } } } := by
  unfold TileIt.new
  cases product p z.zTilen 1 with
  | panic => rfl
  | err e => rfl
  | ok n =>
    show (umul p n 4).bind _ = Res.map _ ((umul p n 4).bind _)
    cases umul p n 4 with
    | panic => rfl
    | err e => rfl
    | ok size =>
      show (if _ then _ else _) = Res.map _ (if _ then _ else _)
      by_cases hs : 2 ^ 63 ≤ size
      · rw [if_pos hs, if_pos hs]
        rfl
      · rw [if_neg hs, if_neg hs]
        cases z.zBitpix <;> first | rfl | skip
        all_goals
          show ((FloatKw.new h z).map some).bind _ = Res.map _ (((FloatKw.new h z).map some).bind _)
          cases FloatKw.new h z <;> rfl

theorem TableData.new_withRd (p : Profile) (rd r : Reader) (ctx : BinTable) (startPos : Nat) :
    TableData.new p r ctx startPos = (TableData.new p rd ctx startPos).map fun t => { t with rd := r } := by
  unfold TableData.new
  cases columnOffsets p ctx.tforms 0 with
  | panic => rfl
  | err e => rfl
  | ok offsets =>
    show (umul p ctx.naxis1 ctx.naxis2).bind _ = Res.map _ ((umul p ctx.naxis1 ctx.naxis2).bind _)
    cases umul p ctx.naxis1 ctx.naxis2 <;> rfl

theorem getData_withRd (p : Profile) (f : Fits) (r : Reader) (h : HDU) :
    Fits.getData p { f with rd := r } h = (Fits.getData p f h).map (OpenUnit.withRd r) := by
  cases h with
  | primary h | image h =>
    show ((Image.numBytes p _).bind _).map _ = (((Image.numBytes p _).bind _).map _).map _
    cases Image.numBytes p h.header.xtension <;> rfl
  | asciiTable h =>
    show ((AsciiTable.numBytes p _).bind _).map _ = (((AsciiTable.numBytes p _).bind _).map _).map _
    cases AsciiTable.numBytes p h.header.xtension <;> rfl
  | binTable h =>
    unfold Fits.getData
    dsimp only
    cases hz : h.header.xtension.zImage with
    | none =>
      dsimp only
      unfold Fits.getTable
      dsimp only
      rw [TableData.new_withRd p f.rd r, hz]
      cases TableData.new p f.rd h.header.xtension f.posStart <;> rfl
    | some z =>
      dsimp only
      unfold Fits.getTiles
      dsimp only
      rw [TableData.new_withRd p f.rd r]
      cases TableData.new p f.rd h.header.xtension f.posStart with
      | panic => rfl
      | err e => rfl
      | ok t =>
        show (TileIt.new p { t with rd := r } h.header z).map _ = ((TileIt.new p t h.header z).map _).map _
        rw [TileIt.new_withRd]
        cases TileIt.new p t h.header z <;> rfl

namespace Input
variable {σ : Type} {S : Input σ} {F : Prop} {limit : Nat} {R : σ → Reader → Prop}

/-- The programs have got to the same point. -/
structure Same (R : σ → Reader → Prop) (g : Session σ) (s : Fitsrs.Session) : Prop where
  hdus : g.hdus = s.hdus
  file : Like R g.file s.close.fits
  opened : s.opened = g.opened.map (OpenUnit.withRd s.close.fits.rd)

theorem close_fits_rd {s : Fitsrs.Session} {o : OpenUnit} (h : s.opened = some o) : s.close.fits.rd = o.rd := by
  unfold Fitsrs.Session.close
  rw [h]

theorem close_none {s : Fitsrs.Session} (h : s.opened = none) : s.close = s := by
  unfold Fitsrs.Session.close
  rw [h]

theorem close_opened (s : Fitsrs.Session) : s.close.opened = none := by
  unfold Fitsrs.Session.close
  split
  · assumption
  · rfl

theorem close_hdus (s : Fitsrs.Session) : s.close.hdus = s.hdus := by
  unfold Fitsrs.Session.close
  split <;> rfl

theorem close_put (s : Fitsrs.Session) (o : OpenUnit) : (s.put o).close.fits = { s.fits with rd := o.rd } := rfl

theorem close_fits (s : Fitsrs.Session) : { s.fits with rd := s.close.fits.rd } = s.close.fits := by
  unfold Fitsrs.Session.close
  split <;> rfl

/-- A call on what is opened. -/
theorem use_same (hS : Simulates S F limit R) (p : Profile) (gz : Gunzip) (fuel : Nat) (c : Call) {g : Session σ}
    {s : Fitsrs.Session} (h : Same R g s) {o : OpenUnit} (ho : s.opened = some o) {prog : Prog (Option (Res Seen × OpenUnit))}
    (hp : o.detached.useP p fuel c = some prog) (hb : prog.Below limit o.rd) :
    (∀ r s', s.useOpened p gz fuel c o = some (r, s') → ∃ o' rd',
      prog.on S g.file.rd = ((.ok (some (r, o')), prog.fails o.rd), rd') ∧
        (prog.fails o.rd = false → Same R { g with file := { g.file with rd := rd' }, opened := some o' } s')) ∧
    (s.useOpened p gz fuel c o = none → ∃ b rd', prog.on S g.file.rd = ((.ok none, b), rd')) ∨
    F ∧ ∃ r o' rd', prog.on S g.file.rd = ((.ok (some (r, o')), true), rd') ∧ NothingOrError (some r) := by
  have hr : R g.file.rd o.rd := close_fits_rd ho ▸ h.file.rd
  have hv := OpenUnit.useP_val p gz fuel c o.detached o.rd s hp
  rw [OpenUnit.detached, OpenUnit.withRd_withRd, OpenUnit.withRd_self] at hv
  rcases Prog.sim hS prog hr hb (OpenUnit.useP_fails p fuel c _ hp) with ⟨h1, h2⟩ | ⟨hF, a, s', h1, r, o', rfl, h3⟩
  · generalize prog.on S g.file.rd = y at h1 h2
    obtain ⟨y1, y2⟩ := y
    dsimp only at h1 h2
    subst h1
    rw [hv]
    left
    generalize prog.val o.rd = v at h2
    obtain ⟨v1, v2⟩ := v
    cases v1 with
    | none => exact ⟨fun r s' h => (by cases h), fun _ => ⟨_, _, rfl⟩⟩
    | some x =>
      refine ⟨?_, fun h => (by cases h)⟩
      intro r s' hs
      obtain ⟨rfl, rfl⟩ : x.1 = r ∧ s.put (x.2.withRd v2) = s' := by
        have := Option.some.inj hs
        exact ⟨congrArg Prod.fst this, congrArg Prod.snd this⟩
      refine ⟨x.2, y2, rfl, fun hf => ⟨h.hdus, ?_, ?_⟩⟩
      · rw [close_put, OpenUnit.withRd_rd]
        have hc := close_fits s
        exact ⟨h.file.start.trans (by rw [← hc]), h.file.posStart.trans (by rw [← hc]),
          h.file.numBytes.trans (by rw [← hc]), h.file.errored.trans (by rw [← hc]), h2 hf⟩
      · show some _ = some _
        rw [close_put, OpenUnit.withRd_rd]
  · exact .inr ⟨hF, r, o', s', h1, h3⟩

/-- Calls give the same. -/
def CallSame (F : Prop) (R : σ → Reader → Prop) (failed : Bool) (x : Option ((Res Seen × Bool) × Session σ))
    (y : Option (Res Seen × Fitsrs.Session)) : Prop :=
  ((y = none ∧ x = none) ∨ ∃ r g' s', y = some (r, s') ∧ x = some ((r, failed), g') ∧ (failed = false → Same R g' s')) ∨
    F ∧ ∃ r g', x = some ((r, true), g') ∧ NothingOrError (some r)

theorem call_same (hS : Simulates S F limit R) (p : Profile) (gz : Gunzip) (fuel : Nat) (c : Call) {g : Session σ}
    {s : Fitsrs.Session} (h : Same R g s) (hw : CallWithin limit p fuel c s) :
    CallSame F R (s.failsIn p fuel c) (S.call p fuel c g) (s.call p gz fuel c) := by
  have other : ∀ (failed : Bool) (x : Option ((Res Seen × Bool) × Session σ)) (y : Option (Res Seen × Fitsrs.Session)),
      UnitWithin limit p fuel c s.opened →
      (failed = match s.opened with
        | none => false
        | some o =>
          match o.detached.useP p fuel c with
          | none => false
          | some prog => prog.fails o.rd) →
      (x = match g.opened with
        | none => some ((.ok .illTyped, false), g)
        | some o =>
          match o.detached.useP p fuel c with
          | none => none
          | some prog =>
            match prog.on S g.file.rd with
            | ((.ok (some (r, o)), b), rd) => some ((r, b), { g with file := { g.file with rd }, opened := some o })
            | ((.ok none, _), _) => none
            | ((.err e, b), rd) => some ((.err e, b), { g with file := { g.file with rd } })
            | ((.panic, b), rd) => some ((.panic, b), { g with file := { g.file with rd } })) →
      (y = match s.opened with
        | none => some (.ok .illTyped, s)
        | some o => s.useOpened p gz fuel c o) → CallSame F R failed x y := by
    rintro _ _ _ hw rfl rfl rfl
    cases ho : g.opened with
    | none =>
      have hs : s.opened = none := by rw [h.opened, ho]; rfl
      rw [hs]
      exact .inl (.inr ⟨_, _, _, rfl, rfl, fun _ => h⟩)
    | some o' =>
      have hs : s.opened = some (o'.withRd s.close.fits.rd) := by rw [h.opened, ho]; rfl
      rw [hs] at hw ⊢
      dsimp only at hw ⊢
      obtain ⟨prog, hp, hb⟩ := hw
      have hp' : o'.detached.useP p fuel c = some prog := by
        rw [OpenUnit.detached, OpenUnit.withRd_withRd] at hp
        exact hp
      rw [hp, hp']
      dsimp only
      rcases use_same hS p gz fuel c h hs hp hb with ⟨h1, h2⟩ | ⟨hF, r, o2, rd', h1, h2⟩
      · rcases hu : s.useOpened p gz fuel c (o'.withRd s.close.fits.rd) with _ | ⟨r, s'⟩
        · obtain ⟨b, rd', hx⟩ := h2 hu
          rw [hx]
          exact .inl (.inl ⟨rfl, rfl⟩)
        · obtain ⟨o2, rd', hx, hy⟩ := h1 r s' hu
          rw [hx]
          exact .inl (.inr ⟨_, _, _, rfl, rfl, hy⟩)
      · rw [h1]
        exact .inr ⟨hF, _, _, rfl, h2⟩
  cases c with
  | hdu =>
    have hn := next_like hS p h.file hw
    unfold CallSame Fitsrs.Session.failsIn call Fitsrs.Session.call Fitsrs.Session.nextHdu
    dsimp only
    have hh := (h.hdus.trans (close_hdus s).symm)
    have hop := close_opened s
    generalize s.close.fits.next p = y at hn
    obtain ⟨y1, y2⟩ := y
    generalize S.next p g.file = x at hn
    obtain ⟨x1, x2⟩ := x
    dsimp only at hn ⊢
    rcases hn with ⟨rfl, hl⟩ | ⟨hF, e, rfl⟩
    · left
      right
      rcases x1 with _ | (⟨hd⟩ | ⟨e⟩ | _)
      · exact ⟨_, _, _, rfl, rfl, fun h => by cases h⟩
      · refine ⟨_, _, _, rfl, rfl, fun _ => ⟨?_, ?_, ?_⟩⟩
        · show hd :: g.hdus = hd :: s.close.hdus
          rw [hh]
        · rw [close_none (show Fitsrs.Session.opened ⟨y2, hd :: s.close.hdus, s.close.opened⟩ = none from hop)]
          exact hl ⟨hd, rfl⟩
        · exact hop
      · exact ⟨_, _, _, rfl, rfl, fun h => by cases h⟩
      · exact ⟨_, _, _, rfl, rfl, fun h => by cases h⟩
    · exact .inr ⟨hF, _, _, rfl, trivial⟩
  | getData k =>
    left
    right
    have hh := (h.hdus.trans (close_hdus s).symm)
    have hop := close_opened s
    have hl := h.file
    unfold Fitsrs.Session.failsIn call Fitsrs.Session.call Fitsrs.Session.openData
    dsimp only
    rw [hh]
    have closed : Same R { g with hdus := s.close.hdus, opened := none } s.close :=
      ⟨rfl, by rw [close_none hop]; exact hl, hop⟩
    cases s.close.hdus[k]? with
    | none => exact ⟨_, _, _, rfl, rfl, fun _ => closed⟩
    | some hd =>
      dsimp only
      have he : s.close.fits.getData p hd = (getData p g.file hd).map (OpenUnit.withRd s.close.fits.rd) := by
        unfold getData
        rw [← getData_withRd]
        dsimp only
        rw [hl.start, hl.posStart, hl.numBytes, hl.errored]
      rw [he]
      cases hg : getData p g.file hd with
      | ok o =>
        refine ⟨_, _, _, rfl, rfl, fun _ => ⟨rfl, ?_, ?_⟩⟩
        · show Like R g.file { s.close.fits with rd := _ }
          rw [OpenUnit.withRd_rd]
          exact hl
        · show some _ = some _
          congr 1
          show _ = OpenUnit.withRd ((OpenUnit.withRd s.close.fits.rd o).rd) o
          rw [OpenUnit.withRd_rd]
      | err e => exact ⟨_, _, _, rfl, rfl, fun _ => closed⟩
      | panic => exact ⟨_, _, _, rfl, rfl, fun _ => closed⟩
  | _ => exact other _ _ _ hw rfl rfl rfl

/-- A whole program. -/
theorem run_same (hS : Simulates S F limit R) (p : Profile) (gz : Gunzip) (fuel : Nat) (cs : List Call) {g : Session σ}
    {s : Fitsrs.Session} (h : Same R g s) (hw : Within limit p gz fuel cs s) :
    S.run p fuel cs g = s.runOk p gz fuel cs ∨
      F ∧ ∃ k x, k < (s.runOk p gz fuel cs).length ∧ S.run p fuel cs g = (s.runOk p gz fuel cs).take k ++ [x] ∧
        NothingOrError x := by
  induction cs generalizing g s with
  | nil => exact .inl rfl
  | cons c cs ih =>
    unfold Within at hw
    have hc := call_same hS p gz fuel c h hw.1
    unfold run Fitsrs.Session.runOk
    rcases hc with (⟨hy, hx⟩ | ⟨r, g', s', hy, hx, hs⟩) | ⟨hF, r, g', hx, hn⟩
    · rw [hx, hy]
      exact .inl rfl
    · rw [hx, hy]
      cases hf : s.failsIn p fuel c with
      | true =>
        rw [hf] at *
        left
        cases r <;> rfl
      | false =>
        have hr := ih (hs hf) (hw.2 r s' hy hf)
        cases r with
        | panic => exact .inl rfl
        | _ =>
          dsimp only
          rw [if_neg (by simp)]
          rcases hr with hr | ⟨hF, k, x, h1, h2, h3⟩
          · rw [hr]
            exact .inl rfl
          · refine .inr ⟨hF, k + 1, x, Nat.succ_lt_succ h1, ?_, h3⟩
            rw [h2]
            rfl
    · right
      refine ⟨hF, 0, some r, ?_, ?_, hn⟩
      · rcases s.call p gz fuel c with _ | ⟨r2, s2⟩
        · exact Nat.zero_lt_succ _
        · cases r2 <;> dsimp only <;> first | (split <;> exact Nat.zero_lt_succ _) | exact Nat.zero_lt_succ _
      · rw [hx]
        cases r with
        | panic => exact absurd hn (by intro h; exact h)
        | _ => rfl

theorem same_new {F : Prop} {data : List UInt8} {cap : Nat} {plan : List ReadEvent} (h : BufReader.Reads F (BufReader.new cap ⟨data, 0, plan⟩) ⟨data, 0⟩) :
    Same (BufReader.Reads F) (Session.new (BufReader.new cap ⟨data, 0, plan⟩)) (Fitsrs.Session.new ⟨data, 0⟩) :=
  ⟨rfl, ⟨rfl, rfl, rfl, rfl, h⟩, rfl⟩

end Input

/-- A program sees the same with the calls after a failure and without them. -/
theorem C93_prefix (p : Profile) (gz : Gunzip) (fuel : Nat) (cs : List Call) (s : Session) :
    s.runOk p gz fuel cs <+: s.run p gz fuel cs := by
  induction cs generalizing s with
  | nil => exact List.prefix_rfl
  | cons c cs ih =>
    unfold Session.runOk Session.run
    rcases s.call p gz fuel c with _ | ⟨r, s'⟩
    · exact List.prefix_rfl
    · cases r with
      | panic => exact List.prefix_rfl
      | _ =>
        dsimp only
        split
        · exact ⟨_, rfl⟩
        · obtain ⟨t, ht⟩ := ih s'
          exact ⟨t, by rw [← ht]; rfl⟩

/-- **C93.** A program that asks for HDUs and for the data of images and binary tables sees, with a `BufReader` over a file of
less than 2^63 bytes, whatever the capacity of the buffer is and however the file delivers its bytes, what it sees with the
reader in memory. -/
theorem C93_file (p : Profile) (gz : Gunzip) (fuel : Nat) (data : List UInt8) (cap : Nat) (plan : List ReadEvent) (cs : List Call)
    (hd : data.length < 2 ^ 63) (hp : .fails ∉ plan) (hw : Within (2 ^ 63) p gz fuel cs (Session.new ⟨data, 0⟩)) :
    bufInput.run p fuel cs (Input.Session.new (BufReader.new cap ⟨data, 0, plan⟩)) =
      (Session.new ⟨data, 0⟩).runOk p gz fuel cs := by
  rcases Input.run_same (buf_simulates False) p gz fuel cs (Input.same_new (reads_new hd (.inr hp))) hw with h | ⟨h, -⟩
  · exact h
  · exact h.elim

/-- The same for a file opened with `FITSFile::open`. -/
theorem C93_fitsfile (p : Profile) (gz : Gunzip) (fuel : Nat) (data : List UInt8) (cap : Nat) (plan : List ReadEvent)
    (cs : List Call) (hd : data.length < 2 ^ 63) (hp : .fails ∉ plan)
    (hw : Within (2 ^ 63) p gz fuel cs (Session.new ⟨data, 0⟩)) :
    gzInput.run p fuel cs (Input.Session.new (BufReader.new cap ⟨data, 0, plan⟩)) =
      (Session.new ⟨data, 0⟩).runOk p gz fuel cs := by
  rcases Input.run_same (gz_simulates False) p gz fuel cs (Input.same_new (reads_new hd (.inr hp))) hw with h | ⟨h, -⟩
  · exact h
  · exact h.elim

/-- If reads of the file can fail, the program sees the same up to some call, and that call gives an error or nothing. -/
theorem C93_failing (p : Profile) (gz : Gunzip) (fuel : Nat) (data : List UInt8) (cap : Nat) (plan : List ReadEvent)
    (cs : List Call) (hd : data.length < 2 ^ 63) (hw : Within (2 ^ 63) p gz fuel cs (Session.new ⟨data, 0⟩)) :
    bufInput.run p fuel cs (Input.Session.new (BufReader.new cap ⟨data, 0, plan⟩)) =
        (Session.new ⟨data, 0⟩).runOk p gz fuel cs ∨
      ∃ k x, k < ((Session.new ⟨data, 0⟩).runOk p gz fuel cs).length ∧
        bufInput.run p fuel cs (Input.Session.new (BufReader.new cap ⟨data, 0, plan⟩)) =
          ((Session.new ⟨data, 0⟩).runOk p gz fuel cs).take k ++ [x] ∧ NothingOrError x := by
  rcases Input.run_same (buf_simulates True) p gz fuel cs (Input.same_new (reads_new hd (.inl trivial))) hw with h | ⟨-, h⟩
  · exact .inl h
  · exact .inr h

/-- The same for a file opened with `FITSFile::open`. -/
theorem C93_failing_fitsfile (p : Profile) (gz : Gunzip) (fuel : Nat) (data : List UInt8) (cap : Nat) (plan : List ReadEvent)
    (cs : List Call) (hd : data.length < 2 ^ 63) (hw : Within (2 ^ 63) p gz fuel cs (Session.new ⟨data, 0⟩)) :
    gzInput.run p fuel cs (Input.Session.new (BufReader.new cap ⟨data, 0, plan⟩)) =
        (Session.new ⟨data, 0⟩).runOk p gz fuel cs ∨
      ∃ k x, k < ((Session.new ⟨data, 0⟩).runOk p gz fuel cs).length ∧
        gzInput.run p fuel cs (Input.Session.new (BufReader.new cap ⟨data, 0, plan⟩)) =
          ((Session.new ⟨data, 0⟩).runOk p gz fuel cs).take k ++ [x] ∧ NothingOrError x := by
  rcases Input.run_same (gz_simulates True) p gz fuel cs (Input.same_new (reads_new hd (.inl trivial))) hw with h | ⟨-, h⟩
  · exact .inl h
  · exact .inr h

theorem Prog.Below.mono {α : Type} {l m : Nat} (h : l ≤ m) (x : Prog α) {r : Reader} (hb : x.Below l r) : x.Below m r := by
  induction x generalizing r with
  | done a => trivial
  | read n no k ih =>
    unfold Below at hb ⊢
    split at hb
    · exact ih _ hb
    · trivial
  | move off no k ih =>
    unfold Below at hb ⊢
    refine ⟨Nat.lt_of_lt_of_le hb.1 h, ?_⟩
    have hb := hb.2
    split at hb
    · exact ih hb
    · trivial
  | tell k ih => exact ih _ hb
  | goto pos no k ih => exact ⟨Nat.lt_of_lt_of_le hb.1 h, ih hb.2⟩

theorem Prog.below_exists {α : Type} (x : Prog α) (r : Reader) : ∃ l, x.Below l r := by
  induction x generalizing r with
  | done a => exact ⟨0, trivial⟩
  | read n no k ih =>
    unfold Below
    split
    · exact ih _ _
    · exact ⟨0, trivial⟩
  | move off no k ih =>
    unfold Below
    split
    · rename_i r' h
      obtain ⟨l, hl⟩ := ih r'
      refine ⟨max l (r'.pos + 1), ?_, hl.mono (by omega)⟩
      rw [h]
      show r'.pos < _
      omega
    · exact ⟨(r.seekRelative off).2.pos + 1, by omega, trivial⟩
  | tell k ih => exact ih _ _
  | goto pos no k ih =>
    obtain ⟨l, hl⟩ := ih (r.seekStart pos)
    exact ⟨max l (pos + 1), by omega, hl.mono (by omega)⟩

theorem Spec.CallWithin.mono {l m : Nat} (h : l ≤ m) {p : Profile} {fuel : Nat} {c : Call} {s : Session}
    (hw : CallWithin l p fuel c s) : CallWithin m p fuel c s := by
  have other : ∀ (x : Option OpenUnit), UnitWithin l p fuel c x → UnitWithin m p fuel c x := by
    intro x hx
    cases x with
    | none => trivial
    | some o =>
      obtain ⟨prog, h1, h2⟩ := hx
      exact ⟨prog, h1, h2.mono h⟩
  cases c with
  | hdu => exact Nat.lt_of_lt_of_le hw h
  | getData k => trivial
  | _ => exact other _ hw

theorem Spec.Within.mono {l m : Nat} (h : l ≤ m) {p : Profile} {gz : Gunzip} {fuel : Nat} {cs : List Call} {s : Session}
    (hw : Within l p gz fuel cs s) : Within m p gz fuel cs s := by
  induction cs generalizing s with
  | nil => trivial
  | cons c cs ih => exact ⟨hw.1.mono h, fun r s' h1 h2 => ih (hw.2 r s' h1 h2)⟩

theorem callWithin_exists {p : Profile} {fuel : Nat} {c : Call} {s : Session} (hc : CallCovered p fuel c s) :
    ∃ l, CallWithin l p fuel c s := by
  have other : ∀ (x : Option OpenUnit),
      (match x with
        | none => True
        | some o => (o.detached.useP p fuel c).isSome = true) →
      ∃ l, UnitWithin l p fuel c x := by
    intro x hx
    cases x with
    | none => exact ⟨0, trivial⟩
    | some o =>
      obtain ⟨prog, h1⟩ := Option.isSome_iff_exists.1 hx
      obtain ⟨l, h2⟩ := prog.below_exists o.rd
      exact ⟨l, prog, h1, h2⟩
  cases c with
  | hdu => exact ⟨_, Nat.lt_succ_self _⟩
  | getData k => exact ⟨0, trivial⟩
  | _ => exact other _ hc

theorem within_exists {p : Profile} {gz : Gunzip} {fuel : Nat} {cs : List Call} {s : Session} (hc : Covered p gz fuel cs s) :
    ∃ l, Within l p gz fuel cs s := by
  induction cs generalizing s with
  | nil => exact ⟨0, trivial⟩
  | cons c cs ih =>
    obtain ⟨l, hl⟩ := callWithin_exists hc.1
    rcases hy : s.call p gz fuel c with _ | ⟨r, s'⟩
    · exact ⟨l, hl, fun r s' h => by rw [hy] at h; cases h⟩
    · by_cases hf : s.failsIn p fuel c = false
      · obtain ⟨m, hm⟩ := ih (hc.2 r s' hy hf)
        refine ⟨max l m, hl.mono (by omega), fun r2 s2 h2 _ => ?_⟩
        rw [hy] at h2
        cases h2
        exact hm.mono (by omega)
      · exact ⟨l, hl, fun _ _ _ h => absurd h hf⟩

/-- The same for a `Cursor`, in either version, wherever the positions are. -/
theorem C93_cursor (p : Profile) (gz : Gunzip) (fuel : Nat) (data : List UInt8) (cs : List Call)
    (hc : Covered p gz fuel cs (Session.new ⟨data, 0⟩)) :
    cursorInput.run p fuel cs (Input.Session.new ⟨data, 0⟩) = (Session.new ⟨data, 0⟩).runOk p gz fuel cs ∧
      oldCursorInput.run p fuel cs (Input.Session.new ⟨data, 0⟩) = (Session.new ⟨data, 0⟩).runOk p gz fuel cs := by
  obtain ⟨l, hw⟩ := within_exists hc
  refine ⟨?_, ?_⟩
  · rcases Input.run_same (cursor_simulates l) p gz fuel cs (g := Input.Session.new ⟨data, 0⟩)
      ⟨rfl, ⟨rfl, rfl, rfl, rfl, rfl⟩, rfl⟩ hw with h | ⟨h, -⟩
    · exact h
    · exact h.elim
  · rcases Input.run_same (oldCursor_simulates l) p gz fuel cs (g := Input.Session.new ⟨data, 0⟩)
      ⟨rfl, ⟨rfl, rfl, rfl, rfl, rfl⟩, rfl⟩ hw with h | ⟨h, -⟩
    · exact h
    · exact h.elim

/-! ### Examples -/

def checkBelow {α : Type} (limit : Nat) : Prog α → Reader → Bool
  | .done _, _ => true
  | .read n _ k, r =>
    match r.readExact n with
    | (.ok bs, r') => checkBelow limit (k bs) r'
    | _ => true
  | .move off _ k, r => decide ((r.seekRelative off).2.pos < limit) &&
    match r.seekRelative off with
    | (.ok _, r') => checkBelow limit k r'
    | _ => true
  | .tell k, r => checkBelow limit (k r.pos) r
  | .goto pos _ k, r => decide (pos < limit) && checkBelow limit k (r.seekStart pos)

theorem checkBelow_sound {α : Type} {limit : Nat} (x : Prog α) {r : Reader} (h : checkBelow limit x r = true) :
    x.Below limit r := by
  induction x generalizing r with
  | done a => trivial
  | read n no k ih =>
    unfold checkBelow at h
    unfold Prog.Below
    split at h
    · exact ih _ h
    · trivial
  | move off no k ih =>
    unfold checkBelow at h
    unfold Prog.Below
    rw [Bool.and_eq_true] at h
    refine ⟨of_decide_eq_true h.1, ?_⟩
    have h := h.2
    split at h
    · exact ih h
    · trivial
  | tell k ih => exact ih _ h
  | goto pos no k ih =>
    unfold checkBelow at h
    rw [Bool.and_eq_true] at h
    exact ⟨of_decide_eq_true h.1, ih h.2⟩

def checkUnit (limit : Nat) (p : Profile) (fuel : Nat) (c : Call) : Option OpenUnit → Bool
  | none => true
  | some o =>
    match o.detached.useP p fuel c with
    | none => false
    | some prog => checkBelow limit prog o.rd

def checkWithin (limit : Nat) (p : Profile) (gz : Gunzip) (fuel : Nat) : List Call → Session → Bool
  | [], _ => true
  | c :: cs, s =>
    (match c with
      | .hdu => decide ((s.close.fits.next p).2.rd.pos < limit)
      | .getData _ => true
      | c => checkUnit limit p fuel c s.opened) &&
    match s.call p gz fuel c with
    | none => true
    | some (_, s') => checkWithin limit p gz fuel cs s'

theorem checkWithin_sound {limit : Nat} {p : Profile} {gz : Gunzip} {fuel : Nat} {cs : List Call} {s : Session}
    (h : checkWithin limit p gz fuel cs s = true) : Within limit p gz fuel cs s := by
  induction cs generalizing s with
  | nil => trivial
  | cons c cs ih =>
    unfold checkWithin at h
    rw [Bool.and_eq_true] at h
    refine ⟨?_, fun r s' hs _ => ?_⟩
    · have h := h.1
      have other : ∀ (x : Option OpenUnit), checkUnit limit p fuel c x = true → UnitWithin limit p fuel c x := by
        intro x hx
        cases x with
        | none => trivial
        | some o =>
          unfold checkUnit at hx
          dsimp only at hx
          cases hu : o.detached.useP p fuel c with
          | none => rw [hu] at hx; cases hx
          | some prog =>
            rw [hu] at hx
            exact ⟨prog, hu, checkBelow_sound prog hx⟩
      cases c with
      | hdu => exact (of_decide_eq_true h : (s.close.fits.next p).2.rd.pos < limit)
      | getData k => trivial
      | _ => exact other _ h
    · have h := h.2
      rw [hs] at h
      exact ih h

/-- The calls of the examples: the second HDU, a row, its values. -/
def arrayProgram : List Call := [.hdu, .hdu, .getData 0, .next, .next, .next, .next, .seekRow 0, .rowIter, .next, .next, .next]

set_option maxRecDepth 20000 in
theorem arrayProgram_within : Within (2 ^ 63) .checked (.of fun xs => xs) 100 arrayProgram (Session.new ⟨arrayFile, 0⟩) :=
  checkWithin_sound (by decide +kernel)

set_option maxRecDepth 20000 in
/-- A table with arrays, through a buffer of 7 bytes, single bytes and interruptions. -/
example : (bufInput.run .checked 100 arrayProgram
      (Input.Session.new (BufReader.new 7 ⟨arrayFile, 0, [.short 0, .interrupted, .short 3, .short 100]⟩))).drop 3 =
    [some (.ok (.value (some (.cell 0 0 (.short 5))))), some (.ok (.value (some (.cell 0 1 (.short 6))))),
     some (.ok (.value (some (.cell 1 0 (.ubyte 9))))), some (.ok (.value (some (.cell 0 0 (.short 7))))),
     some (.ok .unit), some (.ok .unit),
     some (.ok (.row (some [.cell 0 0 (.short 5), .cell 0 1 (.short 6), .cell 1 0 (.ubyte 9)]))),
     some (.ok (.row (some [.cell 0 0 (.short 7), .cell 1 0 (.ubyte 8)]))), some (.ok (.row none))] := by
  rw [C93_file .checked (.of fun xs => xs) 100 arrayFile 7 _ arrayProgram (by decide +kernel) (by decide) arrayProgram_within]
  decide +kernel

set_option maxRecDepth 20000 in
/-- The same file, with a read that fails in the first row: the iterator over the values of the table ends, as if the table were
empty. -/
example : (bufInput.run .checked 100 arrayProgram
      (Input.Session.new (BufReader.new 5760 ⟨arrayFile, 0, [.short 5759, .fails]⟩))).drop 2 =
    [some (.ok .unit), some (.ok (.value none))] := by
  decide +kernel

set_option maxRecDepth 20000 in
/-- The pixels of the image of the sample file, with `FITSFile::open`. -/
example : (gzInput.run .checked 100 [.hdu, .hdu, .getData 0, .next, .readValue 2, .next, .readValue 0, .next, .hdu]
      (Input.Session.new (BufReader.new 16 ⟨sampleFile, 0, [.short 5, .interrupted]⟩))).drop 2 =
    [some (.ok .unit), some (.ok (.pixel (some (.i16 1)))), some (.ok (.pixel (some (.i16 3)))), some (.ok (.pixel (some (.i16 4)))),
     some (.ok (.pixel (some (.i16 1)))), some (.ok (.pixel (some (.i16 2)))), some (.ok (.hdu none))] := by
  rw [C93_fitsfile .checked (.of fun xs => xs) 100 sampleFile 16 _ _ (by decide +kernel) (by decide)
    (checkWithin_sound (by decide +kernel))]
  decide +kernel

end Fitsrs

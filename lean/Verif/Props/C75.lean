import Verif.Spec.Longer
import Verif.Lemmas.Longer
import Verif.Spec.TableSamples
/-
C75: programs on truncated files.
-/

namespace Fitsrs
open Spec

/-- The program in progress, on the longer file. -/
def Session.ext (b : List UInt8) (s : Session) : Session :=
  { fits := s.fits.ext b, hdus := s.hdus, opened := s.opened.map (OpenUnit.ext b) }

theorem close_ext (b : List UInt8) (s : Session) : (s.ext b).close = s.close.ext b := by
  obtain ⟨f, hs, o⟩ := s
  cases o with
  | none => rfl
  | some o =>
    show Session.mk { f.ext b with rd := (o.ext b).rd } hs none = _
    rw [OpenUnit.rd_ext]
    rfl

theorem nextHdu_ext {p : Profile} {b : List UInt8} {s s' : Session} {r : Res Seen} (h : s.nextHdu p = (r, s'))
    (hr : Sure (some r) = true) : (s.ext b).nextHdu p = (r, s'.ext b) := by
  unfold Session.nextHdu at h ⊢
  cases hn : s.fits.next p with
  | mk x f =>
    rw [hn] at h
    cases x with
    | none => cases h; cases hr
    | some x =>
      cases x with
      | err e => cases h; cases hr
      | panic => cases h; cases hr
      | ok u =>
        rw [show (s.ext b).fits.next p = _ from Fits.next_ext hn]
        cases h
        rfl

theorem openData_ext {p : Profile} {b : List UInt8} {k : Nat} {s s' : Session} {r : Res Seen} (h : s.openData p k = (r, s'))
    (hr : Sure (some r) = true) : (s.ext b).openData p k = (r, s'.ext b) := by
  unfold Session.openData at h ⊢
  rw [show (s.ext b).hdus = s.hdus from rfl]
  cases hk : s.hdus[k]? with
  | none =>
    rw [hk] at h
    cases h
    rfl
  | some u =>
    rw [hk] at h
    dsimp only at h ⊢
    rw [show (s.ext b).fits.getData p u = _ from getData_ext p b s.fits u]
    cases hg : s.fits.getData p u with
    | err e => rw [hg] at h; cases h; cases hr
    | panic => rw [hg] at h; cases h; cases hr
    | ok o =>
      rw [hg] at h
      cases h
      rfl

theorem nextItem_ext {p : Profile} {gz : Gunzip} (hgz : Streaming gz) {fuel : Nat} {b : List UInt8}
    {o o' : OpenUnit} {r : Res Seen} (h : Session.nextItem p gz fuel o = some (r, o')) (hr : Sure (some r) = true) :
    Session.nextItem p gz fuel (o.ext b) = some (r, o'.ext b) := by
  cases o with
  | image d =>
    unfold Session.nextItem at h
    dsimp only at h
    cases hn : d.pixels.next with
    | mk v it =>
      rw [hn] at h
      cases h
      cases v with
      | none => cases hr
      | some v =>
        show some (Res.ok (Seen.pixel (d.pixels.ext b).next.1), OpenUnit.image { d.ext b with pixels := (d.pixels.ext b).next.2 }) = _
        rw [It.next_ext hn]
        rfl
  | bytes s =>
    unfold Session.nextItem at h
    cases h
    cases hr
  | table t =>
    unfold Session.nextItem at h
    dsimp only at h
    cases hn : t.next p with
    | mk v t' =>
      rw [hn] at h
      cases h
      cases v with
      | err e => cases hr
      | panic => cases hr
      | ok v =>
        cases v with
        | none => cases hr
        | some v =>
          show some (((t.ext b).next p).1.map Seen.value, OpenUnit.table ((t.ext b).next p).2) = _
          rw [TableData.next_ext hn]
          rfl
  | rows x =>
    unfold Session.nextItem at h
    dsimp only at h
    cases hn : x.next p fuel with
    | none => rw [hn] at h; cases h
    | some y =>
      obtain ⟨v, x'⟩ := y
      rw [hn] at h
      cases h
      cases v with
      | err e => cases hr
      | panic => cases hr
      | ok v =>
        cases v with
        | none => cases hr
        | some v =>
          show ((x.ext b).next p fuel).map (fun x => (x.1.map Seen.row, OpenUnit.rows x.2)) = _
          rw [TableRows.next_ext hn]
          rfl
  | tiles it =>
    unfold Session.nextItem at h
    dsimp only at h
    cases hn : it.next p gz fuel with
    | none => rw [hn] at h; cases h
    | some y =>
      obtain ⟨v, x'⟩ := y
      rw [hn] at h
      cases h
      cases v with
      | err e => cases hr
      | panic => cases hr
      | ok v =>
        cases v with
        | none => cases hr
        | some v =>
          show ((it.ext b).next p gz fuel).map (fun x => (x.1.map Seen.tilePixel, OpenUnit.tiles x.2)) = _
          rw [TileIt.next_ext hgz hn]
          rfl

theorem onOpened_ext {p : Profile} {c : Call} {b : List UInt8} {o : OpenUnit} {o' : Option OpenUnit} {r : Res Seen}
    (h : Session.onOpened p c o = (r, o')) (hr : Sure (some r) = true) :
    Session.onOpened p c (o.ext b) = (r, o'.map (OpenUnit.ext b)) := by
  cases c with
  | readValue i =>
    cases o with
    | image d =>
      unfold Session.onOpened at h
      dsimp only at h
      cases hn : d.pixels.readValue p i with
      | mk v it =>
        rw [hn] at h
        cases h
        cases v with
        | err e => cases hr
        | panic => cases hr
        | ok v =>
          show (((d.pixels.ext b).readValue p i).1.map (Seen.pixel ∘ some),
            some (OpenUnit.image { d.ext b with pixels := ((d.pixels.ext b).readValue p i).2 })) = _
          rw [It.readValue_ext hn]
          rfl
    | _ => cases h; rfl
  | rawBytes =>
    cases o with
    | image d =>
      unfold Session.onOpened at h
      dsimp only at h
      cases h
      cases hn : d.rawBytes p with
      | err e => rw [hn] at hr; cases hr
      | panic => rw [hn] at hr; cases hr
      | ok bs =>
        show (((d.ext b).rawBytes p).map Seen.raw, none) = _
        rw [show (d.ext b).rawBytes p = .ok bs from slice_ext hn]
        rfl
    | table t =>
      unfold Session.onOpened at h
      dsimp only at h
      cases h
      cases hn : t.rawBytes p with
      | err e => rw [hn] at hr; cases hr
      | panic => rw [hn] at hr; cases hr
      | ok bs =>
        have hx : (t.ext b).rawBytes p = .ok bs := by
          unfold TableData.rawBytes at hn ⊢
          obtain ⟨n, h1, h2⟩ := Res.bind_eq_ok.1 hn
          rw [show (t.ext b).ctx = t.ctx from rfl, h1, Res.bind_ok]
          exact slice_ext h2
        show (((t.ext b).rawBytes p).map Seen.raw, some (OpenUnit.table (t.ext b))) = _
        rw [hx]
        rfl
    | _ => cases h; rfl
  | seekRow i =>
    cases o with
    | table t =>
      cases h
      show (((t.ext b).seekToRow p i).1.map (fun _ => Seen.unit), some (OpenUnit.table ((t.ext b).seekToRow p i).2)) = _
      rw [TableData.seekToRow_ext]
      rfl
    | _ => cases h; rfl
  | _ => cases o <;> cases h <;> rfl

theorem useOpened_ext {p : Profile} {gz : Gunzip} (hgz : Streaming gz) {fuel : Nat} {c : Call}
    {b : List UInt8} {o : OpenUnit} {s s' : Session} {r : Res Seen}
    (h : s.useOpened p gz fuel c o = some (r, s')) (hr : Sure (some r) = true) :
    (s.ext b).useOpened p gz fuel c (o.ext b) = some (r, s'.ext b) := by
  have key : (match Session.onOpened p c o with
        | (r, some o) => some (r, s.put o)
        | (r, none) => some (r, s.close)) = some (r, s') →
      (match Session.onOpened p c (o.ext b) with
        | (r, some o) => some (r, (s.ext b).put o)
        | (r, none) => some (r, (s.ext b).close)) = some (r, s'.ext b) := by
    intro h
    cases hn : Session.onOpened p c o with
    | mk x o' =>
      rw [hn] at h
      cases o' with
      | none =>
        cases h
        rw [onOpened_ext hn hr]
        dsimp only [Option.map]
        rw [close_ext]
      | some o' =>
        cases h
        rw [onOpened_ext hn hr]
        rfl
  cases c with
  | next =>
    unfold Session.useOpened at h ⊢
    dsimp only at h ⊢
    cases hn : Session.nextItem p gz fuel o with
    | none => rw [hn] at h; cases h
    | some x =>
      obtain ⟨x, o'⟩ := x
      rw [hn] at h
      cases h
      rw [nextItem_ext hgz hn hr]
      rfl
  | _ => exact key h

theorem call_ext {p : Profile} {gz : Gunzip} (hgz : Streaming gz) {fuel : Nat} {c : Call}
    {b : List UInt8} {s s' : Session} {r : Res Seen} (h : s.call p gz fuel c = some (r, s')) (hr : Sure (some r) = true) :
    (s.ext b).call p gz fuel c = some (r, s'.ext b) := by
  have key : (match s.opened with
        | none => some (.ok .illTyped, s)
        | some o => s.useOpened p gz fuel c o) = some (r, s') →
      (match (s.ext b).opened with
        | none => some (.ok .illTyped, s.ext b)
        | some o => (s.ext b).useOpened p gz fuel c o) = some (r, s'.ext b) := by
    intro h
    cases ho : s.opened with
    | none =>
      rw [ho] at h
      rw [show (s.ext b).opened = none by show s.opened.map _ = none; rw [ho]; rfl]
      cases h
      rfl
    | some o =>
      rw [ho] at h
      rw [show (s.ext b).opened = some (o.ext b) by show s.opened.map _ = _; rw [ho]; rfl]
      exact useOpened_ext hgz h hr
  cases c with
  | hdu =>
    unfold Session.call at h ⊢
    dsimp only at h ⊢
    rw [close_ext, nextHdu_ext (Option.some.inj h) hr]
  | getData k =>
    unfold Session.call at h ⊢
    dsimp only at h ⊢
    rw [close_ext, openData_ext (Option.some.inj h) hr]
  | _ => exact key h

theorem run_ext {p : Profile} {gz : Gunzip} (hgz : Streaming gz) {fuel : Nat} (b : List UInt8)
    (cs : List Call) (s : Session) :
    (s.run p gz fuel cs).takeWhile Sure <+: (s.ext b).run p gz fuel cs := by
  induction cs generalizing s with
  | nil => exact List.nil_prefix
  | cons c cs ih =>
    unfold Session.run
    cases hc : s.call p gz fuel c with
    | none => exact List.nil_prefix
    | some x =>
      obtain ⟨r, s'⟩ := x
      by_cases hr : Sure (some r) = true
      · rw [call_ext hgz hc hr]
        cases r with
        | panic => cases hr
        | err e => cases hr
        | ok v =>
          dsimp only
          rw [List.takeWhile_cons_of_pos hr]
          exact List.prefix_cons_inj _ |>.2 (ih s')
      · cases r with
        | panic => exact List.nil_prefix
        | err e => exact List.nil_prefix
        | ok v =>
          dsimp only
          rw [List.takeWhile_cons_of_neg hr]
          exact List.nil_prefix

theorem new_longer (data : List UInt8) (n : Nat) :
    (Session.new ⟨data.take n, 0⟩).ext (data.drop n) = Session.new ⟨data, 0⟩ := by
  unfold Session.new Session.ext Fits.ext Fits.fromReader Reader.ext
  rw [List.take_append_drop]
  rfl

/-- **C75.** What a program sees of the beginning of a file is what it sees of the whole file, up to the first call that
fails or ends (or takes a byte of a table): for every file, however damaged, every place where it is cut, and every
program.  `gz` is the GZIP decoder. -/
theorem C75_prefix (p : Profile) (gz : Gunzip) (hgz : Streaming gz) (fuel : Nat) (data : List UInt8)
    (n : Nat) (cs : List Call) :
    ((Session.new ⟨data.take n, 0⟩).run p gz fuel cs).takeWhile Sure <+: (Session.new ⟨data, 0⟩).run p gz fuel cs := by
  have h := run_ext (p := p) (fuel := fuel) hgz (data.drop n) cs (Session.new ⟨data.take n, 0⟩)
  rw [new_longer] at h
  exact h

/-- What a stream of bytes still has to deliver. -/
def ByteStream.ahead (s : ByteStream) : List UInt8 := s.buf ++ (s.rd.data.drop s.rd.pos).take s.limit

theorem ByteStream.next_ahead (s : ByteStream) : s.next.1 = s.ahead.head? ∧ s.next.2.ahead = s.ahead.tail := by
  obtain ⟨⟨data, pos⟩, limit, buf⟩ := s
  cases buf with
  | cons b bs => exact ⟨rfl, rfl⟩
  | nil =>
    unfold ByteStream.next ByteStream.ahead
    dsimp only
    unfold ByteStream.fill
    dsimp only
    cases hf : (data.drop pos).take (min 8192 limit) with
    | nil =>
      have e : (data.drop pos).take limit = [] := by
        rw [List.take_eq_nil_iff] at hf ⊢
        rcases hf with hf | hf
        · exact .inl (by omega)
        · exact .inr hf
      dsimp only
      rw [e]
      exact ⟨rfl, rfl⟩
    | cons b bs =>
      have hl : bs.length + 1 = min (min 8192 limit) (data.drop pos).length := by
        rw [← List.length_take, hf]; rfl
      have e : (data.drop pos).take limit = b :: bs ++ (data.drop (pos + (bs.length + 1))).take (limit - (bs.length + 1)) := by
        rw [← hf]
        have e1 : limit = (bs.length + 1) + (limit - (bs.length + 1)) := by omega
        have e2 : (data.drop pos).take (min 8192 limit) = (data.drop pos).take (bs.length + 1) := by
          rw [hl, List.take_eq_take_iff]; omega
        rw [e2]
        conv => lhs; rw [e1]
        rw [List.take_add, List.drop_drop]
      dsimp only
      rw [e]
      exact ⟨rfl, rfl⟩

theorem ByteStream.ahead_ext (b : List UInt8) (s : ByteStream) : s.ahead <+: (s.ext b).ahead := by
  unfold ByteStream.ahead ByteStream.ext Reader.ext
  dsimp only
  rw [List.drop_append]
  refine (List.prefix_append_right_inj _).2 ?_
  rw [List.take_append]
  exact List.prefix_append _ _

theorem bytes_run {p : Profile} {gz : Gunzip} {fuel : Nat} (n : Nat) (s t : Session) (x y : ByteStream)
    (hs : s.opened = some (.bytes x)) (ht : t.opened = some (.bytes y)) (h : x.ahead <+: y.ahead) :
    (s.run p gz fuel (List.replicate n .next)).takeWhile SureOrByte <+: t.run p gz fuel (List.replicate n .next) := by
  induction n generalizing s t x y with
  | zero => exact List.nil_prefix
  | succ n ih =>
    have ec : ∀ (u : Session) (z : ByteStream), u.opened = some (.bytes z) →
        u.call p gz fuel .next = some (.ok (.byte z.next.1), u.put (.bytes z.next.2)) := by
      intro u z hu
      unfold Session.call
      dsimp only
      rw [hu]
      rfl
    rw [List.replicate_succ]
    unfold Session.run
    rw [ec s x hs, ec t y ht]
    dsimp only
    rw [x.next_ahead.1, y.next_ahead.1]
    cases hx : x.ahead with
    | nil => exact List.nil_prefix
    | cons b bs =>
      cases hy : y.ahead with
      | nil => rw [hx, hy] at h; exact absurd (List.prefix_nil.1 h) (by simp)
      | cons c ds =>
        rw [hx, hy, List.cons_prefix_cons] at h
        rw [h.1]
        rw [List.head?_cons, List.head?_cons, List.takeWhile_cons_of_pos (by rfl)]
        refine (List.prefix_cons_inj _).2 (ih _ _ x.next.2 y.next.2 rfl rfl ?_)
        rw [x.next_ahead.2, y.next_ahead.2, hx, hy]
        exact h.2

theorem next_sure {p : Profile} {gz : Gunzip} {fuel : Nat} {s s' : Session} {r : Res Seen}
    (h : s.call p gz fuel .next = some (r, s')) (ho : ∀ x, s.opened ≠ some (.bytes x)) (hr : SureOrByte (some r) = true) :
    Sure (some r) = true := by
  cases r with
  | err e => exact hr
  | panic => exact hr
  | ok v =>
    cases v with
    | byte v =>
      exfalso
      unfold Session.call at h
      dsimp only at h
      cases hs : s.opened with
      | none => rw [hs] at h; cases h
      | some o =>
        rw [hs] at h
        dsimp only at h
        unfold Session.useOpened at h
        dsimp only at h
        obtain ⟨x, hx, e⟩ := Option.map_eq_some_iff.1 h
        have ex := (Prod.mk.inj e).1
        cases o with
        | bytes z => exact ho z hs
        | image d => cases hx; cases ex
        | table t =>
          cases hx
          obtain ⟨_, _, e⟩ := Res.map_eq_ok.1 ex
          cases e
        | rows t =>
          obtain ⟨_, _, e⟩ := Option.map_eq_some_iff.1 hx
          cases e
          obtain ⟨_, _, e⟩ := Res.map_eq_ok.1 ex
          cases e
        | tiles t =>
          obtain ⟨_, _, e⟩ := Option.map_eq_some_iff.1 hx
          cases e
          obtain ⟨_, _, e⟩ := Res.map_eq_ok.1 ex
          cases e
    | _ => exact hr

theorem nexts_ext {p : Profile} {gz : Gunzip} (hgz : Streaming gz) {fuel : Nat} (b : List UInt8)
    (n : Nat) (s : Session) :
    (s.run p gz fuel (List.replicate n .next)).takeWhile SureOrByte <+:
      (s.ext b).run p gz fuel (List.replicate n .next) := by
  induction n generalizing s with
  | zero => exact List.nil_prefix
  | succ n ih =>
    by_cases ho : ∃ x, s.opened = some (.bytes x)
    · obtain ⟨x, hx⟩ := ho
      exact bytes_run _ s (s.ext b) x (x.ext b) hx (by unfold Session.ext; dsimp only; rw [hx]; rfl) (x.ahead_ext b)
    · have ho' : ∀ x, s.opened ≠ some (.bytes x) := fun x hx => ho ⟨x, hx⟩
      rw [List.replicate_succ]
      unfold Session.run
      cases hc : s.call p gz fuel .next with
      | none => exact List.nil_prefix
      | some x =>
        obtain ⟨r, s'⟩ := x
        by_cases hr : SureOrByte (some r) = true
        · rw [call_ext hgz hc (next_sure hc ho' hr)]
          cases r with
          | panic => cases hr
          | err e => cases hr
          | ok v =>
            dsimp only
            rw [List.takeWhile_cons_of_pos hr]
            exact (List.prefix_cons_inj _).2 (ih s')
        · cases r with
          | panic => exact List.nil_prefix
          | err e => exact List.nil_prefix
          | ok v =>
            dsimp only
            rw [List.takeWhile_cons_of_neg hr]
            exact List.nil_prefix

theorem run_nexts_ext {p : Profile} {gz : Gunzip} (hgz : Streaming gz) {fuel : Nat} (b : List UInt8)
    (n : Nat) (cs : List Call) (s : Session) (hcs : ∀ v, some (.ok (.byte v)) ∉ s.run p gz fuel cs) :
    (s.run p gz fuel (cs ++ List.replicate n .next)).takeWhile SureOrByte <+:
      (s.ext b).run p gz fuel (cs ++ List.replicate n .next) := by
  induction cs generalizing s with
  | nil => exact nexts_ext hgz b n s
  | cons c cs ih =>
    rw [List.cons_append]
    unfold Session.run at hcs ⊢
    cases hc : s.call p gz fuel c with
    | none => exact List.nil_prefix
    | some x =>
      obtain ⟨r, s'⟩ := x
      rw [hc] at hcs
      cases r with
      | panic => exact List.nil_prefix
      | err e => exact List.nil_prefix
      | ok v =>
        dsimp only at hcs ⊢
        by_cases hr : SureOrByte (some (.ok v)) = true
        · have hr' : Sure (some (.ok v)) = true := by
            cases v with
            | byte v => exact absurd List.mem_cons_self (hcs v)
            | _ => exact hr
          rw [call_ext hgz hc hr', List.takeWhile_cons_of_pos hr]
          exact (List.prefix_cons_inj _).2 (ih s' fun v hv => hcs v (List.mem_cons_of_mem _ hv))
        · rw [List.takeWhile_cons_of_neg hr]
          exact List.nil_prefix

/-- **C75**, for the bytes of a table: a program that opens a table and then reads it byte by byte to any point sees of the
beginning of a file what it sees of the whole file, up to the first call that fails or ends. -/
theorem C75_bytes (p : Profile) (gz : Gunzip) (hgz : Streaming gz) (fuel : Nat) (data : List UInt8)
    (k : Nat) (cs : List Call) (n : Nat)
    (hcs : ∀ v, some (.ok (.byte v)) ∉ (Session.new ⟨data.take k, 0⟩).run p gz fuel cs) :
    ((Session.new ⟨data.take k, 0⟩).run p gz fuel (cs ++ List.replicate n .next)).takeWhile SureOrByte <+:
      (Session.new ⟨data, 0⟩).run p gz fuel (cs ++ List.replicate n .next) := by
  have h := run_nexts_ext (p := p) (fuel := fuel) hgz (data.drop k) n cs (Session.new ⟨data.take k, 0⟩) hcs
  rw [new_longer] at h
  exact h

/-- A decoder that copies its input produces its output as the input comes. -/
example : Streaming (.of fun xs => xs) := fun _ _ => List.prefix_append _ _

set_option maxRecDepth 20000 in
/-- Of a table cut after ten of its fourteen bytes a program sees the two HDUs, the opening, the values of the first row
(two shorts and three characters) and one of the second, and then no more. -/
example : (((Session.new ⟨mixedFile.take 5770, 0⟩).run .checked (.of fun xs => xs) 100
    ([.hdu, .hdu, .getData 0] ++ List.replicate 8 .next)).takeWhile Sure).length = 9 := by
  decide +kernel

set_option maxRecDepth 20000 in
/-- Read byte by byte, ten bytes; and none is taken before. -/
example : (((Session.new ⟨mixedFile.take 5770, 0⟩).run .checked (.of fun xs => xs) 100
    ([.hdu, .hdu, .getData 0, .bytes] ++ List.replicate 14 .next)).takeWhile SureOrByte).length = 14 := by
  decide +kernel

set_option maxRecDepth 20000 in
example : ((Session.new ⟨mixedFile.take 5770, 0⟩).run .checked (.of fun xs => xs) 100
    [.hdu, .hdu, .getData 0, .bytes]).all Sure = true := by
  decide +kernel

end Fitsrs

import Verif.Lemmas.NoPanic
import Verif.Lemmas.TilePanic
import Verif.Props.C61
/-
C83: what can make a program panic in a build without overflow checks, on arbitrary files.
-/

namespace Fitsrs
open Spec TableData

namespace Spec

/-- These bytes are in the file, which is not beyond the address space. -/
def Inside (data : List UInt8) (o n : Nat) : Prop := o + n ≤ data.length ∧ data.length < 2 ^ 64

/-- A call that does not run into one of the known causes of panics:
* the next header has no record whose value is a lone quote (C09), and does not announce more columns or axes than
  memory can hold (C26);
* a binary table whose data is opened has a column and rows that are not empty; if it is a compressed image, its header
  is sound (`TileSound`) and the file is not beyond 2^60 bytes;
* a selection of columns holds more columns than have been passed in the current row: at the start of a row, at least
  one;
* the data unit whose raw bytes are asked for is inside the file. -/
def Careful (s : Session) : Call → Prop
  | .hdu => ¬ QuoteIn s.close.fits.rd.data (headerPos s.close.fits) ∧ ¬ HugeIn s.close.fits.rd.data (headerPos s.close.fits)
  | .getData k => ∀ h, s.hdus[k]? = some (.binTable h) →
      h.header.xtension.tforms ≠ [] ∧ 0 < h.header.xtension.naxis1 ∧
        ∀ z, h.header.xtension.zImage = some z → TileSound .wrapping h.header z ∧ s.close.fits.rd.data.length < 2 ^ 60
  | .select cs => ∀ t, s.opened = some (.table t) → t.col < (cs.filterMap (resolve t.ctx)).length
  | .rawBytes =>
    (∀ d, s.opened = some (.image d) → Inside d.pixels.rd.data d.startPos d.numBytes) ∧
    ∀ t, s.opened = some (.table t) → ∀ n, t.ctx.numBytes .wrapping = .ok n → Inside t.rd.data t.startPos n
  | _ => True

/-- All the calls of a program are of that kind. -/
def CarefulRun (gz : Gunzip) (fuel : Nat) : List Call → Session → Prop
  | [], _ => True
  | c :: cs, s => Careful s c ∧ ∀ r s', s.call .wrapping gz fuel c = some (r, s') → CarefulRun gz fuel cs s'

end Spec

/-! ### The invariant -/

/-- Names and formats of the columns of a table go together. -/
def NamedColumns : HDU → Prop
  | .binTable h => h.header.xtension.ttypes.length = h.header.xtension.tforms.length
  | _ => True

/-- What is opened cannot panic. -/
def SteadyUnit : OpenUnit → Prop
  | .table t => Steady t
  | .rows r => Steady r.data
  | .tiles it => ∃ h z, TilesSafe .wrapping h z it ∧ h.xtension.ttypes.length = h.xtension.tforms.length
  | _ => True

structure SteadySession (s : Session) : Prop where
  hdus : ∀ h ∈ s.hdus, NamedColumns h
  opened : ∀ o, s.opened = some o → SteadyUnit o

theorem BinTable.parse_named {p : Profile} {m : ValueMap} {x : BinTable} (h : BinTable.parse p m = .ok x) :
    x.ttypes.length = x.tforms.length := by
  rcases binParse_else (p := p) (m := m) with ⟨w, r, pc, tf, hk⟩ | ⟨e, he⟩
  · rw [binParse_of hk] at h
    unfold binTail at h
    obtain ⟨axes, -, h⟩ := Res.bind_eq_ok.1 h
    dsimp only at h
    obtain ⟨theap, -, h⟩ := Res.bind_eq_ok.1 h
    obtain ⟨bits, -, h⟩ := Res.bind_eq_ok.1 h
    split at h
    · cases h
    · cases h
      rw [List.length_map, List.length_map]
  · rw [he] at h; cases h

theorem Hdu.new_parsed {X : Type} {parse : ValueMap → Res X} {cards : List Card} {s : HState} {h : Hdu X}
    (e : (Hdu.new parse cards s).1 = .ok h) : ∃ m, parse m = .ok h.header.xtension := by
  have key : ∀ y, Header.parse parse cards = .ok y → ∃ m, parse m = .ok y.xtension := by
    intro y hy
    unfold Header.parse at hy
    obtain ⟨m, -, hy⟩ := Res.bind_eq_ok.1 hy
    obtain ⟨x, hx, hy⟩ := Res.bind_eq_ok.1 hy
    cases hy
    exact ⟨m, hx⟩
  unfold Hdu.new at e
  cases hp : Header.parse parse cards with
  | panic => rw [hp] at e; cases e
  | err x => rw [hp] at e; cases e
  | ok y =>
    rw [hp] at e
    dsimp only at e
    by_cases hn : s.nread % 2880 ≠ 0
    · rw [if_pos hn] at e
      generalize s.rd.readExact (2880 - s.nread % 2880) = w at e
      rcases w with ⟨r, rd⟩
      cases r with
      | ok _ => cases e; exact key y hp
      | err _ => cases e
      | panic => cases e
    · rw [if_neg hn] at e; cases e; exact key y hp

theorem xtensionOf_named {p : Profile} {cards : List Card} {s : HState} {h : HDU}
    (e : (xtensionOf p cards s).1 = .ok h) : NamedColumns h := by
  unfold xtensionOf at e
  split at e
  · obtain ⟨x, -, rfl⟩ := Res.map_eq_ok.1 e; trivial
  · obtain ⟨x, hx, rfl⟩ := Res.map_eq_ok.1 e
    obtain ⟨m, hm⟩ := Hdu.new_parsed hx
    exact BinTable.parse_named hm
  · obtain ⟨x, -, rfl⟩ := Res.map_eq_ok.1 e; trivial
  · cases e
  · cases e

theorem newXtension_named {p : Profile} {s : HState} {h : HDU} (e : (HDU.newXtension p s).1 = .ok h) :
    NamedColumns h := by
  unfold HDU.newXtension at e
  generalize consumeCards s = w at e
  rcases w with ⟨r, s1⟩
  cases r with
  | panic => cases e
  | err x => cases e
  | ok cards => exact xtensionOf_named e

theorem record_ok_eq {p : Profile} {n : Option (Res HDU)} {f : Fits} {h : HDU}
    (e : (Fits.record p n f).1 = some (.ok h)) : n = some (.ok h) := by
  unfold Fits.record at e
  cases n with
  | none => cases e
  | some r =>
    cases r with
    | panic => cases e
    | err x => cases e
    | ok x =>
      dsimp only at e
      cases hs : x.dataSize p with
      | ok n => rw [hs] at e; cases e; rfl
      | err y => rw [hs] at e; cases e
      | panic => rw [hs] at e; cases e

theorem next_named {p : Profile} {f : Fits} {h : HDU} (e : (f.next p).1 = some (.ok h)) : NamedColumns h := by
  unfold Fits.next at e
  by_cases he : f.errored = true
  · rw [if_pos he] at e; cases e
  rw [if_neg he] at e
  by_cases hs : f.start = true
  · rw [if_pos hs] at e
    dsimp only at e
    have e := Option.some.inj (record_ok_eq e)
    rcases hq : HDU.newPrimary f.rd with ⟨r, s⟩
    rw [hq] at e
    dsimp only at e
    subst e
    obtain ⟨-, -, ⟨x, rfl⟩, -⟩ := newPrimary_ok hq
    trivial
  · rw [if_neg hs] at e
    generalize f.consumeUntilNextHdu p = w at e
    rcases w with ⟨r, rd⟩
    cases r with
    | panic => exact absurd (record_ok_eq e) (by simp)
    | err y => exact absurd (record_ok_eq e) (by simp)
    | ok u =>
      dsimp only at e
      have e := record_ok_eq e
      refine newXtension_named (p := p) (s := { rd, nread := 0 }) ?_
      generalize HDU.newXtension p { rd, nread := 0 } = q at e ⊢
      rcases q with ⟨r, s⟩
      dsimp only at e ⊢
      split at e
      · split at e
        · cases e
        · cases e
      · exact Option.some.inj e

theorem ImageData.new_wraps (x : Image) (rd : Reader) (n : Nat) : ImageData.new .wrapping x rd n ≠ .panic := by
  unfold ImageData.new
  exact Res.bind_no_panic x.numBytes_wraps fun _ _ => fun h => (by cases h)

theorem It.readOffset_wraps (i : Nat) (it : It) : it.readOffset .wrapping i ≠ .panic := by
  unfold It.readOffset
  exact Res.bind_no_panic (i64op_wraps _) fun _ _ => i64op_wraps _

theorem It.readAt_no_panic (off : Int) (i : Nat) (it : It) : (it.readAt off i).1 ≠ .panic := by
  unfold It.readAt
  have hs := Reader.seekRelative_no_panic off it.rd
  generalize it.rd.seekRelative off = w at hs ⊢
  rcases w with ⟨r, rd⟩
  cases r with
  | panic => exact absurd rfl hs
  | err e => exact fun h => (by cases h)
  | ok u =>
    dsimp only
    generalize It.next { it with rd, cur := i } = q
    rcases q with ⟨v, j⟩
    cases v with
    | none => exact fun h => (by cases h)
    | some v => exact fun h => (by cases h)

theorem It.readValue_wraps (i : Nat) (it : It) : (it.readValue .wrapping i).1 ≠ .panic := by
  unfold It.readValue
  by_cases h : i ≥ it.numItems
  · rw [if_pos h]; exact fun h => (by cases h)
  rw [if_neg h]
  cases hr : it.readOffset .wrapping i with
  | panic => exact absurd hr (It.readOffset_wraps i it)
  | err e => exact fun h => (by cases h)
  | ok off => exact It.readAt_no_panic off i it

/-- Opening the data of an HDU. -/
theorem getData_steady {f : Fits} {h : HDU} (hn : NamedColumns h)
    (hc : ∀ x, h = .binTable x → x.header.xtension.tforms ≠ [] ∧ 0 < x.header.xtension.naxis1 ∧
      ∀ z, x.header.xtension.zImage = some z → TileSound .wrapping x.header z ∧ f.rd.data.length < 2 ^ 60) :
    f.getData .wrapping h ≠ .panic ∧ ∀ o, f.getData .wrapping h = .ok o → SteadyUnit o := by
  have img : ∀ x : Hdu Image, (f.getImage .wrapping x).map OpenUnit.image ≠ .panic ∧
      ∀ o, (f.getImage .wrapping x).map OpenUnit.image = .ok o → SteadyUnit o := by
    intro x
    refine ⟨fun e => ImageData.new_wraps _ _ _ (Res.map_eq_panic.1 e), fun o e => ?_⟩
    obtain ⟨d, -, rfl⟩ := Res.map_eq_ok.1 e
    trivial
  cases h with
  | primary x => exact img x
  | image x => exact img x
  | asciiTable x =>
    refine ⟨fun e => ?_, fun o e => ?_⟩
    · have e := Res.map_eq_panic.1 e
      unfold Fits.openAscii at e
      exact Res.bind_no_panic (umul_wraps _ _) (fun _ _ => fun h => (by cases h)) e
    · obtain ⟨d, -, rfl⟩ := Res.map_eq_ok.1 e
      trivial
  | binTable x =>
    obtain ⟨h1, h2, h3⟩ := hc x rfl
    unfold Fits.getData
    dsimp only
    cases hz : x.header.xtension.zImage with
    | some z =>
      dsimp only
      obtain ⟨it, hi, hs⟩ := getTiles_safe (h3 z hz).1 (h3 z hz).2
      rw [hi]
      refine ⟨fun e => (by cases e), fun o e => ?_⟩
      cases e
      exact ⟨_, _, hs, hn⟩
    | none =>
      dsimp only
      unfold Fits.getTable
      rw [hz]
      refine ⟨fun e => ?_, fun o e => ?_⟩
      · have e := Res.map_eq_panic.1 e
        exact Res.bind_no_panic (TableData.new_wraps _ _ _) (fun _ _ => fun h => (by cases h)) e
      · obtain ⟨d, hd, rfl⟩ := Res.map_eq_ok.1 e
        obtain ⟨t, ht, hd⟩ := Res.bind_eq_ok.1 hd
        cases hd
        exact TableData.new_steady ht hn h1 h2

theorem sort_length (l : List Nat) : (TableData.sort l).length = l.length := by
  have key : ∀ (x : Nat) (l : List Nat), (insertSorted x l).length = l.length + 1 := by
    intro x l
    induction l with
    | nil => rfl
    | cons y ys ih =>
      unfold insertSorted
      split
      · rfl
      · rw [List.length_cons, ih, List.length_cons]
  induction l with
  | nil => rfl
  | cons x xs ih =>
    show (insertSorted x (TableData.sort xs)).length = _
    rw [key, ih, List.length_cons]

theorem resolve_lt {x : BinTable} {c : ColumnId} {i : Nat} (hn : x.ttypes.length = x.tforms.length)
    (h : resolve x c = some i) : i < x.tforms.length := by
  unfold resolve at h
  cases c with
  | index j =>
    dsimp only at h
    split at h
    · cases h
    · cases h; omega
  | name s =>
    dsimp only at h
    unfold findFieldByTtype at h
    dsimp only at h
    split at h
    · cases h; omega
    · cases h

theorem select_steady {cs : List ColumnId} {t : TableData} (h : Steady t)
    (hc : t.col < (cs.filterMap (resolve t.ctx)).length) : Steady (t.selectFields cs) := by
  refine ⟨h.offsets, h.names, fun c hm => ?_, ?_, h.width⟩
  · have hm : c ∈ TableData.sort (cs.filterMap (resolve t.ctx)) := hm
    rw [mem_sort] at hm
    obtain ⟨a, -, ha⟩ := List.mem_filterMap.1 hm
    exact resolve_lt h.names ha
  · show t.col < (TableData.sort (cs.filterMap (resolve t.ctx))).length
    rw [sort_length]; exact hc

theorem nextItem_steady {gz : Gunzip} {fuel : Nat} {o u : OpenUnit} {r : Res Seen}
    (h : SteadyUnit o) (e : Session.nextItem .wrapping gz fuel o = some (r, u)) : SteadyUnit u ∧ r ≠ .panic := by
  cases o with
  | image d => cases e; exact ⟨trivial, fun h => (by cases h)⟩
  | bytes b => cases e; exact ⟨trivial, fun h => (by cases h)⟩
  | table t =>
    cases e
    have := TableData.next_steady (t := t) h
    exact ⟨this.1, fun h => this.2 (Res.map_eq_panic.1 h)⟩
  | rows t =>
    unfold Session.nextItem at e
    dsimp only at e
    cases hq : t.next .wrapping fuel with
    | none => rw [hq] at e; cases e
    | some q =>
      rw [hq] at e
      cases e
      have := TableRows.next_steady (t := t) h hq
      exact ⟨this.1, fun h => this.2 (Res.map_eq_panic.1 h)⟩
  | tiles it =>
    obtain ⟨x, z, hs, hn⟩ := h
    unfold Session.nextItem at e
    dsimp only at e
    cases hq : it.next .wrapping gz fuel with
    | none => rw [hq] at e; cases e
    | some q =>
      rcases q with ⟨q, it'⟩
      rw [hq] at e
      cases e
      have := hs.next hq
      exact ⟨⟨x, z, this.1, hn⟩, fun h => this.2 (Res.map_eq_panic.1 h)⟩

theorem onOpened_steady {c : Call} {o : OpenUnit} {r : Res Seen} {u : Option OpenUnit} (h : SteadyUnit o)
    (h1 : ∀ cs, c = .select cs → ∀ t, o = .table t → t.col < (cs.filterMap (resolve t.ctx)).length)
    (h2 : c = .rawBytes → (∀ d, o = .image d → d.rawBytes .wrapping ≠ .panic) ∧
      ∀ t, o = .table t → t.rawBytes .wrapping ≠ .panic)
    (e : Session.onOpened .wrapping c o = (r, u)) : (∀ v, u = some v → SteadyUnit v) ∧ r ≠ .panic := by
  have keep : ∀ v, SteadyUnit v → ∀ w, some v = some w → SteadyUnit w := by
    intro v hv w hw; cases hw; exact hv
  unfold Session.onOpened at e
  split at e
  · cases e
    exact ⟨keep _ trivial, fun h => It.readValue_wraps _ _ (Res.map_eq_panic.1 h)⟩
  · cases e
    exact ⟨fun v hv => (by cases hv), fun h => (h2 rfl).1 _ rfl (Res.map_eq_panic.1 h)⟩
  · cases e
    exact ⟨keep _ h, fun h => (h2 rfl).2 _ rfl (Res.map_eq_panic.1 h)⟩
  · rename_i n t
    cases e
    have := TableData.seekToRow_steady (r := n) (t := t) h
    exact ⟨keep _ this.1, fun h => this.2 (Res.map_eq_panic.1 h)⟩
  · rename_i cs t
    cases e
    exact ⟨keep _ (select_steady (t := t) h (h1 cs rfl t rfl)), fun h => (by cases h)⟩
  · cases e
    exact ⟨keep _ h, fun h => (by cases h)⟩
  · cases e
    obtain ⟨x, z, hs, hn⟩ := h
    exact ⟨keep _ (hs.rows.steady hn), fun h => (by cases h)⟩
  · cases e
    exact ⟨keep _ h, fun h => (by cases h)⟩
  · cases e
    obtain ⟨x, z, hs, hn⟩ := h
    exact ⟨keep _ (hs.rows.steady hn), fun h => (by cases h)⟩
  · cases e
    exact ⟨keep _ trivial, fun h => (by cases h)⟩
  · cases e
    exact ⟨keep _ h, fun h => (by cases h)⟩

theorem slice_inside {data : List UInt8} {o n : Nat} (h : Inside data o n) : slice .wrapping data o n ≠ .panic := by
  have h1 := h.1
  have h2 := h.2
  unfold slice
  rw [uadd_ok (show o + n < 2 ^ 64 by omega), Res.bind_ok, if_pos ⟨by omega, h1⟩]
  exact fun h => (by cases h)

theorem call_steady {gz : Gunzip} {fuel : Nat} {c : Call} {s s' : Session} {r : Res Seen}
    (h : SteadySession s) (hc : Careful s c) (e : s.call .wrapping gz fuel c = some (r, s')) :
    SteadySession s' ∧ r ≠ .panic := by
  have used : ∀ (hc1 : c ≠ .hdu) (hc2 : ∀ k, c ≠ .getData k), ∀ o, s.opened = some o →
      s.useOpened .wrapping gz fuel c o = some (r, s') → SteadySession s' ∧ r ≠ .panic := by
    intro hc1 hc2 o ho e
    have put : ∀ v, SteadyUnit v → SteadySession (s.put v) := fun v hv =>
      ⟨h.hdus, fun w hw => by cases hw; exact hv⟩
    by_cases hn : c = .next
    · subst hn
      unfold Session.useOpened at e
      dsimp only at e
      cases hq : Session.nextItem .wrapping gz fuel o with
      | none => rw [hq] at e; cases e
      | some q =>
        rw [hq] at e
        cases e
        have := nextItem_steady (h.opened o ho) hq
        exact ⟨put _ this.1, this.2⟩
    · have e : (match Session.onOpened .wrapping c o with
          | (r, some o) => some (r, s.put o)
          | (r, none) => some (r, s.close)) = some (r, s') := by
        unfold Session.useOpened at e
        cases c <;> first | exact absurd rfl hn | exact e
      have key := fun (r : Res Seen) (u : Option OpenUnit) (hq : Session.onOpened .wrapping c o = (r, u)) =>
        onOpened_steady (h.opened o ho)
          (fun cs hcs t ht => by subst hcs; exact hc t (by rw [ho, ht]))
          (fun hr => by
            subst hr
            refine ⟨fun d hd => ?_, fun t ht => ?_⟩
            · exact slice_inside (hc.1 d (by rw [ho, hd]))
            · unfold TableData.rawBytes
              exact Res.bind_no_panic t.ctx.numBytes_wraps fun n hn =>
                slice_inside (hc.2 t (by rw [ho, ht]) n hn)) hq
      rcases hq : Session.onOpened .wrapping c o with ⟨q, u⟩
      obtain ⟨k1, k2⟩ := key _ _ hq
      rw [hq] at e
      cases u with
      | none =>
        cases e
        refine ⟨⟨by rw [Session.close_hdus]; exact h.hdus, fun v hv => ?_⟩, k2⟩
        rw [Session.close_isNone] at hv; cases hv
      | some u => cases e; exact ⟨put _ (k1 u rfl), k2⟩
  have rest : ∀ (hc1 : c ≠ .hdu) (hc2 : ∀ k, c ≠ .getData k),
      (match s.opened with
        | none => some (.ok .illTyped, s)
        | some o => s.useOpened .wrapping gz fuel c o) = some (r, s') → SteadySession s' ∧ r ≠ .panic := by
    intro hc1 hc2 e
    cases ho : s.opened with
    | none => rw [ho] at e; cases e; exact ⟨h, fun h => (by cases h)⟩
    | some o => rw [ho] at e; exact used hc1 hc2 o ho e
  have closed : SteadySession s.close :=
    ⟨by rw [Session.close_hdus]; exact h.hdus, fun v hv => by rw [Session.close_isNone] at hv; cases hv⟩
  cases c with
  | hdu =>
    unfold Session.call at e
    dsimp only at e
    have e := Option.some.inj e
    unfold Session.nextHdu at e
    rcases hq : s.close.fits.next .wrapping with ⟨q, f⟩
    rw [hq] at e
    cases q with
    | none => cases e; exact ⟨⟨closed.hdus, closed.opened⟩, fun h => (by cases h)⟩
    | some q =>
      cases q with
      | ok x =>
        cases e
        refine ⟨⟨fun y hy => ?_, closed.opened⟩, fun h => (by cases h)⟩
        rcases List.mem_cons.1 hy with rfl | hy
        · exact next_named (by rw [hq])
        · exact closed.hdus y hy
      | err x => cases e; exact ⟨⟨closed.hdus, closed.opened⟩, fun h => (by cases h)⟩
      | panic =>
        rcases Fits.next_cause (f := s.close.fits) (by rw [hq]) with h | h
        · exact absurd h hc.1
        · exact absurd h hc.2
  | getData k =>
    unfold Session.call at e
    dsimp only at e
    have e := Option.some.inj e
    unfold Session.openData at e
    cases hk : s.close.hdus[k]? with
    | none => rw [hk] at e; cases e; exact ⟨closed, fun h => (by cases h)⟩
    | some x =>
      rw [hk] at e
      rw [Session.close_hdus] at hk
      have h1 := getData_steady (f := s.close.fits) (h.hdus x (List.mem_of_getElem? hk))
        (fun y hy => hc y (by rw [hk, hy]))
      dsimp only at e
      cases hg : s.close.fits.getData .wrapping x with
      | ok o =>
        rw [hg] at e
        cases e
        exact ⟨⟨closed.hdus, fun v hv => by cases hv; exact h1.2 o hg⟩, fun h => (by cases h)⟩
      | err y => rw [hg] at e; cases e; exact ⟨closed, fun h => (by cases h)⟩
      | panic => exact absurd hg h1.1
  | next => exact rest (by simp) (by simp) e
  | readValue i => exact rest (by simp) (by simp) e
  | seekRow i => exact rest (by simp) (by simp) e
  | select cs => exact rest (by simp) (by simp) e
  | rowIter => exact rest (by simp) (by simp) e
  | tableData => exact rest (by simp) (by simp) e
  | bytes => exact rest (by simp) (by simp) e
  | rawBytes => exact rest (by simp) (by simp) e

/-- **C83.** In a build without overflow checks, on an arbitrary file (damaged, truncated, or not a FITS file), a
program none of whose calls runs into one of the known causes never panics. -/
theorem C83_no_panic (data : List UInt8) (pos : Nat) (gz : Gunzip) (fuel : Nat) (cs : List Call)
    (h : CarefulRun gz fuel cs (Session.new { data, pos })) :
    some .panic ∉ Session.run .wrapping gz fuel cs (Session.new { data, pos }) := by
  have key : ∀ (cs : List Call) (s : Session), SteadySession s → CarefulRun gz fuel cs s →
      some .panic ∉ Session.run .wrapping gz fuel cs s := by
    intro cs
    induction cs with
    | nil => intro s _ _; exact List.not_mem_nil
    | cons c cs ih =>
      intro s hs hc
      unfold Session.run
      cases hq : s.call .wrapping gz fuel c with
      | none => simp
      | some q =>
        rcases q with ⟨r, s'⟩
        have h1 := call_steady hs hc.1 hq
        have h2 := ih s' h1.1 (hc.2 r s' hq)
        cases r with
        | panic => exact absurd rfl h1.2
        | ok v =>
          intro hm
          rcases List.mem_cons.1 hm with hm | hm
          · cases hm
          · exact h2 hm
        | err v =>
          intro hm
          rcases List.mem_cons.1 hm with hm | hm
          · cases hm
          · exact h2 hm
  exact key cs _ ⟨fun h hh => (by cases hh), fun o ho => (by cases ho)⟩ h

/-! ### Checking that a program is of that kind -/

/-- No record of the header makes the parser of records panic. -/
def soundRecords (data : List UInt8) : (fuel o : Nat) → Bool
  | 0, _ => false
  | fuel + 1, o =>
    if o + 80 ≤ data.length then
      match Card.tryFrom (recordAt data o 0) with
      | .panic => false
      | .ok .end_ => true
      | _ => soundRecords data fuel (o + 80)
    else true

theorem soundRecords_ok {data : List UInt8} : ∀ {fuel o : Nat}, soundRecords data fuel o = true → ¬ QuoteIn data o := by
  intro fuel
  induction fuel with
  | zero => intro o h; cases h
  | succ fuel ih =>
    rintro o h ⟨k, h1, h2, h3⟩
    unfold soundRecords at h
    rw [if_pos (by omega)] at h
    cases k with
    | zero =>
      rw [(C09_panic_iff _).2 h3] at h
      cases h
    | succ k =>
      have h4 : ¬ QuoteIn data (o + 80) → False := fun hq => hq ⟨k, by omega, fun i hi => by
        have := h2 (i + 1) (by omega)
        rwa [show recordAt data (o + 80) i = recordAt data o (i + 1) from recordAt_shift ..], by
        rwa [show recordAt data (o + 80) k = recordAt data o (k + 1) from recordAt_shift ..]⟩
      cases hc : Card.tryFrom (recordAt data o 0) with
      | panic => rw [hc] at h; cases h
      | err e => rw [hc] at h; exact h4 (ih h)
      | ok c =>
        have : c ≠ .end_ := fun he => h2 0 (by omega) (tryFrom_end_iff_record.1 (by rw [hc, he]))
        rw [hc] at h
        cases c <;> first | exact absurd rfl this | exact h4 (ih h)

/-- The header does not announce too many columns or axes. -/
def moderateHeader (data : List UInt8) (o : Nat) : Bool :=
  match (consumeCards { rd := { data, pos := o }, nread := 0 }).1 with
  | .ok cards =>
    match processCards cards with
    | .ok m =>
      (match m.get "TFIELDS".toList with
        | some (.integer n _) => decide (n * 24 < 2 ^ 63)
        | _ => true) &&
      (match m.get "ZNAXIS".toList with
        | some (.integer n _) => decide (n * 8 < 2 ^ 63)
        | _ => true)
    | _ => true
  | _ => true

theorem moderateHeader_ok {data : List UInt8} {o : Nat} (h : moderateHeader data o = true) : ¬ HugeIn data o := by
  rintro ⟨cards, m, ha, hm, hb⟩
  obtain ⟨k, hk⟩ : ∃ k, cards.length = k + 1 := ⟨cards.length - 1, by have := ha.nonempty; omega⟩
  have hc := consumeCards_complete (k := k) (s := { rd := { data, pos := o }, nread := 0 }) (cards := cards)
    (by have := ha.inFile; rw [hk] at this; exact this) hk ha.card ha.endLast
  unfold moderateHeader at h
  rw [hc] at h
  dsimp only at h
  rw [hm] at h
  dsimp only at h
  rw [Bool.and_eq_true] at h
  obtain ⟨h1, h2⟩ := h
  rcases hb with ⟨n, ⟨c, hg⟩, hn⟩ | ⟨n, ⟨c, hg⟩, hn⟩
  · rw [hg] at h1
    have := of_decide_eq_true h1
    omega
  · rw [hg] at h2
    have := of_decide_eq_true h2
    omega

/-- A check of one call. -/
def checkCall (s : Session) : Call → Bool
  | .hdu =>
    soundRecords s.close.fits.rd.data (s.close.fits.rd.data.length + 1) (headerPos s.close.fits) &&
      moderateHeader s.close.fits.rd.data (headerPos s.close.fits)
  | .getData k =>
    match s.hdus[k]? with
    | some (.binTable h) =>
      decide (h.header.xtension.tforms ≠ []) && decide (0 < h.header.xtension.naxis1) &&
        match h.header.xtension.zImage with
        | some z => checkTile .wrapping h.header z && decide (s.close.fits.rd.data.length < 2 ^ 60)
        | none => true
    | _ => true
  | .select cs =>
    match s.opened with
    | some (.table t) => decide (t.col < (cs.filterMap (resolve t.ctx)).length)
    | _ => true
  | .rawBytes =>
    match s.opened with
    | some (.image d) =>
      decide (d.startPos + d.numBytes ≤ d.pixels.rd.data.length ∧ d.pixels.rd.data.length < 2 ^ 64)
    | some (.table t) =>
      match t.ctx.numBytes .wrapping with
      | .ok n => decide (t.startPos + n ≤ t.rd.data.length ∧ t.rd.data.length < 2 ^ 64)
      | _ => true
    | _ => true
  | _ => true

/-- A check of a program. -/
def checkRun (gz : Gunzip) (fuel : Nat) : List Call → Session → Bool
  | [], _ => true
  | c :: cs, s => checkCall s c && match s.call .wrapping gz fuel c with
    | none => true
    | some (_, s') => checkRun gz fuel cs s'

theorem checkCall_ok {s : Session} {c : Call} (h : checkCall s c = true) : Careful s c := by
  unfold checkCall at h
  cases c with
  | hdu =>
    dsimp only at h
    rw [Bool.and_eq_true] at h
    exact ⟨soundRecords_ok h.1, moderateHeader_ok h.2⟩
  | getData k =>
    intro x hx
    dsimp only at h
    rw [hx] at h
    dsimp only at h
    rw [Bool.and_eq_true, Bool.and_eq_true] at h
    refine ⟨of_decide_eq_true h.1.1, of_decide_eq_true h.1.2, fun z hz => ?_⟩
    have h2 := h.2
    rw [hz] at h2
    dsimp only at h2
    rw [Bool.and_eq_true] at h2
    exact ⟨checkTile_ok h2.1, of_decide_eq_true h2.2⟩
  | select cs =>
    intro t ht
    dsimp only at h
    rw [ht] at h
    exact of_decide_eq_true h
  | rawBytes =>
    dsimp only at h
    refine ⟨fun d hd => ?_, fun t ht n hn => ?_⟩
    · rw [hd] at h
      have h := of_decide_eq_true h
      exact h
    · rw [ht] at h
      dsimp only at h
      rw [hn] at h
      have h := of_decide_eq_true h
      exact h
  | next => trivial
  | readValue i => trivial
  | seekRow r => trivial
  | rowIter => trivial
  | tableData => trivial
  | bytes => trivial

theorem checkRun_ok {gz : Gunzip} {fuel : Nat} : ∀ {cs : List Call} {s : Session},
    checkRun gz fuel cs s = true → CarefulRun gz fuel cs s := by
  intro cs
  induction cs with
  | nil => intro s _; trivial
  | cons c cs ih =>
    intro s h
    unfold checkRun at h
    rw [Bool.and_eq_true] at h
    refine ⟨checkCall_ok h.1, fun r s' hs => ?_⟩
    have h2 := h.2
    rw [hs] at h2
    exact ih h2

/-- The file with arrays, cut eight bytes before its end: the heap is incomplete. -/
def cutArrayFile : List UInt8 := arrayFile.take 5776

set_option maxRecDepth 20000 in
theorem cutArray_checked : checkRun (.of fun _ => []) 10
    [.hdu, .getData 0, .next, .hdu, .getData 0, .select [.index 1, .index 0], .seekRow 1, .next, .next, .next, .rowIter, .next, .next, .hdu]
    (Session.new ⟨cutArrayFile, 0⟩) = true := by decide +kernel

/-- Non-vacuity: a program that reads a truncated table. -/
example : some .panic ∉ Session.run .wrapping (.of fun _ => []) 10
    [.hdu, .getData 0, .next, .hdu, .getData 0, .select [.index 1, .index 0], .seekRow 1, .next, .next, .next, .rowIter, .next, .next, .hdu]
    (Session.new ⟨cutArrayFile, 0⟩) :=
  C83_no_panic _ _ _ _ _ (checkRun_ok cutArray_checked)

set_option maxRecDepth 20000 in
theorem cutTiles_checked : checkRun (.of fun _ => []) 100
    [.hdu, .hdu, .getData 0, .next, .next, .next, .next, .next, .rowIter, .next, .tableData, .seekRow 0, .next, .hdu]
    (Session.new ⟨floatTilesFile.take 5825, 0⟩) = true := by decide +kernel

/-- Non-vacuity: a program that reads a compressed image whose last tile is cut. -/
example : some .panic ∉ Session.run .wrapping (.of fun _ => []) 100
    [.hdu, .hdu, .getData 0, .next, .next, .next, .next, .next, .rowIter, .next, .tableData, .seekRow 0, .next, .hdu]
    (Session.new ⟨floatTilesFile.take 5825, 0⟩) :=
  C83_no_panic _ _ _ _ _ (checkRun_ok cutTiles_checked)

/-! ### Each of the conditions is needed

For the number of columns see `C26_ascii` and `C26_fails`, for compressed images C84. -/

set_option maxRecDepth 20000 in
/-- A lone quote. -/
theorem C83_quote_needed : some .panic ∈ Session.run .wrapping (.of fun _ => []) 10 [.hdu]
    (Session.new ⟨rec80 "SIMPLE  =                    T" ++ rec80 "AAA     = '", 0⟩) := by decide +kernel

set_option maxRecDepth 20000 in
/-- A table without columns. -/
theorem C83_no_columns_needed : some .panic ∈ Session.run .wrapping (.of fun _ => []) 10 [.hdu, .hdu, .getData 0, .next]
    (Session.new ⟨noColumnsFile, 0⟩) := by decide +kernel

set_option maxRecDepth 20000 in
/-- A table whose rows are empty because the sum of their bits overflows. -/
theorem C83_empty_rows_needed : some .panic ∈ Session.run .wrapping (.of fun _ => []) 10
    [.hdu, .hdu, .getData 0, .select [.index 1], .next]
    (Session.new ⟨tableFile ["NAXIS1  =                    0", "NAXIS2  =                    2",
      "PCOUNT  =                    4", "TFIELDS =                    3", "TFORM1  = '1B'", "TFORM2  = '1B'",
      "TFORM3  = '2305843009213693950B'"]
      [1, 2, 3, 4], 0⟩) := by
  decide +kernel

set_option maxRecDepth 20000 in
/-- A selection of one column when the first column of the row has been read. -/
theorem C83_selection_needed : some .panic ∈ Session.run .wrapping (.of fun _ => []) 10
    [.hdu, .hdu, .getData 0, .next, .next, .select [.index 0], .next] (Session.new ⟨mixedFile, 0⟩) := by decide +kernel

set_option maxRecDepth 20000 in
/-- The raw bytes of a truncated table. -/
theorem C83_raw_needed : some .panic ∈ Session.run .wrapping (.of fun _ => []) 10 [.hdu, .hdu, .getData 0, .rawBytes]
    (Session.new ⟨cutArrayFile, 0⟩) := by decide +kernel

end Fitsrs

import Verif.Props.C61_Exact
import Verif.Props.C64
import Verif.Lemmas.ReachTiles
import Verif.Spec.TileSamples
/-
C61 in builds without overflow checks, for every program.
-/

namespace Fitsrs
open Spec Fits Session

/-- What `get_data` opens. -/
theorem getData_low {L M W K j : Nat} {f : Fits} {h : HDU} {o : OpenUnit} (hd : f.rd.data.length = L) (hp : f.rd.pos ≤ L + W)
    (hr : Reach K M h) (ho : f.getData .wrapping h = .ok o) : o.Low L M W K j := by
  have image : ∀ (a : Hdu Image), (∀ n, a.header.xtension.numBytes .wrapping = .ok n → n + 2880 ≤ M) →
      (f.getImage .wrapping a).map .image = .ok o → o.Low L M W K j := by
    intro a hn ho
    obtain ⟨d, hi, rfl⟩ := Res.map_eq_ok.1 ho
    unfold Fits.getImage ImageData.new at hi
    obtain ⟨n, hs, hi⟩ := Res.bind_eq_ok.1 hi
    cases hi
    have := hn n hs
    refine ⟨hd, hp, Nat.zero_le _, ?_⟩
    show n / a.header.xtension.bitpix.byteSize * a.header.xtension.bitpix.byteSize ≤ M
    have := Nat.div_mul_le_self n a.header.xtension.bitpix.byteSize
    omega
  cases h with
  | primary a => exact image a hr.1 ho
  | image a => exact image a hr.1 ho
  | asciiTable a =>
    obtain ⟨d, hi, rfl⟩ := Res.map_eq_ok.1 ho
    unfold Fits.openAscii at hi
    obtain ⟨n, -, hi⟩ := Res.bind_eq_ok.1 hi
    cases hi
    exact ⟨hd, hp⟩
  | binTable a =>
    have ht := hr.2 a rfl
    have table : ∀ t n heap, TableData.new .wrapping f.rd a.header.xtension n = .ok t →
        (t.readTheHeap heap).Low L M W ∧ (t.readTheHeap heap).seekFirst = false ∧
          (t.readTheHeap heap).ctx.naxis1 = a.header.xtension.naxis1 := by
      intro t n heap hn
      unfold TableData.new at hn
      obtain ⟨l, hl, hn⟩ := Res.bind_eq_ok.1 hn
      obtain ⟨m, hm, hn⟩ := Res.bind_eq_ok.1 hn
      cases hn
      have hmM : m ≤ M := by
        have := ht.main
        unfold umul at hm
        split at hm
        · cases hm; exact this
        · cases hm
          exact Nat.le_trans (Nat.mod_le _ _) this
      exact ⟨⟨⟨hd, ht.noQ, ht.cols l hl, hmM, ht.theap⟩, hp, Nat.zero_le _, fun _ => .inl (Nat.zero_le _), (fun _ h => by cases h)⟩,
        rfl, rfl⟩
    unfold Fits.getData at ho
    dsimp only at ho
    cases hz : a.header.xtension.zImage with
    | none =>
      rw [hz] at ho
      dsimp only at ho
      obtain ⟨d, hi, rfl⟩ := Res.map_eq_ok.1 ho
      unfold Fits.getTable at hi
      rw [hz] at hi
      obtain ⟨t, hn, hi⟩ := Res.bind_eq_ok.1 hi
      cases hi
      exact (table t _ t.heap hn).1
    | some z =>
      rw [hz] at ho
      dsimp only at ho
      obtain ⟨d, hi, rfl⟩ := Res.map_eq_ok.1 ho
      unfold Fits.getTiles at hi
      obtain ⟨t, hn, hi⟩ := Res.bind_eq_ok.1 hi
      unfold TileIt.new at hi
      obtain ⟨n, -, hi⟩ := Res.bind_eq_ok.1 hi
      obtain ⟨size, -, hi⟩ := Res.bind_eq_ok.1 hi
      split at hi
      · cases hi
      · obtain ⟨kw, -, hi⟩ := Res.bind_eq_ok.1 hi
        cases hi
        obtain ⟨h1, h2, h3⟩ := table t _ false hn
        refine ⟨h1, h2, Nat.zero_le _, ?_⟩
        show K * (t.readTheHeap false).ctx.naxis1 ≤ M
        rw [h3]
        exact ht.tiles (by rw [hz]; exact fun h => by cases h)

/-- A program in progress, with the reader at most `W` bytes after the end of the data. -/
structure Session.Low (L M W K j : Nat) (s : Session) : Prop where
  data : s.close.fits.rd.data.length = L
  pos : s.close.fits.rd.pos ≤ L + W
  opened : ∀ o, s.opened = some o → o.Low L M W K j
  hdus : ∀ h ∈ s.hdus, Reach K M h

theorem OpenUnit.Low.mono {L M W W' K j j' : Nat} {o : OpenUnit} (h : o.Low L M W K j) (hw : W ≤ W') (hj : j ≤ j') : o.Low L M W' K j' := by
  cases o with
  | image d => exact ⟨It.Low.data h, by have := It.Low.pos h; omega, It.Low.cur h, It.Low.size h⟩
  | bytes b => exact ⟨h.1, by have := h.2; omega⟩
  | table t => exact TableData.Low.mono h hw
  | rows r => exact TableData.Low.mono h hw
  | tiles t => exact TileIt.Low.mono h hw hj

theorem Session.Low.mono {L M W W' K j j' : Nat} {s : Session} (h : s.Low L M W K j) (hw : W ≤ W') (hj : j ≤ j') : s.Low L M W' K j' :=
  ⟨h.data, by have := h.pos; omega, fun o ho => (h.opened o ho).mono hw hj, h.hdus⟩

theorem close_hdus {s : Session} : s.close.hdus = s.hdus := by
  unfold Session.close
  split <;> rfl

theorem close_low {L M W K j : Nat} {s : Session} (h : s.Low L M W K j) : s.close.Low L M W K j := by
  have hc : s.close.close = s.close := close_none close_isNone
  refine ⟨by rw [hc]; exact h.data, by rw [hc]; exact h.pos, fun o ho => ?_, by rw [close_hdus]; exact h.hdus⟩
  have : s.close.opened = none := close_isNone
  rw [this] at ho
  cases ho

theorem put_low {L M W W' K j j' : Nat} {s : Session} {o : OpenUnit} (h : s.Low L M W K j) (ho : o.Low L M W' K j') : (s.put o).Low L M W' K j' :=
  ⟨ho.rd.1, ho.rd.2, (fun x hx => by cases hx; exact ho), h.hdus⟩

/-- A call that does not ask for an HDU. -/
theorem call_low {L M W K j fuel : Nat} {gz : Gunzip} {c : Call} {s s' : Session} {r : Res Seen} (hc : c ≠ .hdu) (h : s.Low L M W K j)
    (hj : j + 1 ≤ K) (hMW : M ≤ W) (hp : r ≠ .panic) (hb : L + W + M + M + M < 2 ^ 62) (e : s.call .wrapping gz fuel c = some (r, s')) : s'.Low L M (W + 2 * M) K (j + 1) := by
  have hopen : ∀ k, some (s.close.openData .wrapping k) = some (r, s') → s'.Low L M (W + 2 * M) K (j + 1) := by
    intro k e
    have hcl := close_low h
    have e : (s.close.openData .wrapping k).2 = s' := congrArg Prod.snd (Option.some.inj e)
    rw [← e]
    unfold openData
    split
    · exact hcl.mono (by omega) (by omega)
    · rename_i x hx
      have hmem : x ∈ s.hdus := by rw [← close_hdus]; exact List.mem_of_getElem? hx
      cases ho : s.close.fits.getData .wrapping x with
      | ok o =>
        have hl := getData_low (j := j) h.data h.pos (h.hdus x hmem) ho
        have := (put_low (s := s.close) hcl hl).mono (W' := W + 2 * M) (j' := j + 1) (by omega) (by omega)
        exact this
      | err e => exact hcl.mono (by omega) (by omega)
      | panic => exact hcl.mono (by omega) (by omega)
  have huse : ∀ o, s.opened = some o → s.useOpened .wrapping gz fuel c o = some (r, s') → s'.Low L M (W + 2 * M) K (j + 1) := by
    intro o ho e
    have hl := h.opened o ho
    have hl' := hl.mono (W' := W + 2 * M) (j' := j + 1) (by omega) (by omega)
    by_cases hn : c = .next
    · subst hn
      have e : (nextItem .wrapping gz fuel o).map (fun x => (x.1, s.put x.2)) = some (r, s') := e
      obtain ⟨x, hx, e⟩ := Option.map_eq_some_iff.1 e
      cases e
      refine put_low h ?_
      cases o with
      | image d =>
        cases hx
        exact OpenUnit.Low.mono (o := .image { d with pixels := d.pixels.next.2 }) (j := j) (It.next_low hl) (by omega) (by omega)
      | bytes b =>
        cases hx
        exact OpenUnit.Low.mono (o := .bytes b.next.2) (j := j) (ByteStream.next_low hl) (by omega) (by omega)
      | table t =>
        cases hx
        exact TableData.Low.mono (TableData.next_low hl hMW hb) (by omega)
      | rows y =>
        obtain ⟨z, hz, e⟩ := Option.map_eq_some_iff.1 hx
        cases e
        exact TableData.Low.mono (TableRows.next_low (x := y) (r := z.1) (y := z.2) hl hMW hb hz) (by omega)
      | tiles t =>
        obtain ⟨z, hz, e⟩ := Option.map_eq_some_iff.1 hx
        cases e
        refine TileIt.next_low (r := z.1) (it' := z.2) hl hj hMW hb (fun h => hp ?_) hz
        show z.1.map _ = _
        rw [h]
        rfl
    · have e : (match onOpened .wrapping c o with
          | (r, some o) => some (r, s.put o)
          | (r, none) => some (r, s.close)) = some (r, s') := by
        cases c with
        | next => exact absurd rfl hn
        | _ => exact e
      have hres : ∀ u, (onOpened .wrapping c o).2 = some u → u.Low L M (W + 2 * M) K (j + 1) := by
        intro u hu
        cases c <;> cases o <;> first
          | exact absurd rfl hn
          | exact absurd rfl hc
          | (cases hu; exact hl')
          | (cases hu; done)
          | (cases hu; exact It.Low.mono (It.readValue_low hl (by omega)) (by omega))
          | (cases hu; exact TableData.Low.mono (TableData.seekToRow_low hl hMW hb) (by omega))
          | (cases hu; exact TableData.selectFields_low hl')
          | (cases hu; exact hl'.rd)
          | (cases hu; exact TileIt.Low.table hl')
      rcases hq : onOpened .wrapping c o with ⟨a, _ | u⟩
      · rw [hq] at e
        cases e
        exact (close_low h).mono (by omega) (by omega)
      · rw [hq] at e hres
        cases e
        exact put_low h (hres u rfl)
  unfold Session.call at e
  cases c with
  | hdu => exact absurd rfl hc
  | getData k => exact hopen k e
  | _ =>
    dsimp only at e
    cases ho : s.opened with
    | none =>
      rw [ho] at e
      cases e
      exact h.mono (by omega) (by omega)
    | some o =>
      rw [ho] at e
      exact huse o ho e

/-- The announced data unit is within the reach. -/
def FitReach (L M : Nat) (f : Fits) : Prop := f.start = true ∨ f.errored = true ∨ (f.posStart ≤ L ∧ roundUp2880 f.numBytes ≤ M)

/-- The next HDU leaves the reader within the reach. -/
theorem next_reach {L M W : Nat} {p : Profile} {f : Fits} (he : f.errored = false) (hd : f.rd.data.length = L) (hMW : M ≤ W)
    (h0 : f.rd.pos ≤ L + W) (hr : f.start = false → Ready p f ∧ f.posStart ≤ L ∧ roundUp2880 f.numBytes ≤ M) :
    (f.next p).2.rd.pos ≤ L + W := by
  cases hs : f.start with
  | true =>
    unfold Fits.next
    rw [if_neg (by simp [he]), if_pos hs]
    dsimp only
    rw [Fits.record_rd]
    have := newPrimary_pos (rd := f.rd)
    dsimp only
    omega
  | false =>
    obtain ⟨hr, h1, h2⟩ := hr hs
    rw [Session.next_ready hs he hr, Fits.record_rd]
    have := newXtension_pos (p := p) (s := { rd := ⟨f.rd.data, f.posStart + roundUp2880 f.numBytes⟩, nread := 0 })
    unfold Fits.extensionAt
    dsimp only at *
    omega

/-- The state after a call that asks for an HDU. -/
theorem hdu_low {L M W K j : Nat} {s : Session} {f : Fits} {hs : List HDU} (hd : f.rd.data.length = L) (hp : f.rd.pos ≤ L + W)
    (hh : ∀ h ∈ hs, Reach K M h) : ({ s.close with fits := f, hdus := hs } : Session).Low L M W K j := by
  have hcl : ({ s.close with fits := f, hdus := hs } : Session).close = { s.close with fits := f, hdus := hs } :=
    close_none close_isNone
  refine ⟨by rw [hcl]; exact hd, by rw [hcl]; exact hp, fun o ho => ?_, hh⟩
  have : s.close.opened = none := close_isNone
  have ho : s.close.opened = some o := ho
  rw [this] at ho
  cases ho

/-- The rest of a program after the end of the iteration. -/
theorem over_low {L M W K j fuel : Nat} {gz : Gunzip} (calls : List Call) {s : Session} {f : Fits} (ha : s.At f)
    (ho : Over .wrapping f) (hf : FitReach L M f) (hl : s.Low L M W K j) (hMW : M ≤ W)
    (hj : j + calls.length ≤ K) (hb : L + W + (2 * calls.length + 3) * M < 2 ^ 62) : LowRun .wrapping gz fuel calls s := by
  induction calls generalizing s W j with
  | nil => trivial
  | cons c cs ih =>
    rw [List.length_cons] at hb hj
    rw [show (2 * (cs.length + 1) + 3) * M = (2 * cs.length + 3) * M + 2 * M from by rw [← Nat.add_mul]; congr 1] at hb
    have h3 : 3 * M ≤ (2 * cs.length + 3) * M := Nat.mul_le_mul_right M (by omega)
    have hb' : L + (W + 2 * M) + (2 * cs.length + 3) * M < 2 ^ 62 := by omega
    have hpos := hl.pos
    refine ⟨fun _ _ => by omega, ?_⟩
    by_cases hc : c = .hdu
    · subst hc
      have hov : Over .wrapping s.close.fits := by
        refine ⟨ha.start.trans ho.1, ?_⟩
        rw [ha.errored, ha.data, ha.posStart, ha.numBytes]
        exact ho.2
      have hready : s.close.fits.errored = true ∨
          (s.close.fits.errored = false ∧ Ready .wrapping s.close.fits ∧ s.close.fits.posStart ≤ L ∧
            roundUp2880 s.close.fits.numBytes ≤ M) := by
        cases he : s.close.fits.errored with
        | true => exact .inl rfl
        | false =>
          right
          rw [ha.posStart, ha.numBytes]
          have hf : f.posStart ≤ L ∧ roundUp2880 f.numBytes ≤ M := by
            rcases hf with h | h | h
            · rw [ho.1] at h; cases h
            · rw [← ha.errored, he] at h; cases h
            · exact h
          refine ⟨rfl, ⟨by omega, ?_, fun h => by cases h⟩, hf⟩
          rw [ha.posStart, ha.numBytes]
          omega
      obtain ⟨rd, hn, hd⟩ := next_over hov (hready.imp id (fun h => h.2.1))
      have hrd : rd.pos ≤ L + W := by
        rcases hready with h | ⟨h1, h2⟩
        · unfold Fits.next at hn
          rw [if_pos h] at hn
          have := congrArg (fun x => x.2.rd) hn
          dsimp only at this
          rw [← this]
          exact hpos
        · have := next_reach h1 hl.data hMW hpos (fun _ => h2)
          rw [hn] at this
          exact this
      have e : s.call .wrapping gz fuel .hdu =
          some (.ok (.hdu none), { s.close with fits := { s.close.fits with rd } }) := by
        show some (s.close.nextHdu .wrapping) = _
        rw [nextHdu_eq, hn]
        rfl
      rw [e]
      have hat : ({ s.close with fits := { s.close.fits with rd } } : Session).At f := by
        have hcl : ({ s.close with fits := { s.close.fits with rd } } : Session).close =
            { s.close with fits := { s.close.fits with rd } } := close_none close_isNone
        refine ⟨?_, ?_, ?_, ?_, ?_, fun h => ?_⟩
        · rw [hcl]; exact ha.start
        · rw [hcl]; exact ha.posStart
        · rw [hcl]; exact ha.numBytes
        · rw [hcl]; exact ha.errored
        · rw [hcl]; exact hd.trans ha.data
        · rw [ho.1] at h; cases h
      have hlow : ({ s.close with fits := { s.close.fits with rd } } : Session).Low L M (W + 2 * M) K (j + 1) := by
        have := hdu_low (s := s) (f := { s.close.fits with rd }) (hs := s.close.hdus) (L := L) (M := M) (W := W) (K := K) (j := j)
          (by show rd.data.length = L; rw [hd]; exact hl.data) hrd (by rw [close_hdus]; exact hl.hdus)
        exact this.mono (by omega) (by omega)
      exact ih hat hlow (by omega) (by omega) hb'
    · cases h : s.call .wrapping gz fuel c with
      | none => trivial
      | some x =>
        obtain ⟨r, s'⟩ := x
        obtain ⟨h1, -, -⟩ := call_at hc ha h
        have hlow := fun hp => call_low hc hl (by omega) hMW hp (by omega) h
        cases r with
        | panic => trivial
        | ok v => exact ih h1 (hlow (fun h => by cases h)) (by omega) (by omega) hb'
        | err v => exact ih h1 (hlow (fun h => by cases h)) (by omega) (by omega) hb'

/-- A program with a file whose data units are within the reach: the reader stays at small offsets. -/
theorem run_low {L M W K j fuel : Nat} {gz : Gunzip} (calls : List Call) {s : Session} {f : Fits} (ha : s.At f) (hf : Fresh f)
    (he : f.errored = false) (hfit : FitReach L M f) (hr : ∀ n, ∀ h ∈ plainHdus .wrapping n f, Reach K M h) (hl : s.Low L M W K j)
    (hMW : M ≤ W) (hj : j + calls.length ≤ K) (hb : L + W + (2 * calls.length + 3) * M < 2 ^ 62) : LowRun .wrapping gz fuel calls s := by
  induction calls generalizing s f W j with
  | nil => trivial
  | cons c cs ih =>
    rw [List.length_cons] at hb hj
    rw [show (2 * (cs.length + 1) + 3) * M = (2 * cs.length + 3) * M + 2 * M from by rw [← Nat.add_mul]; congr 1] at hb
    have h3 : 3 * M ≤ (2 * cs.length + 3) * M := Nat.mul_le_mul_right M (by omega)
    have hb' : L + (W + 2 * M) + (2 * cs.length + 3) * M < 2 ^ 62 := by omega
    have hpos := hl.pos
    refine ⟨fun _ _ => by omega, ?_⟩
    by_cases hc : c = .hdu
    · subst hc
      have hready : s.close.fits.start = true ∨ s.close.fits.errored = true ∨ Ready .wrapping s.close.fits := by
        cases hs : s.close.fits.start with
        | true => exact .inl rfl
        | false =>
          refine .inr (.inr ⟨by omega, ?_, fun h => by cases h⟩)
          rw [ha.posStart, ha.numBytes]
          rcases hfit with h | h | h
          · rw [← ha.start, hs] at h; cases h
          · rw [he] at h; cases h
          · omega
      obtain ⟨e, hst, hrd, hat⟩ := call_hdu (gz := gz) (fuel := fuel) ha hf he hready
      have hfl : f.rd.data.length = L := by rw [← ha.data]; exact hl.data
      have hp : (f.next .wrapping).2.rd.pos ≤ L + W := by
        refine next_reach he hfl hMW ?_ ?_
        · rcases hf with hs | ⟨-, -, h⟩
          · obtain ⟨g1, g2, -⟩ := ha.first hs
            rw [close_none g2, g1] at hpos
            exact hpos
          · rw [h]
            rcases hfit with h | h | h
            · obtain ⟨g1, g2, -⟩ := ha.first h
              rw [close_none g2, g1] at hpos
              omega
            · rw [he] at h; cases h
            · omega
        · intro hs
          refine ⟨hrd hs, ?_⟩
          rcases hfit with h | h | h
          · rw [hs] at h; cases h
          · rw [he] at h; cases h
          · exact h
      have hd : (f.next .wrapping).2.rd.data.length = L := by
        rw [Fits.next_data]
        exact hfl
      rw [e]
      cases hn : f.next .wrapping with
      | mk i f' =>
        rw [hn] at hst hat hp hd
        have hlow : ∀ hs : List HDU, (∀ h ∈ hs, Reach K M h) →
            ({ s.close with fits := f', hdus := hs } : Session).Low L M (W + 2 * M) K (j + 1) :=
          fun hs hh => (hdu_low (j := j) hd hp hh).mono (by omega) (by omega)
        have hold : ∀ h ∈ s.close.hdus, Reach K M h := by rw [close_hdus]; exact hl.hdus
        cases i with
        | none =>
          dsimp only [seenOf]
          have hov : Over .wrapping f' := by
            cases hs : f.start with
            | true => exact (next_start_ne_none hs he hn).elim
            | false => exact record_panic_none_over hs he (hrd hs) hn
          have hf' : FitReach L M f' := by
            cases hs : f.start with
            | true => exact (next_start_ne_none hs he hn).elim
            | false =>
              rw [next_ready hs he (hrd hs)] at hn
              obtain ⟨-, rfl⟩ := record_none hn
              rcases hfit with h | h | h
              · rw [hs] at h; cases h
              · rw [he] at h; cases h
              · exact .inr (.inr h)
          exact over_low cs (hat _) hov hf' (hlow _ hold) (by omega) (by omega) hb'
        | some r =>
          cases r with
          | panic => trivial
          | ok h =>
            dsimp only [seenOf]
            obtain ⟨-, k2, k3, k4, k5, k6⟩ := next_ok_state hn
            have hcons : ∀ n, plainHdus .wrapping (n + 1) f = h :: plainHdus .wrapping n f' := by
              intro n
              conv => lhs; unfold plainHdus Fits.collect
              rw [hn]
              rfl
            have hh : Reach K M h := hr 1 h (by rw [hcons]; exact List.mem_cons_self)
            have hf' : FitReach L M f' := by
              right; right
              have h1 := next_ok_inside hn
              have h2 := hh.1 _ k4
              have h3 := roundUp2880_lt f'.numBytes
              rw [hfl] at h1
              exact ⟨by omega, by omega⟩
            have hr' : ∀ n, ∀ x ∈ plainHdus .wrapping n f', Reach K M x := by
              intro n x hx
              exact hr (n + 1) x (by rw [hcons]; exact List.mem_cons_of_mem _ hx)
            refine ih (hat _) (.inr ⟨k6, k5, k2.trans k3.symm⟩) k5 hf' hr' (hlow _ ?_) (by omega) (by omega) hb'
            intro x hx
            rcases List.mem_cons.1 hx with rfl | hx
            · exact hh
            · exact hold x hx
          | err x =>
            dsimp only [seenOf]
            have hov : Over .wrapping f' := ⟨hst, .inl (next_err hn)⟩
            exact over_low cs (hat _) hov (.inr (.inl (next_err hn))) (hlow _ hold) (by omega) (by omega) hb'
    · cases h : s.call .wrapping gz fuel c with
      | none => trivial
      | some x =>
        obtain ⟨r, s'⟩ := x
        obtain ⟨h1, -, -⟩ := call_at hc ha h
        have hlow := fun hp => call_low hc hl (by omega) hMW hp (by omega) h
        cases r with
        | panic => trivial
        | ok v => exact ih h1 hf he hfit hr (hlow (fun h => by cases h)) (by omega) (by omega) hb'
        | err v => exact ih h1 hf he hfit hr (hlow (fun h => by cases h)) (by omega) (by omega) hb'

/-- The data units start within the file. -/
theorem plain_inside {p : Profile} {n : Nat} {f : Fits} {h : HDU} (hx : h ∈ plainHdus p n f) :
    h.dataOffset ≤ f.rd.data.length := by
  induction n generalizing f with
  | zero => cases hx
  | succ n ih =>
    cases hn : f.next p with
    | mk i f' =>
      have hd := Fits.next_data (p := p) (f := f)
      rw [hn] at hd
      rw [plainHdus_succ n hn] at hx
      cases i with
      | none => cases hx
      | some r =>
        cases r with
        | ok v =>
          rcases List.mem_cons.1 hx with rfl | hx
          · exact next_ok_inside hn
          · rw [← hd]; exact ih hx
        | err e => rw [← hd]; exact ih hx
        | panic => cases hx

/-- **C61 in builds without overflow checks**, for every program: whatever is done with the data, with data units opened in any
order and as often as one likes, values and rows read before or after errors, the program sees the HDUs of the file, as long as
what its calls can designate, `M` bytes each, cannot amount to more than 4 EB.  The file has no descriptors of 64 bits.  With
compressed images, decompressors may fail and leave the reader anywhere. -/
theorem C61_release {gz : Gunzip} {fuel M : Nat} {data : List UInt8} {calls : List Call}
    (hr : ∀ n, ∀ h ∈ plainHdus .wrapping n (fromReader ⟨data, 0⟩), Reach calls.length M h)
    (hb : data.length + (2 * calls.length + 4) * M < 2 ^ 62) :
    hdusSeen ((Session.new ⟨data, 0⟩).run .wrapping gz fuel calls) =
      plainHdus .wrapping (asked calls ((Session.new ⟨data, 0⟩).run .wrapping gz fuel calls)) (fromReader ⟨data, 0⟩) := by
  rw [show (2 * calls.length + 4) * M = (2 * calls.length + 3) * M + M from Nat.succ_mul _ _] at hb
  have hlow : LowRun .wrapping gz fuel calls (Session.new ⟨data, 0⟩) :=
    run_low (L := data.length) (M := M) (W := M) (K := calls.length) (j := 0) (f := fromReader ⟨data, 0⟩) calls
      ⟨rfl, rfl, rfl, rfl, rfl, fun _ => ⟨rfl, rfl, rfl⟩⟩ (.inl rfl) rfl (.inl rfl) hr
      ⟨rfl, Nat.zero_le _, (fun o h => by cases h), (fun h hx => by cases hx)⟩ (Nat.le_refl _) (by omega) (by omega)
  have hsz : ∀ n, SizesFit .wrapping (plainHdus .wrapping n (fromReader ⟨data, 0⟩)) := by
    intro n h hx
    have h1 := plain_inside hx
    have h2 := (hr n h hx).1
    unfold nextHeader
    cases hd : h.dataSize .wrapping with
    | ok k =>
      have h3 := h2 k hd
      have h4 := roundUp2880_lt k
      have h5 : h.dataOffset ≤ data.length := h1
      dsimp only
      omega
    | err e => exact Nat.two_pow_pos 63
    | panic => exact Nat.two_pow_pos 63
  rcases C61_exact hsz hlow with h | h
  · exact h
  · cases h.1

/-! ### Examples -/

/-- A test for the reach of an HDU. -/
def checkReach (K M : Nat) (h : HDU) : Bool :=
  (match h.dataSize .wrapping with | .ok n => decide (n + 2880 ≤ M) | _ => true) &&
  match h with
  | .binTable t =>
    let x := t.header.xtension
    x.tforms.all (fun | .Q _ => false | _ => true) && decide (x.theap + 2 ^ 32 ≤ M) &&
      decide (x.naxis1 * x.naxis2 ≤ M) && (x.zImage.isNone || decide (K * x.naxis1 ≤ M)) &&
      match TableData.columnOffsets .wrapping x.tforms 0 with
      | .ok l => l.all fun o => decide (o + x.naxis1 * (x.naxis2 + 1) ≤ M)
      | _ => true
  | _ => true

theorem checkReach_sound {K M : Nat} {h : HDU} (hc : checkReach K M h = true) : Reach K M h := by
  unfold checkReach at hc
  obtain ⟨h1, h2⟩ := Bool.and_eq_true_iff.1 hc
  refine ⟨fun n hn => ?_, fun t ht => ?_⟩
  · rw [hn] at h1
    exact of_decide_eq_true h1
  · subst ht
    dsimp only at h2
    simp only [Bool.and_eq_true, decide_eq_true_eq, Bool.or_eq_true, Option.isNone_iff_eq_none] at h2
    obtain ⟨⟨⟨⟨a2, a3⟩, a4⟩, a1⟩, a5⟩ := h2
    refine ⟨fun ty hq => ?_, a3, a4, fun l hl o ho => ?_, fun hz => a1.resolve_left hz⟩
    · have := List.all_eq_true.1 a2 _ hq
      cases this
    · rw [hl] at a5
      exact of_decide_eq_true (List.all_eq_true.1 a5 o ho)

theorem Spec.Reach.mono {K K' M : Nat} {h : HDU} (hr : Reach K M h) (hk : K' ≤ K) : Reach K' M h :=
  ⟨hr.1, fun t ht => ⟨(hr.2 t ht).noQ, (hr.2 t ht).theap, (hr.2 t ht).main, (hr.2 t ht).cols,
    fun hz => Nat.le_trans (Nat.mul_le_mul_right _ hk) ((hr.2 t ht).tiles hz)⟩⟩

set_option maxRecDepth 20000 in
theorem sample_reach : ((fromReader ⟨sampleFile, 0⟩).collect .wrapping 3).length = 2 ∧
    (plainHdus .wrapping 3 (fromReader ⟨sampleFile, 0⟩)).all (checkReach (10 ^ 8) (2 ^ 33)) = true := by
  decide +kernel

set_option maxRecDepth 20000 in
theorem array_reach : ((fromReader ⟨arrayFile, 0⟩).collect .wrapping 3).length = 2 ∧
    (plainHdus .wrapping 3 (fromReader ⟨arrayFile, 0⟩)).all (checkReach (10 ^ 8) (2 ^ 33)) = true := by
  decide +kernel

set_option maxRecDepth 20000 in
theorem array_length : arrayFile.length < 2 ^ 20 := by
  decide +kernel

/-- A table with arrays: every program of less than 100 million calls sees the HDUs of the file. -/
example (gz : Gunzip) (fuel : Nat) (calls : List Call) (h : calls.length < 10 ^ 8) :
    hdusSeen ((Session.new ⟨arrayFile, 0⟩).run .wrapping gz fuel calls) =
      plainHdus .wrapping (asked calls ((Session.new ⟨arrayFile, 0⟩).run .wrapping gz fuel calls)) (fromReader ⟨arrayFile, 0⟩) := by
  have h1 := array_length
  have h2 : (2 * calls.length + 4) * 2 ^ 33 < 2 ^ 61 := by omega
  refine C61_release (M := 2 ^ 33) (fun n x hx => ?_) (by omega)
  have := plain_all (k := 3) (by rw [array_reach.1]; omega) n hx
  exact (checkReach_sound (List.all_eq_true.1 array_reach.2 x this)).mono (by omega)

/-- The program that ends with a panic in a build with overflow checks. -/
example : (hdusSeen ((Session.new ⟨sampleFile, 0⟩).run .wrapping (.of id) 0 againCalls)) =
    plainHdus .wrapping (asked againCalls ((Session.new ⟨sampleFile, 0⟩).run .wrapping (.of id) 0 againCalls))
      (fromReader ⟨sampleFile, 0⟩) := by
  refine C61_release (M := 2 ^ 33) (fun n x hx => ?_) (by decide +kernel)
  have := plain_all (k := 3) (by rw [sample_reach.1]; omega) n hx
  exact (checkReach_sound (List.all_eq_true.1 sample_reach.2 x this)).mono (by decide)

/-- A compressed image of floats, and an image. -/
def tilesThenImage : List UInt8 := floatTilesFile ++ List.replicate 2813 0 ++ sampleImageSegment.bytes

set_option maxRecDepth 20000 in
theorem tiles_reach : ((fromReader ⟨tilesThenImage, 0⟩).collect .wrapping 4).length = 3 ∧
    ((plainHdus .wrapping 4 (fromReader ⟨tilesThenImage, 0⟩)).all (checkReach (10 ^ 8) (2 ^ 33))) = true ∧
    tilesThenImage.length < 2 ^ 20 := by
  decide +kernel

/-- With a compressed image, whatever the decompressors do: every program of less than 100 million calls sees the HDUs of the
file. -/
example (gz : Gunzip) (fuel : Nat) (calls : List Call) (h : calls.length < 10 ^ 8) :
    hdusSeen ((Session.new ⟨tilesThenImage, 0⟩).run .wrapping gz fuel calls) =
      plainHdus .wrapping (asked calls ((Session.new ⟨tilesThenImage, 0⟩).run .wrapping gz fuel calls))
        (fromReader ⟨tilesThenImage, 0⟩) := by
  have h1 := tiles_reach.2.2
  have h2 : (2 * calls.length + 4) * 2 ^ 33 < 2 ^ 61 := by omega
  refine C61_release (M := 2 ^ 33) (fun n x hx => ?_) (by omega)
  have := plain_all (k := 4) (by rw [tiles_reach.1]; omega) n hx
  exact (checkReach_sound (List.all_eq_true.1 tiles_reach.2.1 x this)).mono (by omega)

/-! ### A descriptor of 64 bits -/

/-- An image of 180 tiles compressed with GZIP, with 64-bit descriptors, the first of which is damaged, and an image. -/
def farFile : List UInt8 :=
  tableFile ["NAXIS1  =                   16", "NAXIS2  =                  180", "PCOUNT  =                    0",
    "TFIELDS =                    1", "TFORM1  = '1QB'", "TTYPE1  = 'COMPRESSED_DATA'", "ZIMAGE  =                    T",
    "ZCMPTYPE= 'GZIP_1'", "ZBITPIX =                    8", "ZNAXIS  =                    2",
    "ZNAXIS1 =                    1", "ZNAXIS2 =                  180", "ZTILE1  =                    1",
    "ZTILE2  =                    1"]
    ([0, 0, 0, 0, 0, 0, 0, 1, 0x7F, 0xFF, 0xFF, 0xFF, 0xFF, 0xFF, 0xF4, 0xCF] ++ List.replicate 2864 0) ++
  sampleImageSegment.bytes

/-- A program that asks for the first pixel, opens the compressed image again, and goes to the last row of its table, twice. -/
def farCalls : List Call :=
  [.hdu, .hdu, .getData 0, .next, .getData 0, .tableData, .seekRow 179, .getData 0, .tableData, .seekRow 179, .hdu]

set_option maxRecDepth 20000 in
theorem farCalls_seen :
    (hdusSeen ((Session.new ⟨farFile, 0⟩).run .wrapping (.of id) 10 farCalls)).length = 2 ∧
    asked farCalls ((Session.new ⟨farFile, 0⟩).run .wrapping (.of id) 10 farCalls) = 3 ∧
    (plainHdus .wrapping 3 (fromReader ⟨farFile, 0⟩)).length = 3 := by
  decide +kernel

/-- **C61 fails** in builds without overflow checks as well, for a file with a damaged 64-bit descriptor: the reader is moved
more than `2 ^ 63` bytes after the next HDU, and asking for it gives an error. -/
theorem C61_fails_release : ¬ ∀ (gz : Gunzip) (fuel : Nat) (data : List UInt8) (calls : List Call),
    hdusSeen ((Session.new ⟨data, 0⟩).run .wrapping gz fuel calls) =
      plainHdus .wrapping (asked calls ((Session.new ⟨data, 0⟩).run .wrapping gz fuel calls)) (fromReader ⟨data, 0⟩) := by
  intro h
  obtain ⟨h1, h2, h3⟩ := farCalls_seen
  have := congrArg List.length (h (.of id) 10 farFile farCalls)
  rw [h1, h2, h3] at this
  cases this

end Fitsrs

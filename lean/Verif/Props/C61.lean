import Verif.Lemmas.Session
import Verif.Props.C33_C34
import Verif.Spec.Samples
import Verif.Props.C60
import Verif.Props.C37_C39
/-
C61 what is done with the data of the HDUs does not change which HDUs are returned.
-/

namespace Fitsrs
open Spec Fits Session

/-- **C61, in full.** Whatever a program does with the data of the HDUs, the HDUs that it sees are those that are
returned when nothing is done with the data. -/
def C61_statement : Prop :=
  ∀ (p : Profile) (gz : Gunzip) (fuel : Nat) (data : List UInt8) (calls : List Call),
    hdusSeen ((Session.new ⟨data, 0⟩).run p gz fuel calls) =
      plainHdus p (asked calls ((Session.new ⟨data, 0⟩).run p gz fuel calls)) (fromReader ⟨data, 0⟩)

theorem asked_cons (c : Call) (cs : List Call) (x : Option (Res Seen)) (xs : List (Option (Res Seen))) :
    asked (c :: cs) (x :: xs) = asked cs xs + (if c.asksHdu then 1 else 0) := by
  unfold asked
  rw [List.length_cons, List.take_succ_cons, List.countP_cons]

theorem hdusSeen_cons_notHdu {r : Res Seen} (h : NotHdu r) (xs : List (Option (Res Seen))) :
    hdusSeen (some r :: xs) = hdusSeen xs := by
  cases r with
  | ok v =>
    cases v with
    | hdu o => exact False.elim h
    | _ => rfl
  | err e => rfl
  | panic => rfl

/-- The iteration is over: an error has been returned, or there is no other HDU. -/
def Over (p : Profile) (f : Fits) : Prop :=
  f.start = false ∧ (f.errored = true ∨ (f.errored = false ∧
    extensionItem (extensionAt p f.rd.data (f.posStart + roundUp2880 f.numBytes)) = none))

theorem next_over {p : Profile} {f : Fits} (h : Over p f) (hr : f.errored = true ∨ Ready p f) :
    ∃ rd, f.next p = (none, { f with rd }) ∧ rd.data = f.rd.data := by
  have hd := Fits.next_data (p := p) (f := f)
  rcases h.2 with he | ⟨he, hn⟩
  · refine ⟨f.rd, ?_, rfl⟩
    unfold Fits.next
    rw [if_pos he]
  · rcases hr with hr | hr
    · rw [he] at hr; cases hr
    rw [next_ready h.1 he hr, hn] at hd ⊢
    exact ⟨_, rfl, hd⟩

/-- The rest of a program after the end of the iteration. -/
theorem over_run {p : Profile} {gz : Gunzip} {fuel : Nat} (calls : List Call) {s : Session} {f : Fits}
    (ha : s.At f) (ho : Over p f) (hr : ReadyRun p gz fuel calls s) : hdusSeen (s.run p gz fuel calls) = [] := by
  induction calls generalizing s with
  | nil => rfl
  | cons c cs ih =>
    obtain ⟨hr1, hr2⟩ := hr
    by_cases hc : c = .hdu
    · subst hc
      have hov : Over p s.close.fits := by
        refine ⟨ha.start.trans ho.1, ?_⟩
        rw [ha.errored, ha.data, ha.posStart, ha.numBytes]
        exact ho.2
      obtain ⟨rd, hn, hd⟩ := next_over hov (by
        rcases hr1 rfl with h | h | h
        · rw [ha.start, ho.1] at h; cases h
        · exact .inl h
        · exact .inr h)
      have e : s.call p gz fuel .hdu =
          some (.ok (.hdu none), { s.close with fits := { s.close.fits with rd } }) := by
        show some (s.close.nextHdu p) = _
        rw [nextHdu_eq, hn]
        rfl
      rw [e] at hr2
      unfold run
      rw [e]
      show hdusSeen (some (.ok (.hdu none)) :: _) = []
      have : ({ s.close with fits := { s.close.fits with rd } } : Session).At f := by
        have hcl : ({ s.close with fits := { s.close.fits with rd } } : Session).close =
            { s.close with fits := { s.close.fits with rd } } := close_none close_isNone
        refine ⟨?_, ?_, ?_, ?_, ?_, fun h => ?_⟩
        · rw [hcl]; exact ha.start
        · rw [hcl]; exact ha.posStart
        · rw [hcl]; exact ha.numBytes
        · rw [hcl]; exact ha.errored
        · rw [hcl]; exact hd.trans ha.data
        · rw [ho.1] at h; cases h
      exact ih this hr2
    · unfold run
      cases h : s.call p gz fuel c with
      | none => rfl
      | some x =>
        obtain ⟨r, s'⟩ := x
        obtain ⟨h1, h2, -⟩ := call_at hc ha h
        rw [h] at hr2
        cases r with
        | panic => rfl
        | ok v =>
          show hdusSeen (some (.ok v) :: _) = []
          rw [hdusSeen_cons_notHdu h2]
          exact ih h1 hr2
        | err v => exact ih h1 hr2

/-- After an HDU has been returned and before anything is done with its data. -/
def Fresh (f : Fits) : Prop := f.start = true ∨ (f.start = false ∧ f.errored = false ∧ f.rd.pos = f.posStart)

theorem Fresh.ready {p : Profile} {f g : Fits} (h : f.rd.pos = f.posStart) (h1 : g.posStart = f.posStart)
    (h2 : g.numBytes = f.numBytes) (hg : Ready p g) : Ready p f := by
  have h3 := hg.fits
  rw [h1, h2] at h3
  exact ⟨by omega, h3, fun _ => ⟨by omega, by omega⟩⟩

theorem record_panic_none_over {p : Profile} {f f' : Fits} (hf : f.start = false) (he : f.errored = false)
    (hr : Ready p f) (hn : f.next p = (none, f')) : Over p f' := by
  rw [next_ready hf he hr] at hn
  obtain ⟨h1, rfl⟩ := record_none hn
  refine ⟨hf, .inr ⟨he, ?_⟩⟩
  have hd : (extensionAt p f.rd.data (f.posStart + roundUp2880 f.numBytes)).2.rd.data = f.rd.data := newXtension_data
  show extensionItem (extensionAt p (extensionAt p f.rd.data _).2.rd.data _) = none
  rw [hd]
  exact h1

theorem next_start_ne_none {p : Profile} {f f' : Fits} (hs : f.start = true) (he : f.errored = false)
    (hn : f.next p = (none, f')) : False := by
  unfold Fits.next at hn
  rw [if_neg (by simp [he]), if_pos hs] at hn
  dsimp only at hn
  have := (record_none hn).1
  cases this

theorem next_start {p : Profile} {f : Fits} : f.errored = true ∨ (f.next p).2.start = false := by
  by_cases he : f.errored = true
  · exact .inl he
  right
  unfold Fits.next
  rw [if_neg he]
  split
  · dsimp only
    rw [record_start]
  · split <;> rw [record_start]

/-- Asking for an HDU: the call, and the state after it. -/
theorem call_hdu {p : Profile} {gz : Gunzip} {fuel : Nat} {s : Session} {f : Fits} (ha : s.At f)
    (hf : Fresh f) (he : f.errored = false)
    (hr : s.close.fits.start = true ∨ s.close.fits.errored = true ∨ Ready p s.close.fits) :
    s.call p gz fuel .hdu = some (seenOf (f.next p).1, { s.close with
      fits := (f.next p).2
      hdus := match (f.next p).1 with | some (.ok h) => h :: s.close.hdus | _ => s.close.hdus }) ∧
    (f.next p).2.start = false ∧ (f.start = false → Ready p f) ∧
    ∀ hs, ({ s.close with fits := (f.next p).2, hdus := hs } : Session).At (f.next p).2 := by
  have hnx : s.close.fits.next p = f.next p ∧ (f.start = false → Ready p f) := by
    rcases hf with hs | ⟨hs, -, hp⟩
    · obtain ⟨g1, g2, -⟩ := ha.first hs
      rw [close_none g2, g1]
      exact ⟨rfl, fun h => by rw [hs] at h; cases h⟩
    · have hg : Ready p s.close.fits := by
        rcases hr with h | h | h
        · rw [ha.start, hs] at h; cases h
        · rw [ha.errored, he] at h; cases h
        · exact h
      have hf := Fresh.ready hp ha.posStart ha.numBytes hg
      exact ⟨next_same ha.start ha.posStart ha.numBytes ha.errored ha.data hs he hf hg, fun _ => hf⟩
  obtain ⟨hnx, hrd⟩ := hnx
  have e : s.call p gz fuel .hdu = some (s.close.nextHdu p) := rfl
  rw [nextHdu_eq, hnx] at e
  have hst : (f.next p).2.start = false := by
    rcases next_start (p := p) (f := f) with h | h
    · rw [he] at h; cases h
    · exact h
  refine ⟨e, hst, hrd, fun hs => ?_⟩
  have hcl : ({ s.close with fits := (f.next p).2, hdus := hs } : Session).close =
      { s.close with fits := (f.next p).2, hdus := hs } := close_none close_isNone
  refine ⟨?_, ?_, ?_, ?_, ?_, fun h => ?_⟩
  · rw [hcl]
  · rw [hcl]
  · rw [hcl]
  · rw [hcl]
  · rw [hcl]
  · rw [hst] at h; cases h

/-- The HDUs seen by a program. -/
theorem fresh_run {p : Profile} {gz : Gunzip} {fuel : Nat} (calls : List Call) {s : Session} {f : Fits}
    (ha : s.At f) (hf : Fresh f) (he : f.errored = false) (hr : ReadyRun p gz fuel calls s) :
    hdusSeen (s.run p gz fuel calls) = plainHdus p (asked calls (s.run p gz fuel calls)) f := by
  induction calls generalizing s f with
  | nil => rfl
  | cons c cs ih =>
    obtain ⟨hr1, hr2⟩ := hr
    by_cases hc : c = .hdu
    · subst hc
      obtain ⟨e, hst, hrd, hat⟩ := call_hdu (gz := gz) (fuel := fuel) ha hf he (hr1 rfl)
      rw [e] at hr2
      unfold run
      rw [e]
      cases hn : f.next p with
      | mk i f' =>
        rw [hn] at hr2 hst hat
        cases i with
        | none =>
          dsimp only [seenOf] at hr2 ⊢
          have hov : Over p f' := by
            cases hs : f.start with
            | true => exact (next_start_ne_none hs he hn).elim
            | false => exact record_panic_none_over hs he (hrd hs) hn
          show hdusSeen (some (.ok (.hdu none)) :: _) = _
          rw [asked_cons]
          show hdusSeen _ = plainHdus p (_ + 1) f
          have hover := over_run cs (hat _) hov hr2
          show hdusSeen (run p gz fuel cs _) = _
          refine hover.trans ?_
          unfold plainHdus Fits.collect
          rw [hn]
          rfl
        | some r =>
          cases r with
          | panic =>
            show [] = plainHdus p (asked (.hdu :: cs) [_]) f
            rw [asked_cons]
            show [] = plainHdus p (_ + 1) f
            unfold plainHdus Fits.collect
            rw [hn]
            rfl
          | ok h =>
            dsimp only [seenOf] at hr2 ⊢
            obtain ⟨-, k2, k3, -, k5, k6⟩ := next_ok_state hn
            have := ih (hat _) (.inr ⟨k6, k5, k2.trans k3.symm⟩) k5 hr2
            show h :: hdusSeen _ = _
            rw [asked_cons]
            show _ = plainHdus p (_ + 1) f
            rw [this]
            conv => rhs; unfold plainHdus Fits.collect
            rw [hn]
            rfl
          | err x =>
            dsimp only [seenOf] at hr2 ⊢
            have hov : Over p f' := ⟨hst, .inl (next_err hn)⟩
            show hdusSeen _ = _
            rw [asked_cons]
            show _ = plainHdus p (_ + 1) f
            have hover := over_run cs (hat _) hov hr2
            show hdusSeen (run p gz fuel cs _) = _
            refine hover.trans ?_
            unfold plainHdus Fits.collect
            rw [hn]
            dsimp only
            rw [List.filterMap_cons_none rfl]
            cases hk : asked cs (Session.run p gz fuel cs _) with
            | zero => rfl
            | succ k =>
              unfold Fits.collect Fits.next
              rw [if_pos (next_err hn)]
              rfl
    · have hk : c.asksHdu = false := by
        cases c with
        | hdu => exact absurd rfl hc
        | _ => rfl
      unfold run
      cases h : s.call p gz fuel c with
      | none =>
        show [] = plainHdus p (asked (c :: cs) [none]) f
        rw [asked_cons, hk]
        rfl
      | some x =>
        obtain ⟨r, s'⟩ := x
        obtain ⟨h1, h2, -⟩ := call_at hc ha h
        rw [h] at hr2
        cases r with
        | panic =>
          show [] = plainHdus p (asked (c :: cs) [_]) f
          rw [asked_cons, hk]
          rfl
        | ok v =>
          show hdusSeen (some (.ok v) :: _) = _
          rw [hdusSeen_cons_notHdu h2, asked_cons, hk]
          exact ih h1 hf he hr2
        | err v =>
          show hdusSeen (some (.err v) :: _) = _
          rw [hdusSeen_cons_notHdu h2, asked_cons, hk]
          exact ih h1 hf he hr2

/-- **C61**, when the reader stands within the data unit of the last HDU each time that another HDU is asked for; in a
build without overflow checks it can stand anywhere below 2^63.  Missing: programs that leave the reader elsewhere. -/
theorem C61_ready_partial {p : Profile} {gz : Gunzip} {fuel : Nat} {data : List UInt8}
    {calls : List Call} (hr : ReadyRun p gz fuel calls (Session.new ⟨data, 0⟩)) :
    hdusSeen ((Session.new ⟨data, 0⟩).run p gz fuel calls) =
      plainHdus p (asked calls ((Session.new ⟨data, 0⟩).run p gz fuel calls)) (fromReader ⟨data, 0⟩) :=
  fresh_run calls ⟨rfl, rfl, rfl, rfl, rfl, fun _ => ⟨rfl, rfl, rfl⟩⟩ (.inl rfl) rfl hr

/-! ### Programs that stay within the data units -/

/-- The values that a table gives are all read between the offsets `s` and `s + n`. -/
def Tab.Bounded (T : Tab) (n : Nat) : Prop :=
  ∀ r < T.x.naxis2, ∀ c ∈ T.cols, ∀ i < (cellValues T.heap T.x T.unit r c).length, ∀ k t, T.At r k c i t →
    T.start ≤ t.rd.pos ∧ t.rd.pos ≤ T.start + n

/-- A table whose reader stays between the offsets `s` and `s + n`. -/
def TableStays (seek : Bool) (p : Profile) (data : List UInt8) (s n : Nat) (t : TableData) : Prop :=
  ∃ T : Tab, T.Ok ∧ T.p = p ∧ T.data = data ∧ T.start = s ∧ s + T.x.naxis1 * T.x.naxis2 ≤ data.length ∧
    T.x.naxis1 * T.x.naxis2 ≤ n ∧ T.Bounded n ∧ (seek = true → T.Plain) ∧ ∃ vs, T.Left vs t

/-- A data unit opened once, whose reader stays between the offsets `s` and `s + n`. -/
def Stays (seek : Bool) (p : Profile) (data : List UInt8) (s n : Nat) : OpenUnit → Prop
  | .image d => ∃ b N c ps, Avail b data s N ps ∧ ps.length = N ∧ c ≤ N ∧ N * pixelSize b ≤ n ∧
      d.pixels = itAt b data s N c
  | .bytes b => b.rd.data = data ∧ s ≤ b.rd.pos ∧ b.rd.pos + b.limit ≤ s + n
  | .table t => TableStays seek p data s n t
  | .rows r => TableStays seek p data s n r.data
  | .tiles _ => False

theorem Tab.Left.pos {T : Tab} {n : Nat} (hm : T.x.naxis1 * T.x.naxis2 ≤ n) (hb : T.Bounded n) {vs : List DataValue}
    {t : TableData} (h : T.Left vs t) : T.start ≤ t.rd.pos ∧ t.rd.pos ≤ T.start + n := by
  obtain ⟨r, cur, h, -⟩ := h
  rcases h with ⟨-, -, k, i, -, rfl⟩ | ⟨hr, k, c, i, hk, hi, hat, -⟩
  · show T.start ≤ T.start + _ ∧ T.start + _ ≤ _
    omega
  · exact hb r hr c (mem_cols hk) i hi k t hat

theorem Tab.Left.data {T : Tab} {vs : List DataValue} {t : TableData} (h : T.Left vs t) : t.rd.data = T.data := by
  obtain ⟨r, cur, h, -⟩ := h
  rcases h with ⟨-, -, k, i, -, rfl⟩ | ⟨-, k, c, i, -, -, h, -⟩
  · rfl
  · unfold Tab.At at h
    split at h
    · subst h; rfl
    · split at h
      · subst h; rfl
      · rw [h.2]; rfl
    · split at h
      · subst h; rfl
      · rw [h.2]; rfl
    · exact h.elim

section
variable {seek : Bool} {p : Profile} {data : List UInt8} {s n : Nat}

theorem Stays.rd {o : OpenUnit} (h : Stays seek p data s n o) :
    o.rd.data = data ∧ s ≤ o.rd.pos ∧ o.rd.pos ≤ s + n := by
  have tab : ∀ t, TableStays seek p data s n t → t.rd.data = data ∧ s ≤ t.rd.pos ∧ t.rd.pos ≤ s + n := by
    rintro t ⟨T, -, -, rfl, rfl, -, hm, hb, -, vs, hl⟩
    exact ⟨hl.data, hl.pos hm hb⟩
  cases o with
  | image d =>
    obtain ⟨b, N, c, ps, h1, h2, h3, h4, h5⟩ := h
    show d.pixels.rd.data = data ∧ s ≤ d.pixels.rd.pos ∧ d.pixels.rd.pos ≤ s + n
    rw [h5]
    have := Nat.mul_le_mul_right (pixelSize b) h3
    exact ⟨rfl, Nat.le_add_right _ _, show s + c * pixelSize b ≤ s + n by omega⟩
  | bytes b =>
    obtain ⟨h1, h2, h3⟩ := h
    exact ⟨h1, h2, show b.rd.pos ≤ s + n by omega⟩
  | table t => exact tab _ h
  | rows t => exact tab _ h
  | tiles t => exact False.elim h

theorem TableStays.next {t : TableData} (h : TableStays seek p data s n t) :
    TableStays seek p data s n (t.next p).2 := by
  obtain ⟨T, h1, h2, h3, h4, h5, h6, h7, h8, vs, hl⟩ := h
  refine ⟨T, h1, h2, h3, h4, h5, h6, h7, h8, ?_⟩
  cases vs with
  | nil =>
    refine ⟨[], ?_⟩
    rw [← h2, hl.nil]
    exact hl
  | cons v vs =>
    obtain ⟨t', e, hl'⟩ := hl.cons h1 (by rw [h4, h3]; exact h5)
    refine ⟨vs, ?_⟩
    rw [← h2, e]
    exact hl'

theorem TableStays.collect (fuel row : Nat) {t u : TableData} (acc : List DataValue)
    {r : Res (Option (List DataValue))} (h : TableStays seek p data s n t)
    (e : TableRows.collect p fuel row t acc = some (r, u)) : TableStays seek p data s n u := by
  induction fuel generalizing t acc with
  | zero => simp [TableRows.collect] at e
  | succ k ih =>
    unfold TableRows.collect at e
    split at e
    · have hs := h.next
      split at e
      · rename_i hq; rw [hq] at hs; exact ih _ hs e
      all_goals
        rename_i hq; rw [hq] at hs
        cases e
        exact hs
    · cases e; exact h

theorem TableStays.rows {fuel : Nat} {t u : TableRows} {r : Res (Option (List DataValue))}
    (h : TableStays seek p data s n t.data) (e : t.next p fuel = some (r, u)) : TableStays seek p data s n u.data := by
  unfold TableRows.next at e
  split at e
  · cases e
  · rename_i hc
    cases e
    exact h.collect _ _ _ hc
  · rename_i hc
    cases e
    exact h.collect _ _ _ hc

theorem TableStays.seekRow {t : TableData} (i : Nat) (hk : seek = true) (h : TableStays seek p data s n t) :
    TableStays seek p data s n (t.seekToRow p i).2 := by
  obtain ⟨T, h1, h2, h3, h4, h5, h6, h7, h8, vs, hl⟩ := h
  have hplain := h8 hk
  have h0 : 0 < T.cols.length := List.length_pos_iff.2 h1.readable.nonempty
  have hmain : ∃ r k i bo, t = T.main r k i bo ∧ bo ≤ T.x.naxis1 * T.x.naxis2 := by
    obtain ⟨r, cur, hst, -⟩ := hl
    rcases hst with ⟨-, -, k, i, -, rfl⟩ | ⟨hr, k, c, i, hc, hi, hat, -⟩
    · exact ⟨_, _, _, _, rfl, Nat.le_refl _⟩
    · obtain ⟨ty, rep, hf⟩ := hplain c (mem_cols hc)
      unfold Tab.At at hat
      rw [hf] at hat
      dsimp only at hat
      refine ⟨_, _, _, _, hat, ?_⟩
      have hcell := h1.cell hr hf
      unfold cellValues at hi
      dsimp only at hi
      rw [hf] at hi
      dsimp only at hi
      rw [elements_length] at hi
      rw [colBytes_plain] at hcell
      have := Nat.mul_le_mul_right (elemBytes ty) (Nat.le_of_lt hi)
      omega
  by_cases hi : t.ctx.naxis2 ≤ i
  · refine ⟨T, h1, h2, h3, h4, h5, h6, h7, h8, vs, ?_⟩
    unfold TableData.seekToRow
    rw [if_pos hi]
    exact hl
  · obtain ⟨r, k, j, bo, rfl, hbo⟩ := hmain
    have hi : i < T.x.naxis2 := by
      have : (T.main r k j bo).ctx = T.x := rfl
      rw [this] at hi
      omega
    refine ⟨T, h1, h2, h3, h4, h5, h6, h7, h8, ?_⟩
    rw [← h2, seekToRow_main h1 hi h0 hbo]
    exact ⟨_, i, _, Tab.Left.start h1 hi h0, rfl⟩

theorem Stays.next {gz : Gunzip} {fuel : Nat} {o u : OpenUnit} {r : Res Seen}
    (h : Stays seek p data s n o) (e : nextItem p gz fuel o = some (r, u)) : Stays seek p data s n u := by
  cases o with
  | image d =>
    cases e
    obtain ⟨b, N, c, ps, h1, h2, h3, h4, h5⟩ := h
    show ∃ b N c ps, _
    dsimp only
    rw [h5]
    by_cases hc : c < N
    · rw [next_avail h1 (by omega)]
      exact ⟨b, N, c + 1, ps, h1, h2, hc, h4, rfl⟩
    · rw [next_end c (by omega)]
      exact ⟨b, N, c, ps, h1, h2, h3, h4, rfl⟩
  | bytes b =>
    cases e
    obtain ⟨h1, h2, h3⟩ := h
    show _ ∧ _ ∧ _
    refine ⟨(ByteStream.next_data _).trans h1, ?_⟩
    unfold ByteStream.next
    split
    · exact ⟨h2, h3⟩
    · split
      · exact ⟨h2, h3⟩
      · rename_i x bs hf
        have hl : bs.length + 1 ≤ b.limit := by
          have := congrArg List.length hf
          unfold ByteStream.fill at this
          rw [List.length_take, List.length_cons] at this
          omega
        exact ⟨by dsimp only; omega, by dsimp only; omega⟩
  | table t =>
    cases e
    exact TableStays.next (t := t) h
  | rows t =>
    unfold nextItem at e
    dsimp only at e
    cases hn : t.next p fuel with
    | none => rw [hn] at e; cases e
    | some x =>
      rw [hn] at e
      cases e
      exact TableStays.rows (t := t) h hn
  | tiles t => exact False.elim h

/-- The calls on an opened data unit that keep its reader inside. -/
def Call.keepsInside (seek : Bool) : Call → Bool
  | .seekRow _ => seek
  | .select _ => false
  | .bytes => false
  | _ => true

theorem Stays.on {c : Call} {o u : OpenUnit} {r : Res Seen} (hk : c.keepsInside seek = true)
    (h : Stays seek p data s n o) (e : onOpened p c o = (r, some u)) : Stays seek p data s n u := by
  unfold onOpened at e
  split at e
  · cases e
    rename_i i d
    obtain ⟨b, N, c, ps, h1, h2, h3, h4, h5⟩ := h
    show ∃ b N c ps, _
    dsimp only
    rw [h5]
    by_cases hi : i < N
    · rw [read_avail h1 h3 (by omega)]
      exact ⟨b, N, i + 1, ps, h1, h2, hi, h4, rfl⟩
    · obtain ⟨x, hx⟩ := read_out (p := p) (b := b) (data := data) (start := s) (c := c) (show N ≤ i by omega)
      rw [hx]
      exact ⟨b, N, c, ps, h1, h2, h3, h4, rfl⟩
  · cases e
  · cases e; exact h
  · cases e
    rename_i i t
    exact TableStays.seekRow (t := t) i hk h
  · cases hk
  · cases e; exact h
  · exact False.elim h
  · cases e; exact h
  · exact False.elim h
  · cases hk
  · cases e; exact h

end

/-- A binary table that can be read whole within its data unit, which has `n` bytes from `start` on. -/
structure TableInside (seek : Bool) (x : BinTable) (data : List UInt8) (start n : Nat) : Prop where
  notImage : x.zImage = none
  legal : Legal x data start
  main : x.naxis1 * x.naxis2 ≤ n
  cells : ∀ r < x.naxis2, ∀ c < x.tforms.length, CellIn true x ((data.drop start).take n) r c
  plain : seek = true → ∀ c < x.tforms.length, ∃ ty rep, x.tforms[c]? = some (.plain ty rep)

/-- An HDU whose data unit is wholly in the file and can be read; compressed images are left out.  When `seek` is true,
the tables have no arrays. -/
structure Tame (seek : Bool) (p : Profile) (data : List UInt8) (h : HDU) : Prop where
  fits : nextHeader p h < 2 ^ 63
  complete : ∀ n, h.dataSize p = .ok n → h.dataOffset + n ≤ data.length
  table : ∀ n x, h.dataSize p = .ok n → h = .binTable x → TableInside seek x.header.xtension data x.dataOffset n

/-- Programs that open each data unit at most once, when it is the last one, and that keep the reader inside. -/
def OpensOnce (seek : Bool) : Bool → List Call → Prop
  | _, [] => True
  | _, .hdu :: cs => OpensOnce seek false cs
  | b, .getData k :: cs => k = 0 ∧ b = false ∧ OpensOnce seek true cs
  | b, c :: cs => c.keepsInside seek = true ∧ OpensOnce seek b cs

theorem bytesAt_take {l : List UInt8} {n o k : Nat} (h : o + k ≤ n) : bytesAt (l.take n) o k = bytesAt l o k := by
  unfold bytesAt
  rw [List.drop_take, List.take_take, Nat.min_eq_left (by omega)]

theorem Legal.cell {x : BinTable} {data : List UInt8} {start r c : Nat} {f : TForm} (h : Legal x data start)
    (hr : r < x.naxis2) (hf : x.tforms[c]? = some f) :
    r * x.naxis1 + colStart x.tforms c + colBytes f ≤ x.naxis1 * x.naxis2 := by
  have hle := colStart_le hf
  rw [← h.width] at hle
  have hrow : (r + 1) * x.naxis1 ≤ x.naxis1 * x.naxis2 := by
    rw [Nat.mul_comm x.naxis1]; exact Nat.mul_le_mul_right _ hr
  have hrs : (r + 1) * x.naxis1 = r * x.naxis1 + x.naxis1 := Nat.succ_mul _ _
  omega

theorem arrayIn_untake {l : List UInt8} {n : Nat} {ty : ElemTy} {theap k o : Nat} (ho : o + k + k ≤ n)
    (h : ArrayIn (l.take n) ty theap k o) : ArrayIn l ty theap k o ∧
      theap + beNat (bytesAt l (o + k) k) + beNat (bytesAt l o k) * elemBytes ty ≤ n := by
  obtain ⟨h1, h2⟩ := h
  rw [bytesAt_take (by omega), bytesAt_take (by omega), List.length_take] at h2
  rw [bytesAt_take (by omega)] at h1
  exact ⟨⟨h1, by omega⟩, by omega⟩

theorem TableInside.cellsIn {seek : Bool} {x : BinTable} {data : List UInt8} {start n : Nat}
    (h : TableInside seek x data start n) : CellsIn x data start (List.range x.tforms.length) := by
  intro r hr c hc
  have hc := List.mem_range.1 hc
  have hin := h.cells r hr c hc
  unfold CellIn at *
  dsimp only at *
  have hm := h.main
  cases hf : x.tforms[c]? with
  | none => rw [hf] at hin; exact hin
  | some f =>
    have hcell := h.legal.cell hr hf
    rw [hf] at hin
    cases f with
    | plain ty rep => exact hin
    | P ty =>
      have : colBytes (TForm.P ty) = 8 := rfl
      exact fun hh => (arrayIn_untake (by omega) (hin hh)).1
    | Q ty =>
      have : colBytes (TForm.Q ty) = 16 := rfl
      exact fun hh => (arrayIn_untake (by omega) (hin hh)).1

theorem TableInside.bounded {seek : Bool} {x : BinTable} {data : List UInt8} {start n : Nat}
    (h : TableInside seek x data start n) (p : Profile) (os : List Nat) :
    Tab.Bounded ⟨p, x, data, start, List.range x.tforms.length, true, os⟩ n := by
  intro r hr c hc i hi k t hat
  have hc := List.mem_range.1 hc
  have hin := h.cells r hr c hc
  have hm := h.main
  unfold CellIn at hin
  unfold Tab.At at hat
  unfold cellValues at hi
  dsimp only [Tab.cellStart, Tab.unit] at *
  cases hf : x.tforms[c]? with
  | none => rw [hf] at hin; exact hin.elim
  | some f =>
    have hcell := h.legal.cell hr hf
    rw [hf] at hin hat hi
    cases f with
    | plain ty rep =>
      dsimp only at hi hat
      rw [elements_length] at hi
      rw [colBytes_plain] at hcell
      have := Nat.mul_le_mul_right (elemBytes ty) (Nat.le_of_lt hi)
      subst hat
      dsimp only [Tab.main]
      omega
    | P ty =>
      have h8 : colBytes (TForm.P ty) = 8 := rfl
      dsimp only at hi hat hin
      split at hat
      · subst hat
        dsimp only [Tab.main]
        omega
      · obtain ⟨-, rfl⟩ := hat
        have h2 := (arrayIn_untake (by omega) (hin rfl)).2
        unfold arrayValues at hi
        dsimp only at hi
        rw [if_pos rfl, elements_length] at hi
        have := Nat.mul_le_mul_right (elemBytes ty) (Nat.le_of_lt hi)
        dsimp only [Tab.inHeap]
        omega
    | Q ty =>
      have h8 : colBytes (TForm.Q ty) = 16 := rfl
      dsimp only at hi hat hin
      split at hat
      · subst hat
        dsimp only [Tab.main]
        omega
      · obtain ⟨-, rfl⟩ := hat
        have h2 := (arrayIn_untake (by omega) (hin rfl)).2
        unfold arrayValues at hi
        dsimp only at hi
        rw [if_pos rfl, elements_length] at hi
        have := Nat.mul_le_mul_right (elemBytes ty) (Nat.le_of_lt hi)
        dsimp only [Tab.inHeap]
        omega

/-- Opening the data unit of the last HDU. -/
theorem Tame.opens {seek : Bool} {p : Profile} {f f' : Fits} {h : HDU} {o : OpenUnit}
    (hn : f.next p = (some (.ok h), f')) (ht : Tame seek p f'.rd.data h) (e : f'.getData p h = .ok o) :
    Stays seek p f'.rd.data f'.posStart f'.numBytes o := by
  obtain ⟨h1, h2, h3, h4, -⟩ := next_ok_state hn
  have hc := ht.complete _ h4
  have hrd : f'.rd = ⟨f'.rd.data, f'.posStart⟩ := by
    cases hr : f'.rd with
    | mk a b => rw [hr] at h2; rw [h3, ← h2]
  have hfit : f'.posStart + f'.numBytes < 2 ^ 63 := by
    have := ht.fits
    unfold nextHeader at this
    rw [h4] at this
    dsimp only at this
    have := roundUp2880_ge f'.numBytes
    omega
  have img : ∀ x : Hdu Image, h.dataSize p = x.header.xtension.numBytes p →
      (f'.getImage p x).map OpenUnit.image = .ok o → Stays seek p f'.rd.data f'.posStart f'.numBytes o := by
    intro x hx e
    obtain ⟨d, hd, rfl⟩ := Res.map_eq_ok.1 e
    unfold Fits.getImage ImageData.new at hd
    rw [← hx, h4] at hd
    cases hd
    have hp := pixelSize_pos x.header.xtension.bitpix
    have hle : f'.numBytes / pixelSize x.header.xtension.bitpix * pixelSize x.header.xtension.bitpix ≤ f'.numBytes :=
      Nat.div_mul_le_self _ _
    obtain ⟨before, after, e1, e2, e3⟩ := cut_list f'.rd.data f'.posStart
      (f'.numBytes / pixelSize x.header.xtension.bitpix * pixelSize x.header.xtension.bitpix) (by omega)
    obtain ⟨ps, g1, g2, g3⟩ := exists_pixels x.header.xtension.bitpix _ _ e3
    refine ⟨x.header.xtension.bitpix, _, 0, ps, ⟨g1, Nat.le_of_eq g3, ⟨before, after, by rw [g2]; exact e1, e2,
      fun hlt => by omega⟩, by omega⟩, g3, Nat.zero_le _, hle, ?_⟩
    show It.new _ f'.rd f'.numBytes = _
    rw [hrd]
    unfold It.new itAt
    rw [byteSize_eq, Nat.zero_mul, Nat.add_zero]
  cases h with
  | primary x => exact img x rfl e
  | image x => exact img x rfl e
  | asciiTable x =>
    obtain ⟨d, hd, rfl⟩ := Res.map_eq_ok.1 e
    unfold Fits.openAscii at hd
    rw [show x.header.xtension.numBytes p = .ok f'.numBytes from h4] at hd
    cases hd
    refine ⟨rfl, ?_, ?_⟩
    · show f'.posStart ≤ f'.rd.pos
      omega
    · show f'.rd.pos + f'.numBytes ≤ _
      omega
  | binTable x =>
    have hti := ht.table _ x h4 rfl
    unfold Fits.getData at e
    dsimp only at e
    rw [hti.notImage] at e
    obtain ⟨t, hd, rfl⟩ := Res.map_eq_ok.1 e
    have hop : Opened p f f' x t := ⟨hn, hd, hti.notImage⟩
    have hdo : x.dataOffset = f'.posStart := h3.symm
    rw [h1, hdo] at hti
    have hcells := hti.cellsIn
    obtain ⟨os, g1, g2⟩ := hop.main (by rw [hdo]; exact hti.legal)
    obtain ⟨T, hT, k1, k2, k3, k4, k5, k6, hs, htm⟩ := hop.left (by rw [hdo]; exact hti.legal) (by rw [hdo]; exact hcells)
    have hb := hti.bounded p T.offsets
    have hTe : T = ⟨p, x.header.xtension, f.rd.data, f'.posStart, List.range x.header.xtension.tforms.length, true,
        T.offsets⟩ := by
      cases T
      simp only at k1 k2 k3 k4 k5 k6 ⊢
      subst k1 k2 k3 k4 k5 k6
      rw [hdo]
    refine ⟨T, hT, k1, k3.trans h1.symm, k4.trans hdo, ?_, ?_, ?_, fun hk => ?_, _, 0, _, hs, rfl⟩
    · rw [k2]
      have := hti.main
      have : HDU.dataOffset (.binTable x) = x.dataOffset := rfl
      omega
    · rw [k2]; exact hti.main
    · rw [hTe]; exact hb
    · intro c hc
      rw [k5] at hc
      rw [k2]
      exact hti.plain hk c (List.mem_range.1 hc)

/-- The state of a program that opens each data unit at most once; `b`: the last one has been opened. -/
def Tidy (seek : Bool) (p : Profile) (b : Bool) (s : Session) (f : Fits) : Prop :=
  f.start = true ∨
  ∃ (f0 : Fits) (h : HDU) (hs : List HDU), f0.next p = (some (.ok h), f) ∧ Tame seek p f.rd.data h ∧ s.hdus = h :: hs ∧
    if b then
      (s.opened = none ∧ s.fits.rd.data = f.rd.data ∧ f.posStart ≤ s.fits.rd.pos ∧
        s.fits.rd.pos ≤ f.posStart + f.numBytes) ∨
      ∃ o, s.opened = some o ∧ Stays seek p f.rd.data f.posStart f.numBytes o
    else s.opened = none ∧ s.fits = f

/-- A program that asks for no HDU. -/
theorem readyRun_noAsk {p : Profile} {gz : Gunzip} {fuel : Nat} (calls : List Call) (s : Session)
    (h : calls.countP Call.asksHdu = 0) : ReadyRun p gz fuel calls s := by
  induction calls generalizing s with
  | nil => trivial
  | cons c cs ih =>
    rw [List.countP_cons] at h
    refine ⟨fun hc => ?_, ?_⟩
    · subst hc
      simp [Call.asksHdu] at h
    · split
      · exact ih _ (by omega)
      · exact ih _ (by omega)
      · trivial

theorem Tidy.ready {seek : Bool} {p : Profile} {b : Bool} {s : Session} {f : Fits} (ha : s.At f)
    (h : Tidy seek p b s f) : s.close.fits.start = true ∨ s.close.fits.errored = true ∨ Ready p s.close.fits := by
  rcases h with h | ⟨f0, x, hs, hn, ht, -, h⟩
  · left; rw [ha.start]; exact h
  right; right
  obtain ⟨-, h2, h3, h4, -⟩ := next_ok_state hn
  have hfit : f.posStart + roundUp2880 f.numBytes < 2 ^ 63 := by
    have := ht.fits
    unfold nextHeader at this
    rw [h4] at this
    rw [h3]
    exact this
  have hge := roundUp2880_ge f.numBytes
  have hpos : f.posStart ≤ s.close.fits.rd.pos ∧ s.close.fits.rd.pos ≤ f.posStart + f.numBytes := by
    cases b with
    | true =>
      rw [if_pos rfl] at h
      rcases h with ⟨g1, -, g2, g3⟩ | ⟨o, g1, g2⟩
      · rw [close_none g1]
        exact ⟨g2, g3⟩
      · rw [close_opened g1]
        exact g2.rd.2
    | false =>
      rw [if_neg (by decide)] at h
      obtain ⟨g1, g2⟩ := h
      rw [close_none g1, g2]
      omega
  exact ⟨by omega, by rw [ha.posStart, ha.numBytes]; exact hfit, fun _ => by rw [ha.posStart, ha.numBytes]; exact hpos⟩

/-- A call on an opened data unit. -/
theorem Tidy.use {seek : Bool} {p : Profile} {gz : Gunzip} {fuel : Nat} {c : Call} {b : Bool}
    {s s' : Session} {f : Fits} {r : Res Seen} (ha : s.At f) (h : Tidy seek p b s f) (h1 : c ≠ .hdu)
    (h2 : ∀ k, c ≠ .getData k) (hk : c.keepsInside seek = true) (e : s.call p gz fuel c = some (r, s')) :
    Tidy seek p b s' f := by
  obtain ⟨-, -, hh⟩ := call_at h1 ha e
  have e' : (match s.opened with
      | none => some (.ok .illTyped, s)
      | some o => s.useOpened p gz fuel c o) = some (r, s') := by
    unfold call at e
    split at e
    · exact absurd rfl h1
    · exact absurd rfl (h2 _)
    · exact e
  cases ho : s.opened with
  | none =>
    rw [ho] at e'
    cases e'
    exact h
  | some o =>
    rw [ho] at e'
    dsimp only at e'
    rcases h with h | ⟨f0, x, hs, hn, ht, hx, h⟩
    · exact .inl h
    refine .inr ⟨f0, x, hs, hn, ht, hh.trans hx, ?_⟩
    cases b with
    | false =>
      rw [if_neg (by decide)] at h
      rw [h.1] at ho
      cases ho
    | true =>
      rw [if_pos rfl] at h ⊢
      rcases h with ⟨g1, -⟩ | ⟨o', g1, g2⟩
      · rw [g1] at ho; cases ho
      · rw [g1] at ho
        cases ho
        unfold useOpened at e'
        split at e'
        · cases hi : nextItem p gz fuel o with
          | none => rw [hi] at e'; cases e'
          | some y =>
            rw [hi] at e'
            cases e'
            exact .inr ⟨_, rfl, g2.next hi⟩
        · split at e'
          · rename_i ho
            cases e'
            exact .inr ⟨_, rfl, g2.on hk ho⟩
          · cases e'
            refine .inl ⟨close_isNone, ?_⟩
            rw [close_opened g1]
            exact g2.rd

/-- Opening the last data unit. -/
theorem Tidy.open {seek : Bool} {p : Profile} {gz : Gunzip} {fuel : Nat}
    {s s' : Session} {f : Fits} {r : Res Seen} (h : Tidy seek p false s f)
    (e : s.call p gz fuel (.getData 0) = some (r, s')) : Tidy seek p true s' f := by
  rcases h with h | ⟨f0, x, hs, hn, ht, hx, h⟩
  · exact .inl h
  rw [if_neg (by decide)] at h
  obtain ⟨g1, g2⟩ := h
  obtain ⟨-, k2, k3, -⟩ := next_ok_state hn
  have e := Option.some.inj e
  rw [close_none g1] at e
  have hin : Tidy seek p true s f := by
    refine .inr ⟨f0, x, hs, hn, ht, hx, ?_⟩
    rw [if_pos rfl]
    refine .inl ⟨g1, by rw [g2], by rw [g2]; omega, by rw [g2]; omega⟩
  unfold openData at e
  rw [hx] at e
  dsimp only [List.getElem?_cons_zero] at e
  rw [g2] at e
  cases ho : f.getData p x with
  | ok o =>
    rw [ho] at e
    cases e
    refine .inr ⟨f0, x, hs, hn, ht, rfl, ?_⟩
    rw [if_pos rfl]
    exact .inr ⟨o, rfl, ht.opens hn ho⟩
  | err o =>
    rw [ho] at e
    cases e
    exact hin
  | panic =>
    rw [ho] at e
    cases e
    exact hin

/-- The HDUs that follow an item. -/
def itemHdus (i : Option (Res HDU)) (hs : List HDU) : List HDU :=
  match i with
  | some (.ok h) => h :: hs
  | some (.err _) => hs
  | _ => []

theorem plainHdus_succ {p : Profile} {f f' : Fits} {i : Option (Res HDU)} (m : Nat) (hn : f.next p = (i, f')) :
    plainHdus p (m + 1) f = itemHdus i (plainHdus p m f') := by
  unfold plainHdus
  conv => lhs; unfold Fits.collect
  rw [hn]
  cases i with
  | none => rfl
  | some r => cases r <;> rfl

theorem tidy_run {seek : Bool} {p : Profile} {gz : Gunzip} {fuel : Nat} (calls : List Call) {b : Bool}
    {s : Session} {f : Fits} {n : Nat} (ha : s.At f) (hf : Fresh f) (he : f.errored = false) (h : Tidy seek p b s f)
    (ho : OpensOnce seek b calls) (ht : ∀ x ∈ plainHdus p n f, Tame seek p f.rd.data x)
    (hc : calls.countP Call.asksHdu ≤ (plainHdus p n f).length + 1) : ReadyRun p gz fuel calls s := by
  induction calls generalizing b s f n with
  | nil => trivial
  | cons c cs ih =>
    have hready := h.ready ha
    rw [List.countP_cons] at hc
    refine ⟨fun _ => hready, ?_⟩
    by_cases h1 : c = .hdu
    · subst h1
      have hpos : (if Call.asksHdu .hdu = true then 1 else 0 : Nat) = 1 := rfl
      rw [hpos] at hc
      obtain ⟨e, hst, -, hat⟩ := call_hdu (gz := gz) (fuel := fuel) ha hf he hready
      rw [e]
      have hd := Fits.next_data (p := p) (f := f)
      cases hn : f.next p with
      | mk i f' =>
        rw [hn] at hat hst hd
        have hempty : plainHdus p n f = [] → ∀ s' : Session, ReadyRun p gz fuel cs s' := by
          intro h0 s'
          rw [h0] at hc
          exact readyRun_noAsk cs s' (by simp only [List.length_nil] at hc; omega)
        have hcol := fun m => plainHdus_succ m hn
        cases i with
        | none =>
          refine hempty ?_ _
          cases n with
          | zero => rfl
          | succ m => exact hcol m
        | some r =>
          cases r with
          | panic => trivial
          | err x =>
            refine hempty ?_ _
            cases n with
            | zero => rfl
            | succ m =>
              rw [hcol m]
              dsimp only [itemHdus]
              cases m with
              | zero => rfl
              | succ k =>
                unfold plainHdus Fits.collect Fits.next
                rw [if_pos (next_err hn)]
                rfl
          | ok x =>
            obtain ⟨-, k2, k3, -, k5, k6⟩ := next_ok_state hn
            cases n with
            | zero => exact hempty rfl _
            | succ m =>
              have hcm := hcol m
              dsimp only [itemHdus] at hcm
              rw [hcm] at ht hc
              dsimp only at hd
              refine ih (b := false) (n := m) (hat _) (.inr ⟨k6, k5, k2.trans k3.symm⟩) k5
                (.inr ⟨f, x, s.close.hdus, hn, ?_, rfl, ?_⟩) ho ?_ ?_
              · rw [hd]
                exact ht x List.mem_cons_self
              · rw [if_neg (by decide)]
                exact ⟨close_isNone, rfl⟩
              · intro y hy
                rw [hd]
                exact ht y (List.mem_cons_of_mem _ hy)
              · rw [List.length_cons] at hc
                dsimp only
                omega
    · have hc' : cs.countP Call.asksHdu ≤ (plainHdus p n f).length + 1 := by omega
      cases e : s.call p gz fuel c with
      | none => trivial
      | some y =>
        obtain ⟨r, s'⟩ := y
        have hat := (call_at h1 ha e).1
        have key : ReadyRun p gz fuel cs s' := by
          by_cases h2 : ∃ k, c = .getData k
          · obtain ⟨k, rfl⟩ := h2
            obtain ⟨rfl, rfl, ho⟩ := ho
            exact ih hat hf he (h.open e) ho ht hc'
          · have h2 : ∀ k, c ≠ .getData k := fun k hk => h2 ⟨k, hk⟩
            have ho : c.keepsInside seek = true ∧ OpensOnce seek b cs := by
              cases c with
              | hdu => exact absurd rfl h1
              | getData k => exact absurd rfl (h2 k)
              | _ => exact ho
            exact ih hat hf he (h.use ha h1 h2 ho.1 e) ho.2 ht hc'
        cases r with
        | ok v => exact key
        | err v => exact key
        | panic => trivial

/-- **C61**, without any assumption on the position of the reader: a program that opens each data unit at most once,
when it is the last one, reads it as it likes, and does not select columns nor take the bytes of a table, in a file whose
data units are complete and readable, sees the HDUs that are returned when nothing is done with the data.  It can ask
for the HDUs that exist and once more.  Tables with arrays are included if the program does not seek rows.  Missing:
the programs and files excluded here (compressed images are in `C61_tiles_partial`); some of them do see other HDUs
(`C61_fails`). -/
theorem C61_once_partial {seek : Bool} {p : Profile} {gz : Gunzip} {fuel n : Nat} {data : List UInt8}
    {calls : List Call} (ho : OpensOnce seek false calls)
    (ht : ∀ x ∈ plainHdus p n (fromReader ⟨data, 0⟩), Tame seek p data x)
    (hc : calls.countP Call.asksHdu ≤ (plainHdus p n (fromReader ⟨data, 0⟩)).length + 1) :
    hdusSeen ((Session.new ⟨data, 0⟩).run p gz fuel calls) =
      plainHdus p (asked calls ((Session.new ⟨data, 0⟩).run p gz fuel calls)) (fromReader ⟨data, 0⟩) :=
  C61_ready_partial (tidy_run calls (f := fromReader ⟨data, 0⟩) ⟨rfl, rfl, rfl, rfl, rfl, fun _ => ⟨rfl, rfl, rfl⟩⟩
    (.inl rfl) rfl (.inl rfl) ho ht hc)

/-! ### Examples -/

/-- The HDUs of a list are the primary one of the sample files and this table. -/
def areHdus (x : BinTable) : List HDU → Bool
  | [.primary a, .binTable h] =>
    decide (a.dataOffset = 2880 ∧ a.header.xtension = { bitpix := .u8, naxisn := [] } ∧ h.dataOffset = 5760 ∧
      h.header.xtension = x)
  | _ => false

set_option maxRecDepth 20000 in
theorem arrayFile_hdus (p : Profile) : areHdus arrayTable (plainHdus p 2 (fromReader ⟨arrayFile, 0⟩)) = true := by
  cases p <;> decide +kernel

set_option maxRecDepth 20000 in
theorem arrayFile_inside : TableInside false arrayTable arrayFile 5760 24 := by
  refine ⟨rfl, legal_array, by decide, fun r hr c hc => ?_, fun h => by cases h⟩
  have hr : r < 2 := hr
  have hc : c < 2 := hc
  rcases (show r = 0 ∨ r = 1 by omega) with rfl | rfl <;> rcases (show c = 0 ∨ c = 1 by omega) with rfl | rfl
  all_goals
    unfold CellIn ArrayIn
    first
    | (refine fun _ => ⟨?_, ?_⟩ <;> decide +kernel)
    | (refine ⟨?_, ?_⟩ <;> decide +kernel)

/-- A program that reads two of the five values of the table with arrays, then its rows, after the end of the primary
HDU, then asks for another HDU. -/
def arrayCalls : List Call := [.hdu, .getData 0, .next, .hdu, .getData 0, .next, .next, .rowIter, .next, .next, .hdu]

set_option maxRecDepth 20000 in
theorem arrayFile_tame (p : Profile) : ∀ x ∈ plainHdus p 2 (fromReader ⟨arrayFile, 0⟩), Tame false p arrayFile x := by
  have h := arrayFile_hdus p
  unfold areHdus at h
  split at h
  · rename_i a b e
    simp only [decide_eq_true_eq] at h
    obtain ⟨h1, h2, h3, h4⟩ := h
    rw [e]
    have ha : HDU.dataSize p (.primary a) = .ok 0 := by
      show a.header.xtension.numBytes p = _
      rw [h2]
      cases p <;> decide +kernel
    have hb : HDU.dataSize p (.binTable b) = .ok 24 := by
      show b.header.xtension.numBytes p = _
      rw [h4]
      cases p <;> decide +kernel
    intro x hx
    simp only [List.mem_cons, List.not_mem_nil, or_false] at hx
    have hlen : arrayFile.length = 5784 := by decide +kernel
    rcases hx with rfl | rfl
    · refine ⟨?_, ?_, ?_⟩
      · unfold nextHeader
        rw [ha]
        show a.dataOffset + roundUp2880 0 < _
        rw [h1]
        decide
      · intro n hn
        rw [ha] at hn
        cases hn
        show a.dataOffset + 0 ≤ _
        omega
      · intro n x hn hx
        cases hx
    · refine ⟨?_, ?_, ?_⟩
      · unfold nextHeader
        rw [hb]
        show b.dataOffset + roundUp2880 24 < _
        rw [h3]
        decide
      · intro n hn
        rw [hb] at hn
        cases hn
        show b.dataOffset + 24 ≤ _
        omega
      · intro n x hn hx
        rw [hb] at hn
        cases hn
        cases hx
        rw [h4, h3]
        exact arrayFile_inside
  · cases h

example (p : Profile) (gz : Gunzip) : ∃ hs : List HDU, areHdus arrayTable hs = true ∧
    hdusSeen ((Session.new ⟨arrayFile, 0⟩).run p gz 10 arrayCalls) =
      plainHdus p (asked arrayCalls ((Session.new ⟨arrayFile, 0⟩).run p gz 10 arrayCalls)) (fromReader ⟨arrayFile, 0⟩) ∧
    hs = plainHdus p 2 (fromReader ⟨arrayFile, 0⟩) := by
  refine ⟨_, arrayFile_hdus p, C61_once_partial (seek := false) (n := 2) ?_ (arrayFile_tame p) ?_, rfl⟩
  · simp [OpensOnce, arrayCalls, Call.keepsInside]
  · have h := arrayFile_hdus p
    unfold areHdus at h
    split at h
    · rename_i e
      rw [e]
      exact Nat.le_refl 3
    · cases h

set_option maxRecDepth 20000 in
/-- What the program sees: two elements of an array, then the rest of the row. -/
example : ((Session.new ⟨arrayFile, 0⟩).run .checked (.of id) 10 arrayCalls).map glance =
    [some (.ok .unit), some (.ok .unit), some (.ok (.pixel none)), some (.ok .unit), some (.ok .unit),
     some (.ok (.value (some (.cell 0 0 (.short 5))))), some (.ok (.value (some (.cell 0 1 (.short 6))))),
     some (.ok .unit), some (.ok (.row (some [.cell 1 0 (.ubyte 9)]))),
     some (.ok (.row (some [.cell 0 0 (.short 7), .cell 1 0 (.ubyte 8)]))), some (.ok (.hdu none))] := by
  decide +kernel

/-- A program that reads the data unit to its end, opens it again, and reads a pixel. -/
def againCalls : List Call := [.hdu, .getData 0, .readValue 9, .getData 0, .next, .hdu]

set_option maxRecDepth 20000 in
theorem againCalls_seen :
    (hdusSeen ((Session.new ⟨sampleFile, 0⟩).run .checked (.of id) 0 againCalls)).length = 1 ∧
    (hdusSeen ((Session.new ⟨sampleFile, 0⟩).run .wrapping (.of id) 0 againCalls)).length = 2 ∧
    asked againCalls ((Session.new ⟨sampleFile, 0⟩).run .checked (.of id) 0 againCalls) = 2 ∧
    (plainHdus .checked 2 (fromReader ⟨sampleFile, 0⟩)).length = 2 := by
  decide +kernel

/-- **C61 fails** in builds with overflow checks: when a data unit has been read to its end, opened again and read, the
reader is after its end, and asking for the next HDU panics. -/
theorem C61_fails : ¬ C61_statement := by
  intro h
  obtain ⟨h1, -, h2, h3⟩ := againCalls_seen
  have := congrArg List.length (h .checked (.of id) 0 sampleFile againCalls)
  rw [h1, h2, h3] at this
  cases this

end Fitsrs

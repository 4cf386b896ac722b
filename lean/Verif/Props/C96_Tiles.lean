import Verif.Lemmas.TilesInside
import Verif.Props.C96
import Verif.Props.C76
/-
C96 and C61 with compressed images.
-/

namespace Fitsrs
open Spec Session

/-- The state of a program that opens each data unit at most once; `b`: the last one has been opened. -/
def TidyAll (p : Profile) (gz : Gunzip) (fuel : Nat) (b : Bool) (s : Session) (f : Fits) : Prop :=
  f.start = true ∨
  ∃ (f0 : Fits) (h : HDU) (hs : List HDU), f0.next p = (some (.ok h), f) ∧ TameAll p gz fuel f.rd.data h ∧ s.hdus = h :: hs ∧
    if b then
      (s.opened = none ∧ s.fits.rd.data = f.rd.data ∧ f.posStart ≤ s.fits.rd.pos ∧
        s.fits.rd.pos ≤ f.posStart + f.numBytes) ∨
      ∃ o, s.opened = some o ∧ StaysAll p gz fuel f.rd.data f.posStart f.numBytes o
    else s.opened = none ∧ s.fits = f

theorem TidyAll.ready {p : Profile} {gz : Gunzip} {fuel : Nat} {b : Bool} {s : Session} {f : Fits} (ha : s.At f)
    (h : TidyAll p gz fuel b s f) : s.close.fits.start = true ∨ s.close.fits.errored = true ∨ Ready p s.close.fits := by
  rcases h with h | ⟨f0, x, hs, hn, ht, -, h⟩
  · left; rw [ha.start]; exact h
  right; right
  obtain ⟨-, h2, h3, h4, -⟩ := next_ok_state hn
  have hfit : f.posStart + roundUp2880 f.numBytes < 2 ^ 63 := by
    have := ht.fits
    unfold nextHeader at this
    rw [h4] at this
    rw [h3]
    exact this
  have hge := roundUp2880_ge f.numBytes
  have hpos : f.posStart ≤ s.close.fits.rd.pos ∧ s.close.fits.rd.pos ≤ f.posStart + f.numBytes := by
    cases b with
    | true =>
      rw [if_pos rfl] at h
      rcases h with ⟨g1, -, g2, g3⟩ | ⟨o, g1, g2⟩
      · rw [close_none g1]
        exact ⟨g2, g3⟩
      · rw [close_opened g1]
        exact g2.rd.2
    | false =>
      rw [if_neg (by decide)] at h
      obtain ⟨g1, g2⟩ := h
      rw [close_none g1, g2]
      omega
  exact ⟨by omega, by rw [ha.posStart, ha.numBytes]; exact hfit, fun _ => by rw [ha.posStart, ha.numBytes]; exact hpos⟩

/-- A call on an opened data unit. -/
theorem TidyAll.use {p : Profile} {gz : Gunzip} {fuel : Nat} {c : Call} {b : Bool}
    {s s' : Session} {f : Fits} {r : Res Seen} (ha : s.At f) (h : TidyAll p gz fuel b s f) (h1 : c ≠ .hdu)
    (h2 : ∀ k, c ≠ .getData k) (hk : c.keepsInside false = true) (e : s.call p gz fuel c = some (r, s')) :
    TidyAll p gz fuel b s' f := by
  obtain ⟨-, -, hh⟩ := call_at h1 ha e
  have e' : (match s.opened with
      | none => some (.ok .illTyped, s)
      | some o => s.useOpened p gz fuel c o) = some (r, s') := by
    unfold call at e
    split at e
    · exact absurd rfl h1
    · exact absurd rfl (h2 _)
    · exact e
  cases ho : s.opened with
  | none =>
    rw [ho] at e'
    cases e'
    exact h
  | some o =>
    rw [ho] at e'
    dsimp only at e'
    rcases h with h | ⟨f0, x, hs, hn, ht, hx, h⟩
    · exact .inl h
    refine .inr ⟨f0, x, hs, hn, ht, hh.trans hx, ?_⟩
    cases b with
    | false =>
      rw [if_neg (by decide)] at h
      rw [h.1] at ho
      cases ho
    | true =>
      rw [if_pos rfl] at h ⊢
      rcases h with ⟨g1, -⟩ | ⟨o', g1, g2⟩
      · rw [g1] at ho; cases ho
      · rw [g1] at ho
        cases ho
        unfold useOpened at e'
        split at e'
        · cases hi : nextItem p gz fuel o with
          | none => rw [hi] at e'; cases e'
          | some y =>
            rw [hi] at e'
            cases e'
            exact .inr ⟨_, rfl, g2.next hi⟩
        · split at e'
          · rename_i ho
            cases e'
            exact .inr ⟨_, rfl, g2.on hk ho⟩
          · cases e'
            refine .inl ⟨close_isNone, ?_⟩
            rw [close_opened g1]
            exact g2.rd

/-- Opening the last data unit. -/
theorem TidyAll.open {p : Profile} {gz : Gunzip} {fuel : Nat}
    {s s' : Session} {f : Fits} {r : Res Seen} (hg : Extends gz) (h : TidyAll p gz fuel false s f)
    (e : s.call p gz fuel (.getData 0) = some (r, s')) : TidyAll p gz fuel true s' f := by
  rcases h with h | ⟨f0, x, hs, hn, ht, hx, h⟩
  · exact .inl h
  rw [if_neg (by decide)] at h
  obtain ⟨g1, g2⟩ := h
  obtain ⟨-, k2, k3, -⟩ := next_ok_state hn
  have e := Option.some.inj e
  rw [close_none g1] at e
  have hin : TidyAll p gz fuel true s f := by
    refine .inr ⟨f0, x, hs, hn, ht, hx, ?_⟩
    rw [if_pos rfl]
    refine .inl ⟨g1, by rw [g2], by rw [g2]; omega, by rw [g2]; omega⟩
  unfold openData at e
  rw [hx] at e
  dsimp only [List.getElem?_cons_zero] at e
  rw [g2] at e
  cases ho : f.getData p x with
  | ok o =>
    rw [ho] at e
    cases e
    refine .inr ⟨f0, x, hs, hn, ht, rfl, ?_⟩
    rw [if_pos rfl]
    exact .inr ⟨o, rfl, ht.opens hg hn ho⟩
  | err o =>
    rw [ho] at e
    cases e
    exact hin
  | panic =>
    rw [ho] at e
    cases e
    exact hin

/-- A call other than `next` on the iterator. -/
theorem tidyAll_call {p : Profile} {gz : Gunzip} {fuel : Nat} {c : Call} {b : Bool} {s : Session} {f : Fits}
    (ha : s.At f) (h : TidyAll p gz fuel b s f) (hd : f.rd.data.length < 2 ^ 63) (h1 : c ≠ .hdu)
    (ho : OpensOnce false b [c]) (hx : Exists c s.opened = true) :
    EveryWithin (2 ^ 63) p fuel c s ∧ s.failsEvery p gz fuel c = false := by
  by_cases h2 : ∃ k, c = .getData k
  · obtain ⟨k, rfl⟩ := h2
    obtain ⟨rfl, rfl, -⟩ := ho
    have hn : s.opened = none := by
      rcases h with h | ⟨f0, x, hs, -, -, -, h⟩
      · exact (ha.first h).2.1
      · rw [if_neg (by decide)] at h
        exact h.1
    unfold EveryWithin Session.failsEvery AnyWithin Session.failsAny
    rw [hn]
    exact ⟨trivial, rfl⟩
  · have hk : c.keepsInside false = true := by
      cases c with
      | hdu => exact absurd rfl h1
      | getData k => exact absurd ⟨k, rfl⟩ h2
      | _ => exact ho.1
    cases hopen : s.opened with
    | none =>
      unfold EveryWithin Session.failsEvery AnyWithin Session.failsAny CallWithin Session.failsIn
      rw [hopen]
      cases c <;> first
        | exact absurd rfl h1
        | exact absurd ⟨_, rfl⟩ h2
        | exact ⟨trivial, rfl⟩
    | some o =>
      rw [hopen] at hx
      rcases h with h | ⟨f0, x, hs, hn, ht, -, h⟩
      · rw [(ha.first h).2.1] at hopen
        cases hopen
      cases b with
      | false =>
        rw [if_neg (by decide), hopen] at h
        cases h.1
      | true =>
        rw [if_pos rfl, hopen] at h
        rcases h with ⟨g, -⟩ | ⟨o', g, hst⟩
        · cases g
        cases g
        obtain ⟨-, -, k3, k4, -⟩ := next_ok_state hn
        have hc := ht.complete _ k4
        rw [← k3] at hc
        have other : (∀ it, o ≠ .tiles it) → Stays false p f.rd.data f.posStart f.numBytes o →
            EveryWithin (2 ^ 63) p fuel c s ∧ s.failsEvery p gz fuel c = false := by
          intro hno hst
          obtain ⟨g1, g2⟩ := stays_call (fuel := fuel) hopen hst hd (by omega) h1 h2 hk hx
          have e1 : EveryWithin (2 ^ 63) p fuel c s = AnyWithin (2 ^ 63) p fuel c s := by
            unfold EveryWithin
            rw [hopen]
            cases o <;> first
              | exact absurd rfl (hno _)
              | (cases c <;> rfl)
          have e2 : s.failsEvery p gz fuel c = s.failsAny p fuel c := by
            unfold Session.failsEvery
            rw [hopen]
            cases o <;> first
              | exact absurd rfl (hno _)
              | (cases c <;> rfl)
          rw [e1, e2]
          exact ⟨g1, g2⟩
        cases o with
        | tiles it =>
          have hw := TileStays.within hst hd (by omega)
          unfold EveryWithin Session.failsEvery
          rw [hopen]
          cases c with
          | hdu => exact absurd rfl h1
          | getData k => exact absurd ⟨_, rfl⟩ h2
          | next => exact hw
          | rowIter => exact ⟨trivial, rfl⟩
          | tableData => exact ⟨trivial, rfl⟩
          | _ => cases hx
        | image d => exact other (fun _ h => by cases h) hst
        | bytes d => exact other (fun _ h => by cases h) hst
        | table d => exact other (fun _ h => by cases h) hst
        | rows d => exact other (fun _ h => by cases h) hst

/-- A stream of bytes that is opened stays in the data unit. -/
theorem TidyAll.settled {p : Profile} {gz : Gunzip} {fuel : Nat} {b : Bool} {s : Session} {f : Fits} (ha : s.At f) (he : f.errored = false)
    (h : TidyAll p gz fuel b s f) : Spec.Settled s := by
  unfold Spec.Settled
  split
  · rename_i y hopen
    rcases h with h | ⟨f0, x, hs, hn, ht, -, h⟩
    · rw [(ha.first h).2.1] at hopen
      cases hopen
    cases b with
    | false =>
      rw [if_neg (by decide), hopen] at h
      cases h.1
    | true =>
      rw [if_pos rfl, hopen] at h
      rcases h with ⟨g, -⟩ | ⟨o', g, hst⟩
      · cases g
      cases g
      obtain ⟨-, -, k3, k4, -, k6⟩ := next_ok_state hn
      have hfit := ht.fits
      unfold nextHeader at hfit
      rw [k4, ← k3] at hfit
      obtain ⟨a1, a2, a3, a4, -, -⟩ := ha
      rw [close_opened hopen] at a1 a2 a3 a4
      obtain ⟨-, g2, g3⟩ := hst
      exact ⟨a1.trans k6, a4.trans he, by rw [show s.fits.posStart = f.posStart from a2]; exact g2, by
        rw [show s.fits.posStart = f.posStart from a2, show s.fits.numBytes = f.numBytes from a3]; exact g3, by
        rw [show s.fits.posStart = f.posStart from a2, show s.fits.numBytes = f.numBytes from a3]; exact hfit⟩
  · trivial

/-- Programs that keep to the data units. -/
theorem tidyAll_within {p : Profile} {gz : Gunzip} {fuel : Nat} (hg : Extends gz) (calls : List Call) {b : Bool}
    {s : Session} {f : Fits} (ha : s.At f) (hf : Fresh f) (he : f.errored = false) (h : TidyAll p gz fuel b s f)
    (hd : f.rd.data.length < 2 ^ 63) (h0 : f.start = true → f.rd.pos = 0)
    (ho : OpensOnce false b calls) (ht : ∀ n, ∀ x ∈ plainHdus p n f, TameAll p gz fuel f.rd.data x)
    (hx : Compiles p gz fuel calls s) :
    WithinEvery (2 ^ 63) p gz fuel calls s ∧ s.runEvery p gz fuel calls = untilNoHdu calls (s.run p gz fuel calls) := by
  induction calls generalizing b s f with
  | nil => exact ⟨trivial, rfl⟩
  | cons c cs ih =>
    have hready := h.ready ha
    by_cases h1 : c = .hdu
    · subst h1
      obtain ⟨e, hst, hr, hat⟩ := call_hdu (gz := gz) (fuel := fuel) ha hf he hready
      have hsame : (s.close.fits.next p) = f.next p := by
        have e2 := e
        unfold Session.call at e2
        rw [nextHdu_eq] at e2
        simp only [Option.some.injEq, Prod.mk.injEq, Session.mk.injEq] at e2
        obtain ⟨g1, g2, -⟩ := e2
        refine Prod.ext ?_ g2
        revert g1
        cases (s.close.fits.next p).1 with
        | none => cases (f.next p).1 with
          | none => exact fun _ => rfl
          | some y => cases y <;> exact fun g => by cases g
        | some x => cases x <;> (cases (f.next p).1 with
          | none => exact fun g => by cases g
          | some y => cases y <;> exact fun g => by cases g <;> rfl)
      have hpos := next_below (p := p) he hd h0 hr
      have hw : EveryWithin (2 ^ 63) p fuel .hdu s := by
        have hcw : CallWithin (2 ^ 63) p fuel .hdu s := by
          show (s.close.fits.next p).2.rd.pos < 2 ^ 63
          rw [hsame]
          exact hpos
        unfold EveryWithin AnyWithin
        generalize s.opened = o
        rcases o with _ | (_ | _ | _ | _ | _) <;> exact hcw
      have hfa : s.failsEvery p gz fuel .hdu = (match (f.next p).1 with | some (.ok _) => false | _ => true) := by
        have hfi : s.failsIn p fuel .hdu = (match (f.next p).1 with | some (.ok _) => false | _ => true) := by
          unfold Session.failsIn
          rw [hsame]
          rcases (f.next p).1 with _ | (_ | _ | _) <;> rfl
        unfold Session.failsEvery Session.failsAny
        generalize s.opened = o
        rcases o with _ | (_ | _ | _ | _ | _) <;> exact hfi
      have hdn := Fits.next_data (p := p) (f := f)
      cases hn : f.next p with
      | mk i f' =>
        rw [hn] at hat hst hdn e hfa
        have stop : (∀ y, i ≠ some (.ok y)) → WithinEvery (2 ^ 63) p gz fuel (.hdu :: cs) s ∧
            s.runEvery p gz fuel (.hdu :: cs) = untilNoHdu (.hdu :: cs) (s.run p gz fuel (.hdu :: cs)) := by
          intro hi
          have hfa : s.failsEvery p gz fuel .hdu = true := by
            rw [hfa]
            rcases i with _ | (y | y | _)
            · rfl
            · exact absurd rfl (hi y)
            · rfl
            · rfl
          refine ⟨⟨hw, fun r s' _ hx => by rw [hfa] at hx; cases hx⟩, ?_⟩
          unfold Session.runEvery Session.run
          rw [e]
          rcases i with _ | (y | y | _)
          · dsimp only [seenOf]
            rw [if_pos hfa]
            rfl
          · exact absurd rfl (hi y)
          · dsimp only [seenOf]
            rw [if_pos hfa]
            rfl
          · rfl
        rcases i with _ | (x | y | _)
        · exact stop fun y h => by cases h
        · obtain ⟨-, k2, k3, -, k5, k6⟩ := next_ok_state hn
          have hcol := fun m => plainHdus_succ m hn
          dsimp only [itemHdus] at hcol
          dsimp only at hdn
          have hti : TidyAll p gz fuel false ⟨f', x :: s.close.hdus, none⟩ f' := by
            refine .inr ⟨f, x, s.close.hdus, hn, ?_, rfl, ?_⟩
            · rw [hdn]
              exact ht 1 x (by rw [hcol 0]; exact List.mem_cons_self)
            · rw [if_neg (by decide)]
              exact ⟨rfl, rfl⟩
          have hat' := hat (x :: s.close.hdus)
          have hsess : ({ s.close with fits := f', hdus := x :: s.close.hdus } : Session) = ⟨f', x :: s.close.hdus, none⟩ := by
            have := close_isNone (s := s)
            dsimp only
            rw [this]
          rw [hsess] at hat'
          have e : s.call p gz fuel .hdu = some (.ok (.hdu (some x)), ⟨f', x :: s.close.hdus, none⟩) := by
            rw [e, ← hsess]
            rfl
          have hrec := ih (b := false) hat' (.inr ⟨k6, k5, k2.trans k3.symm⟩) k5 hti (by rw [hdn]; exact hd)
            (fun g => by rw [k6] at g; cases g) ho (fun n y hy => by
              rw [hdn]
              exact ht (n + 1) y (by rw [hcol n]; exact List.mem_cons_of_mem _ hy)) (hx.2 _ _ e)
          refine ⟨⟨hw, fun r s' e' _ => ?_⟩, ?_⟩
          · rw [e] at e'
            cases e'
            exact ⟨trivial, hrec.1⟩
          · unfold Session.runEvery Session.run
            rw [e]
            dsimp only
            rw [if_neg (by rw [hfa]; exact Bool.false_ne_true), hrec.2]
            rfl
        · exact stop fun y h => by cases h
        · exact stop fun y h => by cases h
    · have hoc : OpensOnce false b [c] := by
        cases c with
        | hdu => exact absurd rfl h1
        | getData k => exact ⟨ho.1, ho.2.1, trivial⟩
        | _ => exact ⟨ho.1, trivial⟩
      obtain ⟨hw, hfa⟩ := tidyAll_call (fuel := fuel) ha h hd h1 hoc hx.1
      have key : ∀ r s', s.call p gz fuel c = some (r, s') →
          Spec.Settled s' ∧ WithinEvery (2 ^ 63) p gz fuel cs s' ∧ s'.runEvery p gz fuel cs = untilNoHdu cs (s'.run p gz fuel cs) := by
        intro r s' e
        have hat := (call_at h1 ha e).1
        by_cases h2 : ∃ k, c = .getData k
        · obtain ⟨k, rfl⟩ := h2
          obtain ⟨rfl, rfl, ho⟩ := ho
          have hti := TidyAll.open hg h e
          exact ⟨hti.settled hat he, ih hat hf he hti hd h0 ho ht (hx.2 _ _ e)⟩
        · have h2 : ∀ k, c ≠ .getData k := fun k hk => h2 ⟨k, hk⟩
          have ho : c.keepsInside false = true ∧ OpensOnce false b cs := by
            cases c with
            | hdu => exact absurd rfl h1
            | getData k => exact absurd rfl (h2 k)
            | _ => exact ho
          have hti := h.use ha h1 h2 ho.1 e
          exact ⟨hti.settled hat he, ih hat hf he hti hd h0 ho.2 ht (hx.2 _ _ e)⟩
      refine ⟨⟨hw, fun r s' e _ => ⟨(key r s' e).1, (key r s' e).2.1⟩⟩, ?_⟩
      unfold Session.runEvery Session.run
      cases e : s.call p gz fuel c with
      | none => exact (untilNoHdu_nil c cs none).symm
      | some y =>
        obtain ⟨r, s'⟩ := y
        have := (key r s' e).2.2
        cases r with
        | panic => exact (untilNoHdu_nil c cs _).symm
        | ok v =>
          dsimp only
          rw [hfa, untilNoHdu_cons h1, if_neg (by decide), this]
        | err v =>
          dsimp only
          rw [hfa, untilNoHdu_cons h1, if_neg (by decide), this]

/-- Programs on complete files keep within what the readers agree on. -/
theorem tameAll_within {p : Profile} {gz : Gunzip} {fuel : Nat} {data : List UInt8} {calls : List Call} (hg : Extends gz)
    (ho : OpensOnce false false calls) (hx : Compiles p gz fuel calls (Session.new ⟨data, 0⟩)) (hd : data.length < 2 ^ 63)
    (ht : ∀ n, ∀ x ∈ plainHdus p n (Fits.fromReader ⟨data, 0⟩), TameAll p gz fuel data x) :
    WithinEvery (2 ^ 63) p gz fuel calls (Session.new ⟨data, 0⟩) ∧
      (Session.new ⟨data, 0⟩).runEvery p gz fuel calls =
        untilNoHdu calls ((Session.new ⟨data, 0⟩).run p gz fuel calls) :=
  tidyAll_within hg calls (f := Fits.fromReader ⟨data, 0⟩) ⟨rfl, rfl, rfl, rfl, rfl, fun _ => ⟨rfl, rfl, rfl⟩⟩
    (.inl rfl) rfl (.inl rfl) hd (fun _ => rfl) ho ht hx

/-- The data units of written HDUs are complete. -/
theorem Spec.ShownAs.tameAll {p : Profile} {gz : Gunzip} {fuel : Nat} {primary : Bool} {o : Nat} {u : WrittenHdu} {h : HDU}
    (hs : ShownAs primary o u h) (hd : u.body.Described u.heading) (hr : u.body.LegibleBy p gz fuel)
    (hz : h.dataSize p = .ok u.body.data.length) {data before after : List UInt8}
    (hf : data = before ++ u.body.data ++ after) (hb : before.length = h.dataOffset) (hl : data.length < 2 ^ 60) :
    TameAll p gz fuel data h := by
  by_cases ht : ¬ ∃ w, u.body = .tiles w
  · refine (hs.tame hd ?_ hz hf hb hl).all
    revert hr
    cases hbody : u.body with
    | tiles w => exact absurd ⟨w, hbody⟩ ht
    | _ => exact id
  obtain ⟨w, hw⟩ := Classical.not_not.1 ht
  have hlen : before.length + u.body.data.length ≤ data.length := by
    rw [hf]
    simp only [List.length_append]
    omega
  have hdrop : data.drop h.dataOffset = u.body.data ++ after := by
    rw [hf, ← hb, List.append_assoc, List.drop_left']
    rfl
  have hbody := hs.body
  have hval := hs.values
  rw [hw] at hd hr hz hlen hdrop hbody
  obtain ⟨x, rfl⟩ : ∃ x, h = .binTable x := by
    cases h with
    | binTable x => exact ⟨x, rfl⟩
    | _ => exact hbody.elim
  obtain ⟨z, hzi, -, hone, htt, hti, c1, c2, c3, c4, c5⟩ := tiles_written (data := data) hbody hval hd hr hdrop
  refine ⟨?_, ?_, ?_, ?_⟩
  · unfold nextHeader
    rw [hz]
    have := roundUp2880_lt (Body.tiles w).data.length
    show HDU.dataOffset (.binTable x) + roundUp2880 (Body.tiles w).data.length < _
    omega
  · intro n hn
    rw [hz] at hn
    cases hn
    omega
  · rintro n y - e hy
    cases e
    rw [hzi] at hy
    cases hy
  · rintro n y z' hn e hy
    cases e
    rw [hzi] at hy
    cases hy
    rw [hz] at hn
    cases hn
    obtain ⟨⟨g1, -, g2, g3, g4, g6, -⟩, -⟩ : _ ∧ _ := hbody
    obtain ⟨⟨k1, k2, k3, k4, -, k7⟩, -⟩ : _ ∧ _ := hd
    have hmain : w.table.main.length = x.header.xtension.naxis1 * x.header.xtension.naxis2 := by
      rw [main_length k7, g2, g3, Nat.mul_comm]
    have hdl : (Body.tiles w).data.length =
        x.header.xtension.naxis1 * x.header.xtension.naxis2 + w.table.gap.length + w.table.heap.length := by
      show (w.table.main ++ w.table.gap ++ w.table.heap).length = _
      rw [List.length_append, List.length_append, hmain]
    have hoff : HDU.dataOffset (.binTable x) = x.dataOffset := rfl
    have hlegal : Legal x.header.xtension data x.dataOffset :=
      ⟨by
        rw [g1]
        unfold WrittenTable.forms
        intro h0
        exact k2 (List.map_eq_nil_iff.1 h0), by rw [g1]; exact g2, by rw [g2]; exact k3, by omega, hl⟩
    exact ⟨hlegal, by omega, hone, c1, c2, c3, c4, w.scaling, w.tile, htt, hti, c5⟩

/-- All the HDUs of a written file are complete. -/
theorem file_tameAll {p : Profile} {gz : Gunzip} {fuel : Nat} {primary : Bool} {us : List WrittenHdu} (hf : File primary us)
    (hw : ∀ u ∈ us, u.body.Whole) (hr : ∀ u ∈ us, u.body.LegibleBy p gz fuel) (A data : List UInt8)
    (hdata : data = A ++ fileBytes us) (hb : data.length < 2 ^ 60) {f : Fits} (ha : About primary A.length data f) (n : Nat) :
    ∀ x ∈ plainHdus p n f, TameAll p gz fuel data x :=
  file_each hf hw A data hdata hb (fun u hu _ _ _ h1 h2 h3 _ _ h4 h5 => h1.tameAll h2 (hr u hu) h3 h4 h5 hb) ha n

/-! ## C96 with compressed images -/

/-- As `EveryReader`, for programs that may read compressed images. -/
def Spec.EveryReaderTiles (p : Profile) (gz : Gunzip) (fuel : Nat) (data : List UInt8) (calls : List Call)
    (seen : List (Option (Res Seen))) : Prop :=
  (∀ (cap : Nat) (plan : List ReadEvent), .fails ∉ plan →
    bufInput.runEvery bufSome p gz fuel calls (Input.Session.new (BufReader.new cap ⟨data, 0, plan⟩)) = seen ∧
    gzInput.runEvery bufSome p gz fuel calls (Input.Session.new (BufReader.new cap ⟨data, 0, plan⟩)) = seen) ∧
  cursorInput.runEvery cursorSome p gz fuel calls (Input.Session.new ⟨data, 0⟩) = seen ∧
  oldCursorInput.runEvery cursorSome p gz fuel calls (Input.Session.new ⟨data, 0⟩) = seen

/-- **C96, compressed images.** For a file whose data units are complete, compressed images included (those that C44 is
about), a program that opens each data unit at most once, when it is the last one returned, and uses it in order, sees the
same through every kind of reader, until it asks for an HDU and gets none. -/
theorem C96_tiles (p : Profile) (gz : Gunzip) (fuel : Nat) (data : List UInt8) (calls : List Call) (hg : Extends gz)
    (hd : data.length < 2 ^ 63) (ho : OpensOnce false false calls) (hx : Compiles p gz fuel calls (Session.new ⟨data, 0⟩))
    (ht : ∀ n, ∀ x ∈ plainHdus p n (Fits.fromReader ⟨data, 0⟩), TameAll p gz fuel data x) :
    EveryReaderTiles p gz fuel data calls (untilNoHdu calls ((Session.new ⟨data, 0⟩).run p gz fuel calls)) := by
  obtain ⟨hw, e⟩ := tameAll_within hg ho hx hd ht
  rw [← e]
  exact ⟨fun cap plan hp => ⟨C95_file p gz fuel data cap plan calls hd hp hw,
    C95_fitsfile p gz fuel data cap plan calls hd hp hw⟩, C95_cursor (2 ^ 63) p gz fuel data calls hw⟩

/-- **C96, read back with compressed images.** A file made of images, ASCII tables, binary tables and compressed images is
read back through every kind of reader as in memory: the HDUs, their items in order and the end of the file.  Logical
values are given as true (C72); the tables and compressed images are those of C72 and C76. -/
theorem C96_tiles_read_back (p : Profile) (us : List WrittenHdu) (hf : File true us) (hw : ∀ u ∈ us, u.body.Whole)
    (hs : (fileBytes us).length < 2 ^ 60) :
    ∃ hs, ShownAll true 0 us hs ∧ ∀ (gz : Gunzip) (fuel : Nat), Extends gz →
      (∀ u ∈ us, u.body.LegibleBy p gz fuel) → ∀ ks : List Nat, ks.length = us.length →
      EveryReaderTiles p gz fuel (fileBytes us) (visits ks) (givenVisits ks us hs) := by
  obtain ⟨hh, h1, h2⟩ := visit_given (p := p) hf hw [] hs
  refine ⟨hh, h1, fun gz fuel hg hr ks hk => ?_⟩
  have := C96_tiles p gz fuel (fileBytes us) (visits ks) hg (by omega) (visits_once ks false)
    (compiles_of _ (visits_exist ks) _)
    (fun n => file_tameAll hf hw hr [] _ rfl hs (f := Fits.fromReader ⟨fileBytes us, 0⟩) ⟨rfl, rfl, rfl, rfl⟩ n)
  have e := h2 gz fuel hr (.inl hg) (Session.new ⟨fileBytes us, 0⟩) ⟨rfl, rfl, rfl, rfl⟩ ks hk
  rw [e, untilNoHdu_visits] at this
  exact this

/-- **C96, read back with compressed images**, without false logical values: exactly as written. -/
theorem C96_tiles_as_written (p : Profile) (us : List WrittenHdu) (hf : File true us) (hw : ∀ u ∈ us, u.body.Whole)
    (hs : (fileBytes us).length < 2 ^ 60) :
    ∃ hs, ShownAll true 0 us hs ∧ ∀ (gz : Gunzip) (fuel : Nat), Extends gz →
      (∀ u ∈ us, u.body.ReadableBy p gz fuel) → ∀ ks : List Nat, ks.length = us.length →
      EveryReaderTiles p gz fuel (fileBytes us) (visits ks) (seenVisits ks us hs) := by
  obtain ⟨hh, h1, h2⟩ := C96_tiles_read_back p us hf hw hs
  refine ⟨hh, h1, fun gz fuel hg hr ks hk => ?_⟩
  have := h2 gz fuel hg (fun u hu => (hr u hu).legible) ks hk
  rw [givenVisits_eq hr] at this
  exact this

/-! ## C61 with compressed images -/

/-- The reader is ready each time. -/
theorem tidyAll_run {p : Profile} {gz : Gunzip} {fuel : Nat} (hg : Extends gz) (calls : List Call) {b : Bool}
    {s : Session} {f : Fits} {n : Nat} (ha : s.At f) (hf : Fresh f) (he : f.errored = false) (h : TidyAll p gz fuel b s f)
    (ho : OpensOnce false b calls) (ht : ∀ x ∈ plainHdus p n f, TameAll p gz fuel f.rd.data x)
    (hc : calls.countP Call.asksHdu ≤ (plainHdus p n f).length + 1) : ReadyRun p gz fuel calls s := by
  induction calls generalizing b s f n with
  | nil => trivial
  | cons c cs ih =>
    have hready := h.ready ha
    rw [List.countP_cons] at hc
    refine ⟨fun _ => hready, ?_⟩
    by_cases h1 : c = .hdu
    · subst h1
      have hpos : (if Call.asksHdu .hdu = true then 1 else 0 : Nat) = 1 := rfl
      rw [hpos] at hc
      obtain ⟨e, hst, -, hat⟩ := call_hdu (gz := gz) (fuel := fuel) ha hf he hready
      rw [e]
      have hd := Fits.next_data (p := p) (f := f)
      cases hn : f.next p with
      | mk i f' =>
        rw [hn] at hat hst hd
        have hempty : plainHdus p n f = [] → ∀ s' : Session, ReadyRun p gz fuel cs s' := by
          intro h0 s'
          rw [h0] at hc
          exact readyRun_noAsk cs s' (by simp only [List.length_nil] at hc; omega)
        have hcol := fun m => plainHdus_succ m hn
        cases i with
        | none =>
          refine hempty ?_ _
          cases n with
          | zero => rfl
          | succ m => exact hcol m
        | some r =>
          cases r with
          | panic => trivial
          | err x =>
            refine hempty ?_ _
            cases n with
            | zero => rfl
            | succ m =>
              rw [hcol m]
              dsimp only [itemHdus]
              cases m with
              | zero => rfl
              | succ k =>
                unfold plainHdus Fits.collect Fits.next
                rw [if_pos (Fits.next_err hn)]
                rfl
          | ok x =>
            obtain ⟨-, k2, k3, -, k5, k6⟩ := next_ok_state hn
            cases n with
            | zero => exact hempty rfl _
            | succ m =>
              have hcm := hcol m
              dsimp only [itemHdus] at hcm
              rw [hcm] at ht hc
              dsimp only at hd
              refine ih (b := false) (n := m) (hat _) (.inr ⟨k6, k5, k2.trans k3.symm⟩) k5
                (.inr ⟨f, x, s.close.hdus, hn, ?_, rfl, ?_⟩) ho ?_ ?_
              · rw [hd]
                exact ht x List.mem_cons_self
              · rw [if_neg (by decide)]
                exact ⟨close_isNone, rfl⟩
              · intro y hy
                rw [hd]
                exact ht y (List.mem_cons_of_mem _ hy)
              · rw [List.length_cons] at hc
                dsimp only
                omega
    · have hc' : cs.countP Call.asksHdu ≤ (plainHdus p n f).length + 1 := by omega
      cases e : s.call p gz fuel c with
      | none => trivial
      | some y =>
        obtain ⟨r, s'⟩ := y
        have hat := (call_at h1 ha e).1
        have key : ReadyRun p gz fuel cs s' := by
          by_cases h2 : ∃ k, c = .getData k
          · obtain ⟨k, rfl⟩ := h2
            obtain ⟨rfl, rfl, ho⟩ := ho
            exact ih hat hf he (TidyAll.open hg h e) ho ht hc'
          · have h2 : ∀ k, c ≠ .getData k := fun k hk => h2 ⟨k, hk⟩
            have ho : c.keepsInside false = true ∧ OpensOnce false b cs := by
              cases c with
              | hdu => exact absurd rfl h1
              | getData k => exact absurd rfl (h2 k)
              | _ => exact ho
            exact ih hat hf he (h.use ha h1 h2 ho.1 e) ho.2 ht hc'
        cases r with
        | ok v => exact key
        | err v => exact key
        | panic => trivial

/-- **C61 with compressed images.** As `C61_once_partial`, for files that may have compressed images (those that C44 is
about) and programs that do not seek rows. -/
theorem C61_tiles_partial {p : Profile} {gz : Gunzip} {fuel n : Nat} {data : List UInt8} {calls : List Call}
    (hg : Extends gz) (ho : OpensOnce false false calls)
    (ht : ∀ x ∈ plainHdus p n (Fits.fromReader ⟨data, 0⟩), TameAll p gz fuel data x)
    (hc : calls.countP Call.asksHdu ≤ (plainHdus p n (Fits.fromReader ⟨data, 0⟩)).length + 1) :
    hdusSeen ((Session.new ⟨data, 0⟩).run p gz fuel calls) =
      plainHdus p (asked calls ((Session.new ⟨data, 0⟩).run p gz fuel calls)) (Fits.fromReader ⟨data, 0⟩) :=
  C61_ready_partial (tidyAll_run hg calls (f := Fits.fromReader ⟨data, 0⟩) ⟨rfl, rfl, rfl, rfl, rfl, fun _ => ⟨rfl, rfl, rfl⟩⟩
    (.inl rfl) rfl (.inl rfl) ho ht hc)

/-! ### Examples -/

/-- An image, a compressed image of floats and a binary table. -/
def tilesSample : List WrittenHdu := [writtenPrimary, writtenTiles, writtenArrays]

theorem tilesSample_file : File true tilesSample :=
  .cons writtenPrimary_legal (by decide +kernel) (.cons writtenTiles_legal (by decide +kernel)
    (.last writtenArrays_legal (by decide +kernel)))

theorem tilesSample_readable (p : Profile) (gz : Gunzip) : ∀ u ∈ tilesSample, u.body.ReadableBy p gz 29 := by
  intro u hu
  simp only [tilesSample, List.mem_cons, List.not_mem_nil, or_false] at hu
  rcases hu with rfl | rfl | rfl
  · trivial
  · exact writtenTiles_readable p gz
  · exact ((writtenSample_readable writtenArrays (by simp [writtenSample])).by p gz 29).1

theorem tilesSample_whole : ∀ u ∈ tilesSample, u.body.Whole := by
  intro u hu
  exact (tilesSample_readable .checked (.of fun _ => []) u hu).whole

theorem tilesSample_small : (fileBytes tilesSample).length < 2 ^ 60 := by decide +kernel

theorem tilesSample_tame (p : Profile) (gz : Gunzip) (n : Nat) :
    ∀ x ∈ plainHdus p n (Fits.fromReader ⟨fileBytes tilesSample, 0⟩), TameAll p gz 29 (fileBytes tilesSample) x :=
  file_tameAll tilesSample_file tilesSample_whole (fun u hu => (tilesSample_readable p gz u hu).legible) [] _ rfl
    tilesSample_small (f := Fits.fromReader ⟨fileBytes tilesSample, 0⟩) ⟨rfl, rfl, rfl, rfl⟩ n

/-- Three pixels of the compressed image and two values of the table. -/
def tilesCalls : List Call := [.hdu, .getData 0, .next, .hdu, .getData 0, .next, .next, .next, .hdu, .getData 0, .next, .next, .hdu]

theorem tilesSample_compiles :
    checkCompiles .checked (.of fun _ => []) 29 tilesCalls (Session.new ⟨fileBytes tilesSample, 0⟩) = true := by
  decide +kernel

/-- The hypotheses of `C96_tiles` hold for it. -/
example : EveryReaderTiles .checked (.of fun _ => []) 29 (fileBytes tilesSample) tilesCalls
    (untilNoHdu tilesCalls ((Session.new ⟨fileBytes tilesSample, 0⟩).run .checked (.of fun _ => []) 29 tilesCalls)) :=
  C96_tiles .checked _ 29 _ _ (fun _ _ => List.prefix_refl _) (Nat.lt_of_lt_of_le tilesSample_small (by decide))
    ⟨rfl, rfl, rfl, rfl, rfl, rfl, rfl, rfl, rfl, rfl, rfl, rfl, trivial⟩ (checkCompiles_sound tilesSample_compiles)
    (tilesSample_tame .checked _)

/-- All the thirteen results are there, the last being the end of the file. -/
theorem tilesSample_seen : (untilNoHdu tilesCalls
      ((Session.new ⟨fileBytes tilesSample, 0⟩).run .checked (.of fun _ => []) 29 tilesCalls)).length = 13 := by
  decide +kernel

example : ∃ hs, ∀ cap plan, .fails ∉ plan →
    bufInput.runEvery bufSome .checked (.of fun _ => []) 29 (visits [3, 4, 2])
      (Input.Session.new (BufReader.new cap ⟨fileBytes tilesSample, 0, plan⟩)) = seenVisits [3, 4, 2] tilesSample hs := by
  obtain ⟨hs, -, h⟩ := C96_tiles_as_written .checked tilesSample tilesSample_file tilesSample_whole tilesSample_small
  exact ⟨hs, fun cap plan hp => ((h _ 29 (fun _ _ => List.prefix_refl _) (tilesSample_readable _ _) [3, 4, 2] rfl).1 cap plan hp).1⟩

theorem tilesSample_hdus : (plainHdus .checked 3 (Fits.fromReader ⟨fileBytes tilesSample, 0⟩)).length = 3 := by
  decide +kernel

/-- The hypotheses of `C61_tiles_partial` hold for it. -/
example : hdusSeen ((Session.new ⟨fileBytes tilesSample, 0⟩).run .checked (.of fun _ => []) 29 tilesCalls) =
    plainHdus .checked (asked tilesCalls ((Session.new ⟨fileBytes tilesSample, 0⟩).run .checked (.of fun _ => []) 29 tilesCalls))
      (Fits.fromReader ⟨fileBytes tilesSample, 0⟩) :=
  C61_tiles_partial (n := 3) (fun _ _ => List.prefix_refl _) ⟨rfl, rfl, rfl, rfl, rfl, rfl, rfl, rfl, rfl, rfl, rfl, rfl, trivial⟩
    (tilesSample_tame .checked _ 3) (by rw [tilesSample_hdus]; decide)

end Fitsrs

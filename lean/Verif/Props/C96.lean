import Verif.Lemmas.InputInside
import Verif.Props.C71_C72
/-
C96: a well-formed file is read back as written through any kind of reader.
-/

namespace Fitsrs
open Spec

/-- The call exists for what is opened (programs with other calls do not compile); `raw_bytes` is for readers in memory. -/
def Spec.Exists : Call → Option OpenUnit → Bool
  | .hdu, _ | .getData _, _ | .next, _ => true
  | _, none => true
  | .readValue _, some (.image _) => true
  | .seekRow _, some (.table _) | .select _, some (.table _) | .rowIter, some (.table _) | .bytes, some (.table _) => true
  | .tableData, some (.rows _) | .rowIter, some (.tiles _) | .tableData, some (.tiles _) => true
  | _, _ => false

/-- All the calls of a program exist. -/
def Spec.Compiles (p : Profile) (gz : Gunzip) (fuel : Nat) : List Call → Session → Prop
  | [], _ => True
  | c :: cs, s => Exists c s.opened = true ∧ ∀ r s', s.call p gz fuel c = some (r, s') → Compiles p gz fuel cs s'

/-- What a program sees, up to the first time it asks for an HDU and gets none. -/
def Spec.untilNoHdu : List Call → List (Option (Res Seen)) → List (Option (Res Seen))
  | .hdu :: cs, some (.ok (.hdu (some h))) :: xs => some (.ok (.hdu (some h))) :: untilNoHdu cs xs
  | .hdu :: _, x :: _ => [x]
  | _ :: cs, x :: xs => x :: untilNoHdu cs xs
  | _, _ => []

open Session

/-- A call on what is opened. -/
theorem stays_call {seek : Bool} {p : Profile} {fuel : Nat} {c : Call} {s : Session} {o : OpenUnit} {data : List UInt8}
    {start n : Nat} (hopen : s.opened = some o) (hst : Stays seek p data start n o) (hd : data.length < 2 ^ 63)
    (hn : start + n < 2 ^ 63) (h1 : c ≠ .hdu) (h2 : ¬ ∃ k, c = .getData k) (hk : c.keepsInside seek = true)
    (hx : Exists c (some o) = true) : AnyWithin (2 ^ 63) p fuel c s ∧ s.failsAny p fuel c = false := by
  have key : ∀ prog, o.detached.useP p fuel c = some prog → prog.fails o.rd = false ∧ prog.Below (2 ^ 63) o.rd :=
    fun prog hp => hst.useP hd hn hk hp
  have done : (o.detached.useP p fuel c).isSome = true → (∀ y, o ≠ .bytes y) → (c = .bytes → ∀ y, o ≠ .table y) →
      AnyWithin (2 ^ 63) p fuel c s ∧ s.failsAny p fuel c = false := by
    intro hsome hb hb'
    obtain ⟨prog, hp⟩ := Option.isSome_iff_exists.1 hsome
    obtain ⟨k5, k6⟩ := key prog hp
    have e1 : AnyWithin (2 ^ 63) p fuel c s = UnitWithin (2 ^ 63) p fuel c (some o) := by
      unfold AnyWithin CallWithin
      rw [hopen]
      cases c <;> first
        | exact absurd rfl h1
        | exact absurd ⟨_, rfl⟩ h2
        | (cases o <;> first
          | rfl
          | exact absurd rfl (hb _)
          | exact absurd rfl (hb' rfl _))
    have e2 : s.failsAny p fuel c = prog.fails o.rd := by
      unfold Session.failsAny Session.failsIn
      rw [hopen]
      cases c <;> first
        | exact absurd rfl h1
        | exact absurd ⟨_, rfl⟩ h2
        | (cases o <;> first
          | (dsimp only; rw [hp])
          | exact absurd rfl (hb _)
          | exact absurd rfl (hb' rfl _))
    rw [e1, e2]
    exact ⟨⟨prog, hp, k6⟩, k5⟩
  cases o with
  | tiles t => exact hst.elim
  | bytes y =>
    cases c <;> first
      | exact absurd rfl h1
      | exact absurd ⟨_, rfl⟩ h2
      | (unfold AnyWithin Session.failsAny; rw [hopen]; exact ⟨trivial, rfl⟩)
      | cases hx
  | image d =>
    cases c <;> first
      | exact absurd rfl h1
      | exact absurd ⟨_, rfl⟩ h2
      | exact done rfl (fun y h => by cases h) (fun h => by cases h)
      | cases hx
  | table t =>
    cases c <;> first
      | exact absurd rfl h1
      | exact absurd ⟨_, rfl⟩ h2
      | (unfold AnyWithin Session.failsAny; rw [hopen]; exact ⟨trivial, rfl⟩)
      | exact done rfl (fun y h => by cases h) (fun h => by cases h)
      | cases hx
      | cases hk
  | rows t =>
    cases c <;> first
      | exact absurd rfl h1
      | exact absurd ⟨_, rfl⟩ h2
      | exact done rfl (fun y h => by cases h) (fun h => by cases h)
      | cases hx

/-- A call other than `next` on the iterator. -/
theorem tidy_call {seek : Bool} {p : Profile} {fuel : Nat} {c : Call} {b : Bool} {s : Session} {f : Fits}
    (ha : s.At f) (h : Tidy seek p b s f) (hd : f.rd.data.length < 2 ^ 63) (h1 : c ≠ .hdu)
    (ho : OpensOnce seek b [c]) (hx : Exists c s.opened = true) :
    AnyWithin (2 ^ 63) p fuel c s ∧ s.failsAny p fuel c = false := by
  by_cases h2 : ∃ k, c = .getData k
  · obtain ⟨k, rfl⟩ := h2
    obtain ⟨rfl, rfl, -⟩ := ho
    have hn : s.opened = none := by
      rcases h with h | ⟨f0, x, hs, -, -, -, h⟩
      · exact (ha.first h).2.1
      · rw [if_neg (by decide)] at h
        exact h.1
    unfold AnyWithin Session.failsAny
    rw [hn]
    exact ⟨trivial, rfl⟩
  · have hk : c.keepsInside seek = true := by
      cases c with
      | hdu => exact absurd rfl h1
      | getData k => exact absurd ⟨k, rfl⟩ h2
      | _ => exact ho.1
    cases hopen : s.opened with
    | none =>
      unfold AnyWithin Session.failsAny CallWithin Session.failsIn
      rw [hopen]
      cases c <;> first
        | exact absurd rfl h1
        | exact absurd ⟨_, rfl⟩ h2
        | exact ⟨trivial, rfl⟩
    | some o =>
      rw [hopen] at hx
      rcases h with h | ⟨f0, x, hs, hn, ht, -, h⟩
      · rw [(ha.first h).2.1] at hopen
        cases hopen
      cases b with
      | false =>
        rw [if_neg (by decide), hopen] at h
        cases h.1
      | true =>
        rw [if_pos rfl, hopen] at h
        rcases h with ⟨g, -⟩ | ⟨o', g, hst⟩
        · cases g
        cases g
        obtain ⟨-, -, k3, k4, -⟩ := next_ok_state hn
        have hc := ht.complete _ k4
        rw [← k3] at hc
        exact stays_call hopen hst hd (by omega) h1 h2 hk hx

/-- A stream of bytes that is opened stays in the data unit. -/
theorem Tidy.settled {seek : Bool} {p : Profile} {b : Bool} {s : Session} {f : Fits} (ha : s.At f) (he : f.errored = false)
    (h : Tidy seek p b s f) : Spec.Settled s := by
  unfold Spec.Settled
  split
  · rename_i y hopen
    rcases h with h | ⟨f0, x, hs, hn, ht, -, h⟩
    · rw [(ha.first h).2.1] at hopen
      cases hopen
    cases b with
    | false =>
      rw [if_neg (by decide), hopen] at h
      cases h.1
    | true =>
      rw [if_pos rfl, hopen] at h
      rcases h with ⟨g, -⟩ | ⟨o', g, hst⟩
      · cases g
      cases g
      obtain ⟨-, -, k3, k4, -, k6⟩ := next_ok_state hn
      have hfit := ht.fits
      unfold nextHeader at hfit
      rw [k4, ← k3] at hfit
      obtain ⟨a1, a2, a3, a4, -, -⟩ := ha
      rw [close_opened hopen] at a1 a2 a3 a4
      obtain ⟨-, g2, g3⟩ := hst
      exact ⟨a1.trans k6, a4.trans he, by rw [show s.fits.posStart = f.posStart from a2]; exact g2, by
        rw [show s.fits.posStart = f.posStart from a2, show s.fits.numBytes = f.numBytes from a3]; exact g3, by
        rw [show s.fits.posStart = f.posStart from a2, show s.fits.numBytes = f.numBytes from a3]; exact hfit⟩
  · trivial

theorem untilNoHdu_cons {c : Call} (h : c ≠ .hdu) (cs : List Call) (x : Option (Res Seen)) (xs : List (Option (Res Seen))) :
    untilNoHdu (c :: cs) (x :: xs) = x :: untilNoHdu cs xs := by
  cases c <;> first | exact absurd rfl h | rfl

theorem untilNoHdu_none (cs : List Call) : untilNoHdu cs [] = [] := by
  rcases cs with _ | ⟨c, cs⟩
  · rfl
  · cases c <;> rfl

theorem untilNoHdu_nil (c : Call) (cs : List Call) (x : Option (Res Seen)) : untilNoHdu (c :: cs) [x] = [x] := by
  by_cases h : c = .hdu
  · subst h
    rcases x with _ | (v | e | _)
    · rfl
    · cases v with
      | hdu y =>
        cases y with
        | none => rfl
        | some y =>
          show _ :: untilNoHdu cs [] = _
          rw [untilNoHdu_none]
      | _ => rfl
    · rfl
    · rfl
  · rw [untilNoHdu_cons h, untilNoHdu_none]

/-- Programs that keep to the data units. -/
theorem tidy_within {seek : Bool} {p : Profile} {gz : Gunzip} {fuel : Nat} (calls : List Call) {b : Bool}
    {s : Session} {f : Fits} (ha : s.At f) (hf : Fresh f) (he : f.errored = false) (h : Tidy seek p b s f)
    (hd : f.rd.data.length < 2 ^ 63) (h0 : f.start = true → f.rd.pos = 0)
    (ho : OpensOnce seek b calls) (ht : ∀ n, ∀ x ∈ plainHdus p n f, Tame seek p f.rd.data x)
    (hx : Compiles p gz fuel calls s) :
    WithinAny (2 ^ 63) p gz fuel calls s ∧ s.runAll p gz fuel calls = untilNoHdu calls (s.run p gz fuel calls) := by
  induction calls generalizing b s f with
  | nil => exact ⟨trivial, rfl⟩
  | cons c cs ih =>
    have hready := h.ready ha
    by_cases h1 : c = .hdu
    · subst h1
      obtain ⟨e, hst, hr, hat⟩ := call_hdu (gz := gz) (fuel := fuel) ha hf he hready
      have hsame : (s.close.fits.next p) = f.next p := by
        have e2 := e
        unfold Session.call at e2
        rw [nextHdu_eq] at e2
        simp only [Option.some.injEq, Prod.mk.injEq, Session.mk.injEq] at e2
        obtain ⟨g1, g2, -⟩ := e2
        refine Prod.ext ?_ g2
        revert g1
        cases (s.close.fits.next p).1 with
        | none => cases (f.next p).1 with
          | none => exact fun _ => rfl
          | some y => cases y <;> exact fun g => by cases g
        | some x => cases x <;> (cases (f.next p).1 with
          | none => exact fun g => by cases g
          | some y => cases y <;> exact fun g => by cases g <;> rfl)
      have hpos := next_below (p := p) he hd h0 hr
      have hw : AnyWithin (2 ^ 63) p fuel .hdu s := by
        have hcw : CallWithin (2 ^ 63) p fuel .hdu s := by
          show (s.close.fits.next p).2.rd.pos < 2 ^ 63
          rw [hsame]
          exact hpos
        unfold AnyWithin
        split <;> first | exact hcw | skip
        all_goals simp_all
      have hfa : s.failsAny p fuel .hdu = (match (f.next p).1 with | some (.ok _) => false | _ => true) := by
        unfold Session.failsAny Session.failsIn
        rw [hsame]
        split <;> first | rfl | skip
        all_goals simp_all
      have hdn := Fits.next_data (p := p) (f := f)
      cases hn : f.next p with
      | mk i f' =>
        rw [hn] at hat hst hdn e hfa
        have stop : (∀ y, i ≠ some (.ok y)) → WithinAny (2 ^ 63) p gz fuel (.hdu :: cs) s ∧
            s.runAll p gz fuel (.hdu :: cs) = untilNoHdu (.hdu :: cs) (s.run p gz fuel (.hdu :: cs)) := by
          intro hi
          have hfa : s.failsAny p fuel .hdu = true := by
            rw [hfa]
            rcases i with _ | (y | y | _)
            · rfl
            · exact absurd rfl (hi y)
            · rfl
            · rfl
          refine ⟨⟨hw, fun r s' _ hx => by rw [hfa] at hx; cases hx⟩, ?_⟩
          unfold Session.runAll Session.run
          rw [e]
          rcases i with _ | (y | y | _)
          · dsimp only [seenOf]
            rw [if_pos hfa]
            rfl
          · exact absurd rfl (hi y)
          · dsimp only [seenOf]
            rw [if_pos hfa]
            rfl
          · rfl
        rcases i with _ | (x | y | _)
        · exact stop fun y h => by cases h
        · obtain ⟨-, k2, k3, -, k5, k6⟩ := next_ok_state hn
          have hcol := fun m => plainHdus_succ m hn
          dsimp only [itemHdus] at hcol
          dsimp only at hdn
          have hti : Tidy seek p false ⟨f', x :: s.close.hdus, none⟩ f' := by
            refine .inr ⟨f, x, s.close.hdus, hn, ?_, rfl, ?_⟩
            · rw [hdn]
              exact ht 1 x (by rw [hcol 0]; exact List.mem_cons_self)
            · rw [if_neg (by decide)]
              exact ⟨rfl, rfl⟩
          have hat' := hat (x :: s.close.hdus)
          have hsess : ({ s.close with fits := f', hdus := x :: s.close.hdus } : Session) = ⟨f', x :: s.close.hdus, none⟩ := by
            have := close_isNone (s := s)
            dsimp only
            rw [this]
          rw [hsess] at hat'
          have e : s.call p gz fuel .hdu = some (.ok (.hdu (some x)), ⟨f', x :: s.close.hdus, none⟩) := by
            rw [e, ← hsess]
            rfl
          have hrec := ih (b := false) hat' (.inr ⟨k6, k5, k2.trans k3.symm⟩) k5 hti (by rw [hdn]; exact hd)
            (fun g => by rw [k6] at g; cases g) ho (fun n y hy => by
              rw [hdn]
              exact ht (n + 1) y (by rw [hcol n]; exact List.mem_cons_of_mem _ hy)) (hx.2 _ _ e)
          refine ⟨⟨hw, fun r s' e' _ => ?_⟩, ?_⟩
          · rw [e] at e'
            cases e'
            exact ⟨trivial, hrec.1⟩
          · unfold Session.runAll Session.run
            rw [e]
            dsimp only
            rw [if_neg (by rw [hfa]; exact Bool.false_ne_true), hrec.2]
            rfl
        · exact stop fun y h => by cases h
        · exact stop fun y h => by cases h
    · have hoc : OpensOnce seek b [c] := by
        cases c with
        | hdu => exact absurd rfl h1
        | getData k => exact ⟨ho.1, ho.2.1, trivial⟩
        | _ => exact ⟨ho.1, trivial⟩
      obtain ⟨hw, hfa⟩ := tidy_call (fuel := fuel) ha h hd h1 hoc hx.1
      have key : ∀ r s', s.call p gz fuel c = some (r, s') →
          Spec.Settled s' ∧ WithinAny (2 ^ 63) p gz fuel cs s' ∧ s'.runAll p gz fuel cs = untilNoHdu cs (s'.run p gz fuel cs) := by
        intro r s' e
        have hat := (call_at h1 ha e).1
        by_cases h2 : ∃ k, c = .getData k
        · obtain ⟨k, rfl⟩ := h2
          obtain ⟨rfl, rfl, ho⟩ := ho
          have hti := h.open e
          exact ⟨hti.settled hat he, ih hat hf he hti hd h0 ho ht (hx.2 _ _ e)⟩
        · have h2 : ∀ k, c ≠ .getData k := fun k hk => h2 ⟨k, hk⟩
          have ho : c.keepsInside seek = true ∧ OpensOnce seek b cs := by
            cases c with
            | hdu => exact absurd rfl h1
            | getData k => exact absurd rfl (h2 k)
            | _ => exact ho
          have hti := h.use ha h1 h2 ho.1 e
          exact ⟨hti.settled hat he, ih hat hf he hti hd h0 ho.2 ht (hx.2 _ _ e)⟩
      refine ⟨⟨hw, fun r s' e _ => ⟨(key r s' e).1, (key r s' e).2.1⟩⟩, ?_⟩
      unfold Session.runAll Session.run
      cases e : s.call p gz fuel c with
      | none => exact (untilNoHdu_nil c cs none).symm
      | some y =>
        obtain ⟨r, s'⟩ := y
        have := (key r s' e).2.2
        cases r with
        | panic => exact (untilNoHdu_nil c cs _).symm
        | ok v =>
          dsimp only
          rw [hfa, untilNoHdu_cons h1, if_neg (by decide), this]
        | err v =>
          dsimp only
          rw [hfa, untilNoHdu_cons h1, if_neg (by decide), this]

/-- Programs on complete files keep within what the readers agree on. -/
theorem tame_within {seek : Bool} {p : Profile} {gz : Gunzip} {fuel : Nat} {data : List UInt8} {calls : List Call}
    (ho : OpensOnce seek false calls) (hx : Compiles p gz fuel calls (Session.new ⟨data, 0⟩)) (hd : data.length < 2 ^ 63)
    (ht : ∀ n, ∀ x ∈ plainHdus p n (Fits.fromReader ⟨data, 0⟩), Tame seek p data x) :
    WithinAny (2 ^ 63) p gz fuel calls (Session.new ⟨data, 0⟩) ∧
      (Session.new ⟨data, 0⟩).runAll p gz fuel calls =
        untilNoHdu calls ((Session.new ⟨data, 0⟩).run p gz fuel calls) :=
  tidy_within calls (f := Fits.fromReader ⟨data, 0⟩) ⟨rfl, rfl, rfl, rfl, rfl, fun _ => ⟨rfl, rfl, rfl⟩⟩
    (.inl rfl) rfl (.inl rfl) hd (fun _ => rfl) ho ht hx

/-! ### Written files -/

/-- The data units of written HDUs are complete. -/
theorem Spec.ShownAs.tame {p : Profile} {primary : Bool} {o : Nat} {u : WrittenHdu} {h : HDU} (hs : ShownAs primary o u h)
    (hd : u.body.Described u.heading) (hr : u.body.Legible) (hz : h.dataSize p = .ok u.body.data.length)
    {data before after : List UInt8} (hf : data = before ++ u.body.data ++ after) (hb : before.length = h.dataOffset)
    (hl : data.length < 2 ^ 60) : Tame false p data h := by
  have hlen : before.length + u.body.data.length ≤ data.length := by
    rw [hf]
    simp only [List.length_append]
    omega
  have hdrop : data.drop h.dataOffset = u.body.data ++ after := by
    rw [hf, ← hb, List.append_assoc, List.drop_left']
    rfl
  refine ⟨?_, ?_, ?_⟩
  · unfold nextHeader
    rw [hz]
    have := roundUp2880_lt u.body.data.length
    show h.dataOffset + roundUp2880 u.body.data.length < _
    omega
  · intro n hn
    rw [hz] at hn
    cases hn
    omega
  · rintro n x hn rfl
    rw [hz] at hn
    cases hn
    obtain ⟨hh, hfill, body, dfill⟩ := u
    have hbody := hs.body
    dsimp only at *
    cases body with
    | image b axes ps => exact hbody.elim
    | ascii w r fl text => exact hbody.elim
    | tiles w => exact hr.elim
    | table tb =>
      obtain ⟨⟨g1, -, g2, g3, g4, g6, -⟩, g5⟩ : _ ∧ _ := hbody
      obtain ⟨⟨k1, k2, k3, k4, -, k7⟩, -⟩ : _ ∧ _ := hd
      have hmain : tb.main.length = x.header.xtension.naxis1 * x.header.xtension.naxis2 := by
        rw [main_length k7, g2, g3, Nat.mul_comm]
      have hdl : (Body.table tb).data.length =
          x.header.xtension.naxis1 * x.header.xtension.naxis2 + tb.gap.length + tb.heap.length := by
        show (tb.main ++ tb.gap ++ tb.heap).length = _
        rw [List.length_append, List.length_append, hmain]
      have hoff : HDU.dataOffset (.binTable x) = x.dataOffset := rfl
      have hlegal : Legal x.header.xtension data x.dataOffset :=
        ⟨by
          rw [g1]
          unfold WrittenTable.forms
          intro h0
          exact k2 (List.map_eq_nil_iff.1 h0), by rw [g1]; exact g2, by rw [g2]; exact k3, by omega, hl⟩
      exact ⟨g5, hlegal, by omega, fun r hr' c hc => by
          rw [← hoff, hdrop, List.take_left' rfl]
          exact cellIn_written k7 hr g1 g2 g3 g6 hr' hc, fun h => by simp at h⟩

/-- A property of all the HDUs of a written file. -/
theorem file_each {p : Profile} {P : HDU → Prop} {primary : Bool} {us : List WrittenHdu} (hf : File primary us)
    (hw : ∀ u ∈ us, u.body.Whole) (A data : List UInt8) (hdata : data = A ++ fileBytes us) (hb : data.length < 2 ^ 60)
    (hP : ∀ u ∈ us, ∀ primary o h, ShownAs primary o u h → u.body.Described u.heading → h.dataSize p = .ok u.body.data.length →
      ∀ before after, data = before ++ u.body.data ++ after → before.length = h.dataOffset → P h)
    {f : Fits} (ha : About primary A.length data f) (n : Nat) : ∀ x ∈ plainHdus p n f, P x := by
  have hsize : ∀ (u : WrittenHdu) (B C : List UInt8), data = B ++ u.segment.bytes ++ C →
      data.length = B.length + u.segment.header.length + u.body.data.length + u.dataFill.length + C.length := by
    intro u B C h
    rw [h]
    simp only [Segment.bytes, List.length_append]
    rw [show u.segment.data = u.body.data from rfl, show u.segment.dataFill = u.dataFill from rfl]
    omega
  have one : ∀ {primary : Bool} {u : WrittenHdu} {B C : List UInt8} {f : Fits}, (∀ primary o h, ShownAs primary o u h → u.body.Described u.heading →
      h.dataSize p = .ok u.body.data.length → ∀ before after, data = before ++ u.body.data ++ after → before.length = h.dataOffset → P h) →
      u.Legal primary → u.body.Whole →
      data = B ++ u.segment.bytes ++ C → About primary B.length data f →
      ∃ h f', f.next p = (some (.ok h), f') ∧ P h ∧ f'.rd = ⟨data, h.dataOffset⟩ ∧ f'.start = false ∧
        f'.errored = false ∧ f'.posStart = h.dataOffset ∧ f'.numBytes = u.body.data.length ∧
        h.dataOffset = B.length + u.segment.header.length := by
    intro primary u B C f hu hl hr hd hs
    have := hsize u B C hd
    obtain ⟨h, hdsc, hsh⟩ := hl.describes (p := p) hr (by omega) B.length
    obtain ⟨f', e, g1, g2, g3, g4, g5⟩ := next_about hs hd hl.headerOk hdsc hb
    refine ⟨h, f', e, hu _ _ h hsh hl.described hdsc.size (B ++ u.segment.header) (u.dataFill ++ C) ?_
      (by rw [hdsc.offset, List.length_append]), g1, g2, g3, g4, g5, hdsc.offset⟩
    rw [hd]
    show B ++ (u.segment.header ++ u.body.data ++ u.dataFill) ++ C = _
    simp only [List.append_assoc]
  induction hf generalizing A f n with
  | @last primary u hl hfill =>
    have hd : data = A ++ u.segment.bytes ++ [] := by rw [hdata]; simp [fileBytes]
    obtain ⟨h, f', e, h1, h2, h3, h4, h5, h6, h7⟩ := one (hP u (by simp)) hl (hw u (by simp)) hd ha
    cases n with
    | zero => intro x hx; cases hx
    | succ n =>
      intro x hx
      rw [plainHdus_succ n e] at hx
      rcases List.mem_cons.1 hx with rfl | hx
      · exact h1
      · have hlen := hsize u A [] hd
        rw [List.length_nil] at hlen
        have hru := roundUp2880_lt u.body.data.length
        have hend := Fits.next_eof (p := p) h3 h4 (by rw [h2, h5]; exact Nat.le_refl _) (by rw [h2, h5]; exact Nat.le_add_right ..)
          (by rw [h5, h6]; omega) (by rw [h2, h5, h6]; dsimp only; omega)
        cases n with
        | zero => cases hx
        | succ n =>
          rw [plainHdus_succ n hend] at hx
          cases hx
  | @cons primary u us hl hfill hrest ih =>
    have hd : data = A ++ u.segment.bytes ++ fileBytes us := by rw [hdata]; simp [fileBytes]
    obtain ⟨h, f', e, h1, h2, h3, h4, h5, h6, h7⟩ := one (hP u (by simp)) hl (hw u (by simp)) hd ha
    cases n with
    | zero => intro x hx; cases hx
    | succ n =>
      intro x hx
      rw [plainHdus_succ n e] at hx
      rcases List.mem_cons.1 hx with rfl | hx
      · exact h1
      · refine ih (fun v hv => hw v (by simp [hv])) (A ++ u.segment.bytes) hd (fun v hv => hP v (by simp [hv])) (f := f') ?_ n x hx
        refine ⟨by rw [h2], h4, h3, by rw [h2, h5]; exact Nat.le_refl _, by rw [h2, h5]; exact Nat.le_add_right .., ?_⟩
        rw [h5, h6, h7, List.length_append]
        simp only [Segment.bytes, List.length_append]
        rw [show u.segment.data = u.body.data from rfl, show u.segment.dataFill = u.dataFill from rfl]
        omega

/-- All the HDUs of a written file are complete. -/
theorem file_tame {p : Profile} {primary : Bool} {us : List WrittenHdu} (hf : File primary us)
    (hw : ∀ u ∈ us, u.body.Legible) (A data : List UInt8) (hdata : data = A ++ fileBytes us) (hb : data.length < 2 ^ 60)
    {f : Fits} (ha : About primary A.length data f) (n : Nat) : ∀ x ∈ plainHdus p n f, Tame false p data x :=
  file_each hf (fun u hu => (hw u hu).whole) A data hdata hb
    (fun u hu _ _ _ h1 h2 h3 _ _ h4 h5 => h1.tame h2 (hw u hu) h3 h4 h5 hb) ha n

/-- Calls that exist for everything. -/
theorem compiles_of {p : Profile} {gz : Gunzip} {fuel : Nat} (calls : List Call) (h : ∀ c ∈ calls, ∀ o, Exists c o = true)
    (s : Session) : Compiles p gz fuel calls s := by
  induction calls generalizing s with
  | nil => trivial
  | cons c cs ih => exact ⟨h c (List.mem_cons_self ..) _, fun r s' _ => ih (fun x hx => h x (List.mem_cons_of_mem _ hx)) s'⟩

theorem visits_exist (ks : List Nat) : ∀ c ∈ visits ks, ∀ o, Exists c o = true := by
  induction ks with
  | nil =>
    intro c hc o
    rw [visits, List.mem_singleton] at hc
    subst hc
    rfl
  | cons k ks ih =>
    intro c hc o
    simp only [visits, List.mem_cons, List.mem_append, List.mem_replicate] at hc
    rcases hc with rfl | rfl | ⟨-, rfl⟩ | hc
    · rfl
    · rfl
    · rfl
    · exact ih c hc o

theorem visits_once (ks : List Nat) (b : Bool) : OpensOnce false b (visits ks) := by
  induction ks generalizing b with
  | nil => trivial
  | cons k ks ih =>
    refine ⟨rfl, rfl, ?_⟩
    generalize true = b
    induction k with
    | zero => exact ih b
    | succ k ihk => exact ⟨rfl, ihk⟩

theorem untilNoHdu_visits (ks : List Nat) (us : List WrittenHdu) (hs : List HDU) :
    untilNoHdu (visits ks) (givenVisits ks us hs) = givenVisits ks us hs := by
  induction ks generalizing us hs with
  | nil => rfl
  | cons k ks ih =>
    have items : ∀ (l : List Nat) (g : Nat → Seen), untilNoHdu (List.replicate l.length .next ++ visits ks)
        (l.map (fun i => some (.ok (g i))) ++ givenVisits ks us.tail hs.tail) =
          l.map (fun i => some (.ok (g i))) ++ givenVisits ks us.tail hs.tail := by
      intro l g
      induction l with
      | nil => exact ih _ _
      | cons a l ihl =>
        rw [List.length_cons, List.replicate_succ, List.cons_append, List.map_cons, List.cons_append,
          untilNoHdu_cons (fun h => by cases h), ihl]
    cases us with
    | nil => rfl
    | cons u us =>
      cases hs with
      | nil => rfl
      | cons h hs =>
        have := items (List.range k) (fun i => u.body.given i)
        rw [List.length_range] at this
        rw [visits, givenVisits]
        show _ :: _ :: untilNoHdu _ _ = _
        rw [show us = (u :: us).tail from rfl, show hs = (h :: hs).tail from rfl, this]

/-! ## C96 -/

/-- All the ways of reading the bytes of a file: a `BufReader` of any size over a file that is delivered in any way,
`FITSFile::open`, and `Cursor`s, in both versions. -/
def Spec.EveryReader (p : Profile) (fuel : Nat) (data : List UInt8) (calls : List Call) (seen : List (Option (Res Seen))) : Prop :=
  (∀ (cap : Nat) (plan : List ReadEvent), .fails ∉ plan →
    bufInput.runAny bufSome p fuel calls (Input.Session.new (BufReader.new cap ⟨data, 0, plan⟩)) = seen ∧
    gzInput.runAny bufSome p fuel calls (Input.Session.new (BufReader.new cap ⟨data, 0, plan⟩)) = seen) ∧
  cursorInput.runAny cursorSome p fuel calls (Input.Session.new ⟨data, 0⟩) = seen ∧
  oldCursorInput.runAny cursorSome p fuel calls (Input.Session.new ⟨data, 0⟩) = seen

/-- **C96.** For a file whose data units are complete, a program that opens each data unit at most once, when it is the
last one returned, and uses it in order, sees the same through every kind of reader, until it asks for an HDU and gets none. -/
theorem C96_every_reader {seek : Bool} (p : Profile) (gz : Gunzip) (fuel : Nat) (data : List UInt8) (calls : List Call)
    (hd : data.length < 2 ^ 63) (ho : OpensOnce seek false calls) (hx : Compiles p gz fuel calls (Session.new ⟨data, 0⟩))
    (ht : ∀ n, ∀ x ∈ plainHdus p n (Fits.fromReader ⟨data, 0⟩), Tame seek p data x) :
    EveryReader p fuel data calls (untilNoHdu calls ((Session.new ⟨data, 0⟩).run p gz fuel calls)) := by
  obtain ⟨hw, e⟩ := tame_within ho hx hd ht
  rw [← e]
  exact ⟨fun cap plan hp => ⟨C94_partial p gz fuel data cap plan calls hd hp hw,
    C94_fitsfile_partial p gz fuel data cap plan calls hd hp hw⟩, C94_cursor_partial (2 ^ 63) p gz fuel data calls hw⟩

/-- **C96, failing reads.** If reads of the file may fail, the program sees the same, or the first of it and then an
error or nothing. -/
theorem C96_failing {seek : Bool} (p : Profile) (gz : Gunzip) (fuel : Nat) (data : List UInt8) (calls : List Call)
    (hd : data.length < 2 ^ 63) (ho : OpensOnce seek false calls) (hx : Compiles p gz fuel calls (Session.new ⟨data, 0⟩))
    (ht : ∀ n, ∀ x ∈ plainHdus p n (Fits.fromReader ⟨data, 0⟩), Tame seek p data x) (cap : Nat) (plan : List ReadEvent) :
    let seen := untilNoHdu calls ((Session.new ⟨data, 0⟩).run p gz fuel calls)
    let got := bufInput.runAny bufSome p fuel calls (Input.Session.new (BufReader.new cap ⟨data, 0, plan⟩))
    got = seen ∨ ∃ k x, k < seen.length ∧ got = seen.take k ++ [x] ∧ NothingOrError x := by
  obtain ⟨hw, e⟩ := tame_within ho hx hd ht
  intro seen got
  have := C94_failing_partial p gz fuel data cap plan calls hd hw
  rw [e] at this
  exact this

/-- **C96, read back.** A file made of images, ASCII tables and binary tables, with any legal lines in the headers and in
any layout, is read back as written through every kind of reader: the HDUs, their items in order and the end of the file.
As in memory (C72), logical values are given as true; the tables have no columns of bits or of no values and no empty
arrays. -/
theorem C96_read_back (p : Profile) (us : List WrittenHdu) (hf : File true us) (hr : ∀ u ∈ us, u.body.Legible)
    (hs : (fileBytes us).length < 2 ^ 60) :
    ∃ hs, ShownAll true 0 us hs ∧ ∀ (fuel : Nat) (ks : List Nat), ks.length = us.length →
      EveryReader p fuel (fileBytes us) (visits ks) (givenVisits ks us hs) := by
  obtain ⟨hh, h1, h2⟩ := C72_exact_logical p us hf hr hs
  refine ⟨hh, h1, fun fuel ks hk => ?_⟩
  have := C96_every_reader (seek := false) p (.of fun xs => xs) fuel (fileBytes us) (visits ks) (by omega) (visits_once ks false)
    (compiles_of _ (visits_exist ks) _)
    (fun n => file_tame hf hr [] _ rfl hs (f := Fits.fromReader ⟨fileBytes us, 0⟩) ⟨rfl, rfl, rfl, rfl⟩ n)
  rw [h2 _ fuel ks hk, untilNoHdu_visits] at this
  exact this

/-- **C96, read back**, without false logical values: exactly as written. -/
theorem C96_as_written (p : Profile) (us : List WrittenHdu) (hf : File true us) (hr : ∀ u ∈ us, u.body.Readable)
    (hs : (fileBytes us).length < 2 ^ 60) :
    ∃ hs, ShownAll true 0 us hs ∧ ∀ (fuel : Nat) (ks : List Nat), ks.length = us.length →
      EveryReader p fuel (fileBytes us) (visits ks) (seenVisits ks us hs) := by
  obtain ⟨hh, h1, h2⟩ := C96_read_back p us hf (fun u hu => (hr u hu).legible) hs
  refine ⟨hh, h1, fun fuel ks hk => ?_⟩
  have := h2 fuel ks hk
  rw [givenVisits_eq (p := p) (gz := .of fun xs => xs) (fuel := fuel) fun u hu => ((hr u hu).by p _ fuel).1] at this
  exact this

/-! ### Examples -/

def checkCompiles (p : Profile) (gz : Gunzip) (fuel : Nat) : List Call → Session → Bool
  | [], _ => true
  | c :: cs, s => Exists c s.opened && match s.call p gz fuel c with
    | some (_, s') => checkCompiles p gz fuel cs s'
    | none => true

theorem checkCompiles_sound {p : Profile} {gz : Gunzip} {fuel : Nat} {cs : List Call} {s : Session}
    (h : checkCompiles p gz fuel cs s = true) : Compiles p gz fuel cs s := by
  induction cs generalizing s with
  | nil => trivial
  | cons c cs ih =>
    unfold checkCompiles at h
    rw [Bool.and_eq_true] at h
    refine ⟨h.1, fun r s' e => ?_⟩
    have := h.2
    rw [e] at this
    exact ih this

/-- An image and a binary table with arrays. -/
def writtenSample : List WrittenHdu := [writtenPrimary, writtenArrays]

theorem writtenSample_file : File true writtenSample :=
  .cons writtenPrimary_legal (by decide +kernel) (.last writtenArrays_legal (by decide +kernel))

theorem writtenSample_readable : ∀ u ∈ writtenSample, u.body.Readable := by
  intro u hu
  simp only [writtenSample, List.mem_cons, List.not_mem_nil, or_false] at hu
  rcases hu with rfl | rfl
  · trivial
  · refine ⟨?_, ?_, by decide +kernel⟩
    · intro ty rep hc
      simp only [List.mem_cons, List.not_mem_nil, or_false] at hc
      rcases hc with hc | hc <;> cases hc
      exact ⟨by decide, by decide⟩
    · intro row hrow w o hm
      simp only [List.mem_cons, List.not_mem_nil, or_false] at hrow
      rcases hrow with rfl | rfl <;> simp at hm

/-- Some values of the table and a row. -/
def writtenCalls : List Call := [.hdu, .getData 0, .next, .readValue 1, .hdu, .getData 0, .next, .next, .rowIter, .next, .hdu]

theorem writtenSample_compiles :
    checkCompiles .checked (.of fun xs => xs) 100 writtenCalls (Session.new ⟨fileBytes writtenSample, 0⟩) = true := by
  decide +kernel

theorem writtenSample_small : (fileBytes writtenSample).length < 2 ^ 60 := by decide +kernel

/-- The hypotheses of `C96_every_reader` hold for it. -/
example : EveryReader .checked 100 (fileBytes writtenSample) writtenCalls
    (untilNoHdu writtenCalls ((Session.new ⟨fileBytes writtenSample, 0⟩).run .checked (.of fun xs => xs) 100 writtenCalls)) :=
  C96_every_reader (seek := false) .checked _ 100 _ _ (Nat.lt_of_lt_of_le writtenSample_small (by decide))
    ⟨rfl, rfl, rfl, rfl, rfl, rfl, rfl, rfl, rfl, rfl, trivial⟩ (checkCompiles_sound writtenSample_compiles)
    (fun n => file_tame writtenSample_file (fun u hu => (writtenSample_readable u hu).legible) [] _ rfl writtenSample_small
      (f := Fits.fromReader ⟨fileBytes writtenSample, 0⟩) ⟨rfl, rfl, rfl, rfl⟩ n)

/-- All the eleven results are there, the last being the end of the file. -/
theorem writtenSample_seen : (untilNoHdu writtenCalls
      ((Session.new ⟨fileBytes writtenSample, 0⟩).run .checked (.of fun xs => xs) 100 writtenCalls)).length = 11 := by
  decide +kernel

example : ∃ hs, ∀ cap plan, .fails ∉ plan →
    bufInput.runAny bufSome .checked 0 (visits [3, 4]) (Input.Session.new (BufReader.new cap ⟨fileBytes writtenSample, 0, plan⟩)) =
      seenVisits [3, 4] writtenSample hs := by
  obtain ⟨hs, -, h⟩ := C96_as_written .checked writtenSample writtenSample_file writtenSample_readable writtenSample_small
  exact ⟨hs, fun cap plan hp => ((h 0 [3, 4] rfl).1 cap plan hp).1⟩

end Fitsrs

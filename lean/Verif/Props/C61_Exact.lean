import Verif.Props.C61
/-
C61, exactly: what a program that uses the data in any way sees of the HDUs.
-/

namespace Fitsrs
open Spec Fits Session

/-- Whenever a program asks for an HDU in a build without overflow checks, the reader stands at an offset that fits in a signed
64-bit integer (as it always does in a file; a reader in memory can be moved further). -/
def LowRun (p : Profile) (gz : Gunzip) (fuel : Nat) : List Call → Session → Prop
  | [], _ => True
  | c :: cs, s =>
    (c = .hdu → p = .wrapping → s.close.fits.rd.pos < 2 ^ 63) ∧
    match s.call p gz fuel c with
    | some (.ok _, s') => LowRun p gz fuel cs s'
    | some (.err _, s') => LowRun p gz fuel cs s'
    | _ => True

/-- In a build with overflow checks there is nothing to assume. -/
theorem lowRun_checked {gz : Gunzip} {fuel : Nat} (calls : List Call) (s : Session) : LowRun .checked gz fuel calls s := by
  induction calls generalizing s with
  | nil => trivial
  | cons c cs ih =>
    refine ⟨(fun _ h => by cases h), ?_⟩
    split
    · exact ih _
    · exact ih _
    · trivial

/-- The announced data unit ends at an offset that fits, unless there is none. -/
def Fit (f : Fits) : Prop := f.start = true ∨ f.errored = true ∨ f.posStart + roundUp2880 f.numBytes < 2 ^ 63

/-- Outside of the data unit, asking for the next HDU panics in a build with overflow checks. -/
theorem next_outside {f : Fits} (hs : f.start = false) (he : f.errored = false)
    (ho : ¬ (f.posStart ≤ f.rd.pos ∧ f.rd.pos ≤ f.posStart + f.numBytes)) : (f.next .checked).1 = some .panic := by
  have hk : f.skipBytes .checked = .panic := by
    unfold Fits.skipBytes
    by_cases h1 : f.posStart ≤ f.rd.pos
    · rw [usub_ok h1]
      have h2 : ¬ f.rd.pos - f.posStart ≤ f.numBytes := fun h => ho ⟨h1, by omega⟩
      simp only [Res.bind_ok]
      unfold usub
      rw [if_neg h2]
      rfl
    · unfold usub
      rw [if_neg h1]
      rfl
  unfold Fits.next
  rw [if_neg (by simp [he]), if_neg (by simp [hs])]
  unfold Fits.consumeUntilNextHdu
  rw [hk]
  rfl

/-- Asking for an HDU panics, or the reader is ready. -/
theorem next_panics_or_ready {p : Profile} {f : Fits} (hs : f.start = false) (he : f.errored = false)
    (hf : f.posStart + roundUp2880 f.numBytes < 2 ^ 63) (hl : p = .wrapping → f.rd.pos < 2 ^ 63) :
    (p = .checked ∧ (f.next p).1 = some .panic) ∨ Ready p f := by
  have hge := roundUp2880_ge f.numBytes
  cases p with
  | wrapping => exact .inr ⟨hl rfl, hf, fun h => by cases h⟩
  | checked =>
    by_cases ho : f.posStart ≤ f.rd.pos ∧ f.rd.pos ≤ f.posStart + f.numBytes
    · exact .inr ⟨by omega, hf, fun _ => ho⟩
    · exact .inl ⟨rfl, next_outside hs he ho⟩

/-- The program has ended with a panic of the iterator over HDUs, after all the HDUs asked for before. -/
def PanicsAtHdu (p : Profile) (f : Fits) (calls : List Call) (seen : List (Option (Res Seen))) : Prop :=
  p = .checked ∧ seen.getLast? = some (some .panic) ∧ calls[seen.length - 1]? = some .hdu ∧
    ∃ n, asked calls seen = n + 1 ∧ hdusSeen seen = plainHdus p n f

theorem hdu_panics {p : Profile} {gz : Gunzip} {fuel : Nat} {s : Session} (h : (s.close.fits.next p).1 = some .panic)
    (cs : List Call) : s.run p gz fuel (.hdu :: cs) = [some .panic] := by
  unfold run
  have e : s.call p gz fuel .hdu = some (s.close.nextHdu p) := rfl
  rw [e, nextHdu_eq, h]
  rfl

/-- The rest of a program after the end of the iteration. -/
theorem over_seen {p : Profile} {gz : Gunzip} {fuel : Nat} (calls : List Call) {s : Session} {f : Fits}
    (ha : s.At f) (ho : Over p f) (hf : Fit f) (hl : LowRun p gz fuel calls s) : hdusSeen (s.run p gz fuel calls) = [] := by
  induction calls generalizing s with
  | nil => rfl
  | cons c cs ih =>
    obtain ⟨hr1, hr2⟩ := hl
    by_cases hc : c = .hdu
    · subst hc
      have hov : Over p s.close.fits := by
        refine ⟨ha.start.trans ho.1, ?_⟩
        rw [ha.errored, ha.data, ha.posStart, ha.numBytes]
        exact ho.2
      have hready : (s.close.fits.next p).1 = some .panic ∨ s.close.fits.errored = true ∨ Ready p s.close.fits := by
        cases he : s.close.fits.errored with
        | true => exact .inr (.inl rfl)
        | false =>
          have hfit : s.close.fits.posStart + roundUp2880 s.close.fits.numBytes < 2 ^ 63 := by
            rw [ha.posStart, ha.numBytes]
            rcases hf with h | h | h
            · rw [ho.1] at h; cases h
            · rw [← ha.errored, he] at h; cases h
            · exact h
          rcases next_panics_or_ready hov.1 he hfit (hr1 rfl) with h | h
          · exact .inl h.2
          · exact .inr (.inr h)
      rcases hready with h | h
      · rw [hdu_panics h]
        rfl
      obtain ⟨rd, hn, hd⟩ := next_over hov h
      have e : s.call p gz fuel .hdu =
          some (.ok (.hdu none), { s.close with fits := { s.close.fits with rd } }) := by
        show some (s.close.nextHdu p) = _
        rw [nextHdu_eq, hn]
        rfl
      rw [e] at hr2
      unfold run
      rw [e]
      show hdusSeen (some (.ok (.hdu none)) :: _) = []
      have : ({ s.close with fits := { s.close.fits with rd } } : Session).At f := by
        have hcl : ({ s.close with fits := { s.close.fits with rd } } : Session).close =
            { s.close with fits := { s.close.fits with rd } } := close_none close_isNone
        refine ⟨?_, ?_, ?_, ?_, ?_, fun h => ?_⟩
        · rw [hcl]; exact ha.start
        · rw [hcl]; exact ha.posStart
        · rw [hcl]; exact ha.numBytes
        · rw [hcl]; exact ha.errored
        · rw [hcl]; exact hd.trans ha.data
        · rw [ho.1] at h; cases h
      exact ih this hr2
    · unfold run
      cases h : s.call p gz fuel c with
      | none => rfl
      | some x =>
        obtain ⟨r, s'⟩ := x
        obtain ⟨h1, h2, -⟩ := call_at hc ha h
        rw [h] at hr2
        cases r with
        | panic => rfl
        | ok v =>
          show hdusSeen (some (.ok v) :: _) = []
          rw [hdusSeen_cons_notHdu h2]
          exact ih h1 hr2
        | err v => exact ih h1 hr2

/-- The panic of the rest of a program is that of the program. -/
theorem PanicsAtHdu.cons {p : Profile} {f f' : Fits} {c : Call} {cs : List Call} {x : Option (Res Seen)}
    {xs : List (Option (Res Seen))} (h : PanicsAtHdu p f' cs xs)
    (hn : ∀ n, hdusSeen xs = plainHdus p n f' → hdusSeen (x :: xs) = plainHdus p (n + if c.asksHdu then 1 else 0) f) :
    PanicsAtHdu p f (c :: cs) (x :: xs) := by
  obtain ⟨h1, h2, h3, n, h4, h5⟩ := h
  have hne : xs ≠ [] := by rintro rfl; cases h2
  refine ⟨h1, ?_, ?_, _, ?_, hn n h5⟩
  · rw [List.getLast?_cons]
    rw [h2]
    rfl
  · have : (x :: xs).length - 1 = xs.length - 1 + 1 := by
      cases xs with
      | nil => exact absurd rfl hne
      | cons y ys => rfl
    rw [this, List.getElem?_cons_succ]
    exact h3
  · rw [asked_cons, h4]
    omega

theorem run_seen {p : Profile} {gz : Gunzip} {fuel : Nat} (calls : List Call) {s : Session} {f : Fits}
    (ha : s.At f) (hf : Fresh f) (he : f.errored = false) (hfit : Fit f) (hfits : ∀ n, SizesFit p (plainHdus p n f))
    (hl : LowRun p gz fuel calls s) :
    hdusSeen (s.run p gz fuel calls) = plainHdus p (asked calls (s.run p gz fuel calls)) f ∨
      PanicsAtHdu p f calls (s.run p gz fuel calls) := by
  induction calls generalizing s f with
  | nil => exact .inl rfl
  | cons c cs ih =>
    obtain ⟨hr1, hr2⟩ := hl
    by_cases hc : c = .hdu
    · subst hc
      have hready : (p = .checked ∧ (s.close.fits.next p).1 = some .panic) ∨
          (s.close.fits.start = true ∨ s.close.fits.errored = true ∨ Ready p s.close.fits) := by
        cases hs : s.close.fits.start with
        | true => exact .inr (.inl rfl)
        | false =>
          have hfit' : s.close.fits.posStart + roundUp2880 s.close.fits.numBytes < 2 ^ 63 := by
            rw [ha.posStart, ha.numBytes]
            rcases hfit with h | h | h
            · rw [← ha.start, hs] at h; cases h
            · rw [he] at h; cases h
            · exact h
          rcases next_panics_or_ready hs (ha.errored.trans he) hfit' (hr1 rfl) with h | h
          · exact .inl h
          · exact .inr (.inr (.inr h))
      rcases hready with ⟨hp, h⟩ | hready
      · right
        rw [hdu_panics h]
        exact ⟨hp, rfl, rfl, 0, rfl, rfl⟩
      obtain ⟨e, hst, hrd, hat⟩ := call_hdu (gz := gz) (fuel := fuel) ha hf he hready
      rw [e] at hr2
      unfold run
      rw [e]
      cases hn : f.next p with
      | mk i f' =>
        rw [hn] at hr2 hst hat
        cases i with
        | none =>
          dsimp only [seenOf] at hr2 ⊢
          left
          have hov : Over p f' := by
            cases hs : f.start with
            | true => exact (next_start_ne_none hs he hn).elim
            | false => exact record_panic_none_over hs he (hrd hs) hn
          have hf' : Fit f' := by
            cases hs : f.start with
            | true => exact (next_start_ne_none hs he hn).elim
            | false =>
              have hq := (hrd hs).fits
              rw [next_ready hs he (hrd hs)] at hn
              obtain ⟨-, rfl⟩ := record_none hn
              exact .inr (.inr hq)
          rw [asked_cons]
          show hdusSeen (some (.ok (.hdu none)) :: _) = plainHdus p (_ + 1) f
          have hover := over_seen cs (hat _) hov hf' hr2
          show hdusSeen (run p gz fuel cs _) = _
          refine hover.trans ?_
          unfold plainHdus Fits.collect
          rw [hn]
          rfl
        | some r =>
          cases r with
          | panic =>
            left
            show [] = plainHdus p (asked (.hdu :: cs) [_]) f
            rw [asked_cons]
            show [] = plainHdus p (_ + 1) f
            unfold plainHdus Fits.collect
            rw [hn]
            rfl
          | ok h =>
            dsimp only [seenOf] at hr2 ⊢
            obtain ⟨-, k2, k3, k4, k5, k6⟩ := next_ok_state hn
            have hcons : ∀ n, plainHdus p (n + 1) f = h :: plainHdus p n f' := by
              intro n
              conv => lhs; unfold plainHdus Fits.collect
              rw [hn]
              rfl
            have hf' : Fit f' := by
              right; right
              have := hfits 1 h (by rw [hcons]; exact List.mem_cons_self)
              rw [nextHeader_of k4, ← k3] at this
              exact this
            have hfits' : ∀ n, SizesFit p (plainHdus p n f') := by
              intro n x hx
              exact hfits (n + 1) x (by rw [hcons]; exact List.mem_cons_of_mem _ hx)
            rcases ih (hat _) (.inr ⟨k6, k5, k2.trans k3.symm⟩) k5 hf' hfits' hr2 with this | this
            · left
              show h :: hdusSeen _ = _
              rw [asked_cons]
              show _ = plainHdus p (_ + 1) f
              rw [hcons, this]
            · right
              refine this.cons ?_
              intro n hx
              show h :: hdusSeen _ = plainHdus p (n + 1) f
              rw [hcons, hx]
          | err x =>
            dsimp only [seenOf] at hr2 ⊢
            left
            have hov : Over p f' := ⟨hst, .inl (next_err hn)⟩
            show hdusSeen _ = _
            rw [asked_cons]
            show _ = plainHdus p (_ + 1) f
            have hover := over_seen cs (hat _) hov (.inr (.inl (next_err hn))) hr2
            show hdusSeen (run p gz fuel cs _) = _
            refine hover.trans ?_
            unfold plainHdus Fits.collect
            rw [hn]
            dsimp only
            rw [List.filterMap_cons_none rfl]
            cases hk : asked cs (Session.run p gz fuel cs _) with
            | zero => rfl
            | succ k =>
              unfold Fits.collect Fits.next
              rw [if_pos (next_err hn)]
              rfl
    · have hk : c.asksHdu = false := by
        cases c with
        | hdu => exact absurd rfl hc
        | _ => rfl
      unfold run
      cases h : s.call p gz fuel c with
      | none =>
        left
        show [] = plainHdus p (asked (c :: cs) [none]) f
        rw [asked_cons, hk]
        rfl
      | some x =>
        obtain ⟨r, s'⟩ := x
        obtain ⟨h1, h2, -⟩ := call_at hc ha h
        rw [h] at hr2
        cases r with
        | panic =>
          left
          show [] = plainHdus p (asked (c :: cs) [_]) f
          rw [asked_cons, hk]
          rfl
        | ok v =>
          dsimp only
          rcases ih h1 hf he hfit hfits hr2 with this | this
          · left
            rw [hdusSeen_cons_notHdu h2, asked_cons, hk]
            exact this
          · right
            refine this.cons fun n hx => ?_
            rw [hdusSeen_cons_notHdu h2, hk]
            exact hx
        | err v =>
          dsimp only
          rcases ih h1 hf he hfit hfits hr2 with this | this
          · left
            rw [hdusSeen_cons_notHdu h2, asked_cons, hk]
            exact this
          · right
            refine this.cons fun n hx => ?_
            rw [hdusSeen_cons_notHdu h2, hk]
            exact hx

/-- **C61, exactly** (for sizes that fit, and in builds without overflow checks as long as the reader stands at an offset that
fits): whatever a program does with the data, it sees the HDUs of the file, or the iterator over HDUs panics, in builds with
overflow checks only, where the HDUs seen before are those of the file as well. -/
theorem C61_exact {p : Profile} {gz : Gunzip} {fuel : Nat} {data : List UInt8} {calls : List Call}
    (hfit : ∀ n, SizesFit p (plainHdus p n (fromReader ⟨data, 0⟩)))
    (hl : LowRun p gz fuel calls (Session.new ⟨data, 0⟩)) :
    hdusSeen ((Session.new ⟨data, 0⟩).run p gz fuel calls) =
      plainHdus p (asked calls ((Session.new ⟨data, 0⟩).run p gz fuel calls)) (fromReader ⟨data, 0⟩) ∨
    PanicsAtHdu p (fromReader ⟨data, 0⟩) calls ((Session.new ⟨data, 0⟩).run p gz fuel calls) :=
  run_seen calls ⟨rfl, rfl, rfl, rfl, rfl, fun _ => ⟨rfl, rfl, rfl⟩⟩ (.inl rfl) rfl (.inl rfl) hfit hl

/-- **C61 in builds with overflow checks**, for every program: the HDUs of the file, or a panic of the iterator over HDUs after
all the HDUs asked for before. -/
theorem C61_checked {gz : Gunzip} {fuel : Nat} {data : List UInt8} {calls : List Call}
    (hfit : ∀ n, SizesFit .checked (plainHdus .checked n (fromReader ⟨data, 0⟩))) :
    hdusSeen ((Session.new ⟨data, 0⟩).run .checked gz fuel calls) =
      plainHdus .checked (asked calls ((Session.new ⟨data, 0⟩).run .checked gz fuel calls)) (fromReader ⟨data, 0⟩) ∨
    PanicsAtHdu .checked (fromReader ⟨data, 0⟩) calls ((Session.new ⟨data, 0⟩).run .checked gz fuel calls) :=
  C61_exact hfit (lowRun_checked calls _)

/-- **No wrong HDU**: with overflow checks the HDUs seen by any program are the first ones of the file. -/
theorem C61_first {gz : Gunzip} {fuel : Nat} {data : List UInt8} {calls : List Call}
    (hfit : ∀ n, SizesFit .checked (plainHdus .checked n (fromReader ⟨data, 0⟩))) :
    ∃ n, hdusSeen ((Session.new ⟨data, 0⟩).run .checked gz fuel calls) = plainHdus .checked n (fromReader ⟨data, 0⟩) := by
  rcases C61_checked (gz := gz) (fuel := fuel) (calls := calls) hfit with h | ⟨-, -, -, n, -, h⟩
  · exact ⟨_, h⟩
  · exact ⟨n, h⟩

/-! ### Examples -/

/-- Once the iteration has ended there are no more HDUs. -/
theorem collect_all {p : Profile} {k : Nat} {f : Fits} (h : (f.collect p k).length < k) (n : Nat) {x : Res HDU}
    (hx : x ∈ f.collect p n) : x ∈ f.collect p k := by
  induction k generalizing f n with
  | zero => omega
  | succ k ih =>
    cases n with
    | zero => cases hx
    | succ n =>
      unfold Fits.collect at h hx ⊢
      split at h
      · rename_i e
        rw [e] at hx
        cases hx
      · rename_i e
        rw [e] at hx
        exact hx
      · rename_i r f' hne e
        rw [e] at hx
        cases r with
        | panic => exact (hne rfl).elim
        | ok v =>
          rcases List.mem_cons.1 hx with hx | hx
          · exact List.mem_cons.2 (.inl hx)
          · exact List.mem_cons.2 (.inr (ih (by simpa using h) n hx))
        | err v =>
          rcases List.mem_cons.1 hx with hx | hx
          · exact List.mem_cons.2 (.inl hx)
          · exact List.mem_cons.2 (.inr (ih (by simpa using h) n hx))

theorem plain_all {p : Profile} {k : Nat} {f : Fits} (h : (f.collect p k).length < k) (n : Nat) {x : HDU}
    (hx : x ∈ plainHdus p n f) : x ∈ plainHdus p k f := by
  unfold plainHdus at hx ⊢
  obtain ⟨y, hy, e⟩ := List.mem_filterMap.1 hx
  exact List.mem_filterMap.2 ⟨y, collect_all h n hy, e⟩

set_option maxRecDepth 20000 in
theorem sample_ends : ((fromReader ⟨sampleFile, 0⟩).collect .checked 3).length = 2 ∧
    ∀ h ∈ plainHdus .checked 3 (fromReader ⟨sampleFile, 0⟩), nextHeader .checked h < 2 ^ 63 := by
  decide +kernel

theorem sample_sizesFit (n : Nat) : SizesFit .checked (plainHdus .checked n (fromReader ⟨sampleFile, 0⟩)) :=
  fun h hx => sample_ends.2 h (plain_all (by rw [sample_ends.1]; omega) n hx)

/-- A program that opens a data unit again sees the first HDU, and then the iterator panics. -/
example : PanicsAtHdu .checked (fromReader ⟨sampleFile, 0⟩) againCalls
    ((Session.new ⟨sampleFile, 0⟩).run .checked (.of id) 0 againCalls) := by
  obtain ⟨h1, -, h2, h3⟩ := againCalls_seen
  rcases C61_checked (gz := .of id) (fuel := 0) (calls := againCalls) sample_sizesFit with h | h
  · rw [h2] at h
    rw [h, h3] at h1
    cases h1
  · exact h

end Fitsrs

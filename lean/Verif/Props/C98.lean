import Verif.Spec.Failing
import Verif.Lemmas.Failing
import Verif.Lemmas.InputInside
import Verif.Props.C61_Exact
/-
C98 the HDUs after failed reads.
-/

namespace Fitsrs
open Spec Fits Session

namespace Spec

theorem Agrees.cons {F : Prop} {p : Profile} {ref out : List (Option (Res HDU))} (x : Option (Res HDU)) (h : Agrees F p ref out) :
    Agrees F p (x :: ref) (x :: out) := by
  cases h with
  | all => exact .all _
  | failed k e j hF hk => exact .failed (x :: ref) (k + 1) e j hF (by rw [List.length_cons]; omega)
  | panics k hp hk => exact .panics (x :: ref) (k + 1) hp (by rw [List.length_cons]; omega)

theorem answers_length (p : Profile) (n : Nat) (f : Fits) : (answers p n f).length = n := by
  induction n generalizing f with
  | zero => rfl
  | succ n ih =>
    unfold answers
    split
    · exact List.length_replicate
    · rw [List.length_cons, ih]

theorem answers_errored (p : Profile) (n : Nat) {f : Fits} (h : f.errored = true) :
    answers p n f = List.replicate n none := by
  cases n with
  | zero => rfl
  | succ n =>
    unfold answers
    rw [next_errored h]

end Spec

/-- Asking for an HDU panics and leaves the reader where it is, or the reader is ready. -/
theorem next_stays_or_ready {p : Profile} {f : Fits} (hs : f.start = false) (he : f.errored = false)
    (hf : f.posStart + roundUp2880 f.numBytes < 2 ^ 63) (hl : p = .wrapping → f.rd.pos < 2 ^ 63) :
    (p = .checked ∧ f.next p = (some .panic, f)) ∨ Ready p f := by
  have hge := roundUp2880_ge f.numBytes
  cases p with
  | wrapping => exact .inr ⟨hl rfl, hf, fun h => by cases h⟩
  | checked =>
    by_cases ho : f.posStart ≤ f.rd.pos ∧ f.rd.pos ≤ f.posStart + f.numBytes
    · exact .inr ⟨by omega, hf, fun _ => ho⟩
    · have hk : f.skipBytes .checked = .panic := by
        unfold Fits.skipBytes
        by_cases h1 : f.posStart ≤ f.rd.pos
        · rw [usub_ok h1]
          have h2 : ¬ f.rd.pos - f.posStart ≤ f.numBytes := fun h => ho ⟨h1, by omega⟩
          simp only [Res.bind_ok]
          unfold usub
          rw [if_neg h2]
          rfl
        · unfold usub
          rw [if_neg h1]
          rfl
      refine .inl ⟨rfl, ?_⟩
      unfold Fits.next
      rw [if_neg (by simp [he]), if_neg (by simp [hs])]
      unfold Fits.consumeUntilNextHdu
      rw [hk]
      cases f
      dsimp only at hs
      subst hs
      rfl

namespace Input
variable {σ : Type} {S : Input σ} {P : σ → Prop} {F : Prop} {R : σ → Reader → Prop} {p : Profile} {data : List UInt8}

/-- A call that is not a request for an HDU. -/
theorem goOn_other {c : RawCall} (hc : c ≠ .hdu) (cs : List RawCall) (g : File σ) :
    ∃ rd, (S.raw p g c).2 = { g with rd } ∧ S.goOn p (c :: cs) g = S.goOn p cs { g with rd } := by
  cases c with
  | hdu => exact absurd rfl hc
  | read n => exact ⟨_, rfl, rfl⟩
  | pixel n =>
    refine ⟨(S.readExact n g.rd).2, rfl, ?_⟩
    conv => lhs; unfold goOn
    show (match valueOf (S.readExact n g.rd).1 with
        | .hdu (some .panic) => _
        | .hdu r => _
        | _ => _) = _
    cases (S.readExact n g.rd).1 <;> rfl
  | move off => exact ⟨_, rfl, rfl⟩
  | tell => exact ⟨_, rfl, rfl⟩
  | goto pos => exact ⟨_, rfl, rfl⟩

/-- A request for an HDU. -/
theorem goOn_hdu (cs : List RawCall) (g : File σ) :
    S.goOn p (.hdu :: cs) g = match (S.next p g).1 with
      | some .panic => [some .panic]
      | r => r :: S.goOn p cs (S.next p g).2 := by
  conv => lhs; unfold goOn
  show (match RawOut.hdu (S.next p g).1 with
        | .hdu (some .panic) => _
        | .hdu r => _
        | _ => _) = _
  cases (S.next p g).1 with
  | none => rfl
  | some r => cases r <;> rfl

theorem goOn_errored (cs : List RawCall) {g : File σ} (h : g.errored = true) :
    ∃ j, S.goOn p cs g = List.replicate j none := by
  induction cs generalizing g with
  | nil => exact ⟨0, rfl⟩
  | cons c cs ih =>
    by_cases hc : c = .hdu
    · subst hc
      rw [goOn_hdu, next_of_errored p h]
      obtain ⟨j, hj⟩ := ih h
      exact ⟨j + 1, by rw [List.replicate_succ, ← hj]⟩
    · obtain ⟨rd, -, e⟩ := goOn_other (S := S) (p := p) hc cs g
      rw [e]
      exact ih (g := { g with rd }) h

/-- After the last HDU. -/
theorem goOn_over (hS : Simulates S F (2 ^ 63) R) (hK : S.Keeps P) (hP : ∀ {s}, P s → ∃ pos, pos < 2 ^ 63 ∧ R s ⟨data, pos⟩)
    (hd : data.length < 2 ^ 63) (cs : List RawCall) {g : File σ} (hs : g.start = false) (he : g.errored = false)
    (hT : g.posStart + roundUp2880 g.numBytes < 2 ^ 63)
    (hn : extensionItem (extensionAt p data (g.posStart + roundUp2880 g.numBytes)) = none) (hg : P g.rd) :
    Agrees F p (List.replicate (S.goOn p cs g).length none) (S.goOn p cs g) := by
  induction cs generalizing g with
  | nil => exact .all _
  | cons c cs ih =>
    by_cases hc : c = .hdu
    · subst hc
      rw [goOn_hdu]
      have hg' : P (S.next p g).2.rd := next_keeps hK p hg
      obtain ⟨pos, hpos, hr⟩ := hP hg
      have failed : ∀ e, (S.next p g).1 = some (.err e) → F → Agrees F p
          (List.replicate (some (.err e) :: S.goOn p cs (S.next p g).2).length none)
          (some (.err e) :: S.goOn p cs (S.next p g).2) := by
        intro e he hF
        obtain ⟨j, hj⟩ := goOn_errored (S := S) (p := p) cs (next_err_errored p he)
        rw [hj]
        exact .failed _ 0 e j hF (by simp)
      have like : Like R g ⟨g.start, g.posStart, g.numBytes, g.errored, ⟨data, pos⟩⟩ := ⟨rfl, rfl, rfl, rfl, hr⟩
      generalize hf : (⟨g.start, g.posStart, g.numBytes, g.errored, ⟨data, pos⟩⟩ : Fits) = f at like
      have f1 : f.start = false := by rw [← hf]; exact hs
      have f2 : f.errored = false := by rw [← hf]; exact he
      have f3 : f.posStart = g.posStart := by rw [← hf]
      have f4 : f.numBytes = g.numBytes := by rw [← hf]
      have f5 : f.rd = ⟨data, pos⟩ := by rw [← hf]
      rcases next_stays_or_ready (p := p) f1 f2 (by rw [f3, f4]; exact hT) (fun _ => by rw [f5]; exact hpos) with ⟨hp, hx⟩ | hready
      · have hb : (f.next p).2.rd.pos < 2 ^ 63 := by
          rw [hx, f5]
          exact hpos
        rcases next_like hS p like hb with ⟨h1, -⟩ | ⟨hF, e, h1⟩
        · rw [h1, hx]
          exact .panics _ 0 hp (by simp)
        · have := failed e h1 hF
          rw [h1]
          exact this
      · have hb : (f.next p).2.rd.pos < 2 ^ 63 :=
          next_below f2 (by rw [f5]; exact hd) (fun h => by rw [f1] at h; cases h) (fun _ => hready)
        rcases next_like hS p like hb with ⟨h1, -⟩ | ⟨hF, e, h1⟩
        · have h2 : (S.next p g).1 = none := by
            rw [h1, next_ready f1 f2 hready, f5, f3, f4]
            dsimp only
            rw [hn]
            rfl
          rw [h2]
          dsimp only
          rw [List.length_cons, List.replicate_succ]
          have := ih (g := { g with rd := (S.next p g).2.rd }) hs he hT hn hg'
          rw [← next_none_fields p hs h2] at this
          exact this.cons none
        · have := failed e h1 hF
          rw [h1]
          exact this
    · obtain ⟨rd, e1, e2⟩ := goOn_other (S := S) (p := p) hc cs g
      have hg' := raw_keeps hK p hg c
      rw [e1] at hg'
      rw [e2]
      exact ih (g := { g with rd }) hs he hT hn hg'

/-- After an HDU. -/
theorem goOn_agrees (hS : Simulates S F (2 ^ 63) R) (hK : S.Keeps P) (hP : ∀ {s}, P s → ∃ pos, pos < 2 ^ 63 ∧ R s ⟨data, pos⟩)
    (hd : data.length < 2 ^ 63) (cs : List RawCall) {g : File σ} {f : Fits} (hs : g.start = false) (he : g.errored = false)
    (hps : g.posStart = f.posStart) (hnb : g.numBytes = f.numBytes) (hg : P g.rd) (hfs : f.start = false)
    (hfe : f.errored = false) (hfd : f.rd.data = data) (hfp : f.rd.pos = f.posStart)
    (hT : f.posStart + roundUp2880 f.numBytes < 2 ^ 63) (hfits : ∀ n, SizesFit p (plainHdus p n f)) :
    Agrees F p (answers p (S.goOn p cs g).length f) (S.goOn p cs g) := by
  have hge := roundUp2880_ge f.numBytes
  induction cs generalizing g f with
  | nil => exact .all _
  | cons c cs ih =>
    by_cases hc : c = .hdu
    · subst hc
      rw [goOn_hdu]
      have hg' : P (S.next p g).2.rd := next_keeps hK p hg
      obtain ⟨pos, hpos, hr⟩ := hP hg
      have failed : ∀ e, (S.next p g).1 = some (.err e) → F → Agrees F p
          (answers p (some (.err e) :: S.goOn p cs (S.next p g).2).length f)
          (some (.err e) :: S.goOn p cs (S.next p g).2) := by
        intro e he hF
        obtain ⟨j, hj⟩ := goOn_errored (S := S) (p := p) cs (next_err_errored p he)
        rw [hj]
        exact .failed _ 0 e j hF (by rw [answers_length]; simp)
      have like : Like R g { f with rd := ⟨data, pos⟩ } := ⟨hs.trans hfs.symm, hps, hnb, he.trans hfe.symm, hr⟩
      rcases next_stays_or_ready (p := p) (f := { f with rd := ⟨data, pos⟩ }) hfs hfe hT (fun _ => hpos) with ⟨hp, hx⟩ | hready
      · have hb : (Fits.next p { f with rd := ⟨data, pos⟩ }).2.rd.pos < 2 ^ 63 := by
          rw [hx]
          exact hpos
        rcases next_like hS p like hb with ⟨h1, -⟩ | ⟨hF, e, h1⟩
        · rw [h1, hx]
          exact .panics _ 0 hp (by rw [answers_length]; simp)
        · have := failed e h1 hF
          rw [h1]
          exact this
      · have hb : (Fits.next p { f with rd := ⟨data, pos⟩ }).2.rd.pos < 2 ^ 63 :=
          next_below hfe hd (fun h => by rw [hfs] at h; cases h) (fun _ => hready)
        have hready' : Ready p f := ⟨by omega, hT, fun _ => ⟨by omega, by omega⟩⟩
        have same : Fits.next p { f with rd := ⟨data, pos⟩ } = f.next p := by
          rw [next_ready (f := { f with rd := ⟨data, pos⟩ }) hfs hfe hready, next_ready hfs hfe hready', hfd]
        rw [same] at hb
        have key := next_like hS p like (by rw [same]; exact hb)
        rw [same] at key
        rcases key with ⟨h1, h2⟩ | ⟨hF, e, h1⟩
        rotate_left
        · have := failed e h1 hF
          rw [h1]
          exact this
        cases hn : f.next p with
        | mk i f' =>
          rw [hn] at h1 h2
          dsimp only at h1 h2
          rw [h1]
          cases i with
          | none =>
            dsimp only
            have hx := next_none_fields p hs h1
            have hitem : extensionItem (extensionAt p data (g.posStart + roundUp2880 g.numBytes)) = none := by
              rw [next_ready hfs hfe hready', hfd] at hn
              rw [hps, hnb]
              exact (record_none hn).1
            have := goOn_over hS hK hP hd cs (g := { g with rd := (S.next p g).2.rd }) hs he (by rw [hps, hnb]; exact hT) hitem hg'
            rw [← hx] at this
            rw [List.length_cons]
            unfold answers
            rw [hn]
            dsimp only
            rw [List.replicate_succ]
            exact this.cons none
          | some r =>
            cases r with
            | panic =>
              have : answers p [some (Res.panic : Res HDU)].length f = [some .panic] := by
                show answers p 1 f = _
                unfold answers
                rw [hn]
                rfl
              dsimp only
              rw [this]
              exact .all _
            | err e =>
              dsimp only
              obtain ⟨j, hj⟩ := goOn_errored (S := S) (p := p) cs (next_err_errored p h1)
              rw [hj, List.length_cons, List.length_replicate]
              unfold answers
              rw [hn]
              dsimp only
              rw [answers_errored p j (next_err hn)]
              exact .all _
            | ok h =>
              dsimp only
              obtain ⟨k1, k2, k3, k4, k5, k6⟩ := next_ok_state hn
              have l := h2 ⟨h, rfl⟩
              have hcons : ∀ n, plainHdus p (n + 1) f = h :: plainHdus p n f' := by
                intro n
                conv => lhs; unfold plainHdus Fits.collect
                rw [hn]
                rfl
              have hT' : f'.posStart + roundUp2880 f'.numBytes < 2 ^ 63 := by
                have := hfits 1 h (by rw [hcons]; exact List.mem_cons_self)
                rw [nextHeader_of k4, ← k3] at this
                exact this
              have hfits' : ∀ n, SizesFit p (plainHdus p n f') := fun n x hx =>
                hfits (n + 1) x (by rw [hcons]; exact List.mem_cons_of_mem _ hx)
              have := ih (l.start.trans k6) (l.errored.trans k5) l.posStart l.numBytes hg' k6 k5 (k1.trans hfd)
                (k2.trans k3.symm) hT' hfits' (roundUp2880_ge _)
              rw [List.length_cons]
              unfold answers
              rw [hn]
              exact this.cons _
    · obtain ⟨rd, e1, e2⟩ := goOn_other (S := S) (p := p) hc cs g
      have hg' := raw_keeps hK p hg c
      rw [e1] at hg'
      rw [e2]
      exact ih (g := { g with rd }) hs he hps hnb hg' hfs hfe hfd hfp hT hfits hge

/-- A program whose first call is a request for an HDU. -/
theorem goOn_first (hS : Simulates S F (2 ^ 63) R) (hK : S.Keeps P) (hP : ∀ {s}, P s → ∃ pos, pos < 2 ^ 63 ∧ R s ⟨data, pos⟩)
    (hd : data.length < 2 ^ 63) (cs : List RawCall) {s : σ} (hs : P s) (hr : R s ⟨data, 0⟩)
    (hfits : ∀ n, SizesFit p (plainHdus p n (Fits.fromReader ⟨data, 0⟩))) :
    Agrees F p (answers p (S.goOn p (.hdu :: cs) (Input.fromReader s)).length (Fits.fromReader ⟨data, 0⟩))
      (S.goOn p (.hdu :: cs) (Input.fromReader s)) := by
  rw [goOn_hdu]
  have like : Like R (Input.fromReader s) (Fits.fromReader ⟨data, 0⟩) := ⟨rfl, rfl, rfl, rfl, hr⟩
  have hb : (Fits.next p (Fits.fromReader ⟨data, 0⟩)).2.rd.pos < 2 ^ 63 :=
    next_below rfl hd (fun _ => rfl) (fun h => by cases h)
  have hg' : P (S.next p (Input.fromReader s)).2.rd := next_keeps hK p hs
  rcases next_like hS p like hb with ⟨h1, h2⟩ | ⟨hF, e, h1⟩
  rotate_left
  · obtain ⟨j, hj⟩ := goOn_errored (S := S) (p := p) cs (next_err_errored p h1)
    rw [h1]
    dsimp only
    rw [hj]
    exact .failed _ 0 e j hF (by rw [answers_length]; simp)
  cases hn : Fits.next p (Fits.fromReader ⟨data, 0⟩) with
  | mk i f' =>
    rw [hn] at h1 h2
    dsimp only at h1 h2
    rw [h1]
    cases i with
    | none => exact (next_start_ne_none rfl rfl hn).elim
    | some r =>
      cases r with
      | panic =>
        have : answers p [some (Res.panic : Res HDU)].length (Fits.fromReader ⟨data, 0⟩) = [some .panic] := by
          show answers p 1 _ = _
          unfold answers
          rw [hn]
          rfl
        dsimp only
        rw [this]
        exact .all _
      | err e =>
        dsimp only
        obtain ⟨j, hj⟩ := goOn_errored (S := S) (p := p) cs (next_err_errored p h1)
        rw [hj, List.length_cons, List.length_replicate]
        unfold answers
        rw [hn]
        dsimp only
        rw [answers_errored p j (next_err hn)]
        exact .all _
      | ok h =>
        dsimp only
        obtain ⟨k1, k2, k3, k4, k5, k6⟩ := next_ok_state hn
        have l := h2 ⟨h, rfl⟩
        have hcons : ∀ n, plainHdus p (n + 1) (Fits.fromReader ⟨data, 0⟩) = h :: plainHdus p n f' := by
          intro n
          conv => lhs; unfold plainHdus Fits.collect
          rw [hn]
          rfl
        have hT' : f'.posStart + roundUp2880 f'.numBytes < 2 ^ 63 := by
          have := hfits 1 h (by rw [hcons]; exact List.mem_cons_self)
          rw [nextHeader_of k4, ← k3] at this
          exact this
        have hfits' : ∀ n, SizesFit p (plainHdus p n f') := fun n x hx =>
          hfits (n + 1) x (by rw [hcons]; exact List.mem_cons_of_mem _ hx)
        have := goOn_agrees hS hK hP hd cs (l.start.trans k6) (l.errored.trans k5) l.posStart l.numBytes hg' k6 k5 k1
          (k2.trans k3.symm) hT' hfits'
        rw [List.length_cons]
        unfold answers
        rw [hn]
        exact this.cons _

end Input

/-- **C98.** A program opens a file, asks for the first HDU and goes on in any way after calls that fail, whatever reads of the
file fail: its requests for HDUs give the HDUs of the file, in order, until one of them reports a failed read; after that there are
no HDUs any more.  In builds with overflow checks a request can panic instead (in builds without, never).  (`Agrees.all`: as many
answers as requests.) -/
theorem C98_failing (p : Profile) (data : List UInt8) (cap : Nat) (plan : List ReadEvent) (cs : List RawCall)
    (hd : data.length < 2 ^ 63) (hfits : ∀ n, SizesFit p (plainHdus p n (Fits.fromReader ⟨data, 0⟩))) :
    (let out := bufInput.goOn p (.hdu :: cs) (Input.fromReader (BufReader.new cap ⟨data, 0, plan⟩))
     Agrees (.fails ∈ plan) p (answers p out.length (Fits.fromReader ⟨data, 0⟩)) out) ∧
    (let out := gzInput.goOn p (.hdu :: cs) (Input.fromReader (BufReader.new cap ⟨data, 0, plan⟩))
     Agrees (.fails ∈ plan) p (answers p out.length (Fits.fromReader ⟨data, 0⟩)) out) := by
  have h0 : (BufReader.new cap ⟨data, 0, plan⟩).At data plan :=
    ⟨⟨0, BufReader.is_empty _ _ rfl rfl rfl rfl hd (show 0 < 2 ^ 63 by decide)⟩, List.suffix_refl _⟩
  have hF : .fails ∈ plan ∨ .fails ∉ plan := Decidable.em _
  exact ⟨Input.goOn_first (buf_simulates _) (buf_keeps data plan) (fun h => h.reads) hd cs h0 (reads_new hd hF) hfits,
    Input.goOn_first (gz_simulates _) (gz_keeps data plan) (fun h => h.reads) hd cs h0 (reads_new hd hF) hfits⟩

/-! ### Examples -/

set_option maxRecDepth 20000 in
theorem sample_ends_release : ((Fits.fromReader ⟨sampleFile, 0⟩).collect .wrapping 3).length = 2 ∧
    ∀ h ∈ plainHdus .wrapping 3 (Fits.fromReader ⟨sampleFile, 0⟩), nextHeader .wrapping h < 2 ^ 63 := by
  decide +kernel

theorem sample_fits_release (n : Nat) : SizesFit .wrapping (plainHdus .wrapping n (Fits.fromReader ⟨sampleFile, 0⟩)) :=
  fun h hx => sample_ends_release.2 h (plain_all (by rw [sample_ends_release.1]; omega) n hx)

/-- Both headers are read; the first read of the pixels fails, the program goes on with the next ones and then asks for HDUs. -/
def failingPixels : List ReadEvent := [.short 2879, .interrupted, .short 2879, .fails, .short 0, .interrupted]

/-- The second read of the second header fails. -/
def failingHeader : List ReadEvent := [.short 2879, .short 159, .fails]

set_option maxRecDepth 20000 in
/-- The hypotheses of `C98_failing` hold, and both outcomes occur: all the HDUs although the pixels could not be read at first, and
one HDU and the report of a failed read. -/
example : (∀ n, SizesFit .wrapping (plainHdus .wrapping n (Fits.fromReader ⟨sampleFile, 0⟩))) ∧ sampleFile.length < 2 ^ 63 ∧
    bufInput.goOn .wrapping [.hdu, .hdu, .pixel 1, .pixel 1, .pixel 4, .hdu, .goto 7, .read 3, .hdu]
      (Input.fromReader (BufReader.new 2880 ⟨sampleFile, 0, failingPixels⟩)) =
        [some (.ok samplePrimaryHdu), some (.ok sampleImageHdu), none, none] ∧
    (bufInput.raw .wrapping (bufInput.raw .wrapping (bufInput.raw .wrapping
      (Input.fromReader (BufReader.new 2880 ⟨sampleFile, 0, failingPixels⟩)) .hdu).2 .hdu).2 (.pixel 1)).1 = .pixel none ∧
    (∃ e, bufInput.goOn .wrapping [.hdu, .hdu, .pixel 1, .hdu, .goto 0, .hdu]
      (Input.fromReader (BufReader.new 2880 ⟨sampleFile, 0, failingHeader⟩)) =
        [some (.ok samplePrimaryHdu), some (.err e), none, none]) := by
  refine ⟨sample_fits_release, by decide +kernel, by decide +kernel, by decide +kernel, .io .invalidInput, ?_⟩
  decide +kernel

end Fitsrs

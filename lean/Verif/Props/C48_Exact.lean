import Verif.Props.C47_C51
import Verif.Props.C64
/-
C48: what the asynchronous stream does where the synchronous iterator ends because the file is cut.
-/

namespace Fitsrs
open Spec Fut

/-- The data unit is in the file, with nothing or a whole record after its last block. -/
def CompleteAt (data : List UInt8) (f : Fits) : Prop :=
  f.posStart + f.numBytes ≤ data.length ∧
    (data.length ≤ f.posStart + roundUp2880 f.numBytes ∨ f.posStart + roundUp2880 f.numBytes + 80 ≤ data.length)

theorem completeAt_iff {p : Profile} {data : List UInt8} {h : HDU} {f : Fits} (h1 : f.posStart = h.dataOffset)
    (h2 : h.dataSize p = .ok f.numBytes) : CompleteAt data f ↔ CompleteIn p data h := by
  unfold CompleteAt
  rw [h1]
  constructor
  · rintro ⟨g1, g2⟩
    refine ⟨fun sz hsz => ?_, fun sz hsz => ?_⟩ <;> (rw [h2] at hsz; cases hsz; assumption)
  · rintro ⟨g1, g2⟩
    exact ⟨g1 _ h2, g2 _ h2⟩

/-- After an HDU that is cut: the iterator ends, the stream fails. -/
theorem cut_step {p : Profile} {data : List UInt8} {f : Fits} {a : AFits} (b : Beside data f a)
    (hin : f.rd.pos ≤ data.length) (hm : f.posStart + roundUp2880 f.numBytes < 2 ^ 63) (hc : ¬ CompleteAt data f) :
    (f.next p).1 = none ∧ ∃ e a', a.pollNext p = (.ready (some (.err e)), a') ∧ a'.errored = true := by
  have hge := roundUp2880_ge f.numBytes
  have hlo := b.lo
  have hhi := b.hi
  have hrem := b.remaining
  have hs : Sees a.rd (data.length + 1) (data.drop f.rd.pos) := by
    have := Sees.of_ready b.ready (data.length + 1)
    rw [b.bytes] at this
    exact this
  unfold CompleteAt at hc
  have hlt : data.length < f.posStart + roundUp2880 f.numBytes + 80 := by omega
  refine ⟨by rw [Fits.next_eof (p := p) b.startF b.errF b.lo b.hi hm (by rw [b.dataEq]; omega)], ?_⟩
  by_cases hz : data.length < f.posStart + f.numBytes
  · obtain ⟨r', h1⟩ := consumeUntilNextA_err (rem := a.remaining) (n := a.numBytes) hs (by rw [List.length_drop]; omega)
      (by rw [List.length_drop]; omega)
    refine ⟨.static "The file has reached EOF", { a with rd := r', start := false, errored := true }, ?_, rfl⟩
    unfold AFits.pollNext
    rw [if_neg (by simp [b.errA]), if_neg (by simp [b.startA]), h1]
    rfl
  · obtain ⟨r1, e1, e2⟩ := consumeUntilNextA_false (rem := a.remaining) (n := a.numBytes) hs
      (by rw [b.numBytes, List.length_drop]; omega) (by rw [b.numBytes]; omega)
    rw [List.drop_drop] at e2
    obtain ⟨r2, g1, -⟩ := readExact_eof (n := 80) e2 (by rw [b.numBytes, List.length_drop]; omega)
      (by rw [b.numBytes, List.length_drop]; omega)
    have g2 : (AHdu.newXtension p (r1.bytes.length + 1)).poll r1 = (.ready (.err failHeader), r2) := by
      have g3 : (consumeCardsA (r1.bytes.length + 1) 0).poll r1 = (.ready (.err failHeader), r2) := by
        unfold consumeCardsA
        rw [poll_andThen_err g1]
      exact poll_andThen_err g3
    refine ⟨failHeader, { a with rd := r2, start := false, errored := true }, ?_, rfl⟩
    unfold AFits.pollNext
    rw [if_neg (by simp [b.errA]), if_neg (by simp [b.startA]), e1]
    dsimp only
    rw [g2]
    rfl

/-- The data units that are announced end before the position `2 ^ 63`. -/
def EndsFit (p : Profile) (h : HDU) : Prop := ∀ sz, h.dataSize p = .ok sz → h.dataOffset + roundUp2880 sz < 2 ^ 63

/-- The stream gives the same HDUs, and then fails. -/
def FailsAfter (xs : List (Res HDU)) (ys : List (Res AHdu)) : Prop :=
  ∃ (hs : List HDU) (e : Err), xs = hs.map .ok ∧ ys = (hs.map fun h => .ok h.forget) ++ [.err e]

theorem FailsAfter.cons {xs : List (Res HDU)} {ys : List (Res AHdu)} (h : FailsAfter xs ys) (x : HDU) :
    FailsAfter (.ok x :: xs) (.ok x.forget :: ys) := by
  obtain ⟨hs, e, rfl, rfl⟩ := h
  exact ⟨x :: hs, e, rfl, rfl⟩

theorem cut_collect {p : Profile} {data : List UInt8} (hsize : data.length + 2960 < 2 ^ 63) (n : Nat) :
    ∀ f a, Beside data f a → f.rd.pos ≤ data.length → f.posStart + roundUp2880 f.numBytes < 2 ^ 63 →
      (∀ h, .ok h ∈ Fits.collect p n f → EndsFit p h) → (Fits.collect p n f).length < n →
      (¬ CompleteAt data f ∨ ∃ h, .ok h ∈ Fits.collect p n f ∧ ¬ CompleteIn p data h) →
      FailsAfter (Fits.collect p n f) (AFits.collect p n a) := by
  induction n with
  | zero => intro f a _ _ _ _ hl _; exact absurd hl (by omega)
  | succ n ih =>
    intro f a b hin hm hfit hl hc
    by_cases hcf : CompleteAt data f
    · have hstep := together_step (p := p) ⟨b, hcf.1, hcf.2⟩ hsize
      have hnx := @next_ok_inside p f
      rw [b.dataEq] at hnx
      rcases hc with hc | ⟨h, hmem, hnc⟩
      · exact absurd hcf hc
      unfold Fits.collect at hmem hfit hl ⊢
      unfold AFits.collect
      generalize f.next p = x at hstep hmem hfit hl hnx
      generalize a.pollNext p = y at hstep
      obtain ⟨x1, x2⟩ := x
      obtain ⟨y1, y2⟩ := y
      dsimp only at hstep hmem hfit hl
      cases hstep with
      | none => cases hmem
      | panic =>
        dsimp only at hmem
        rw [List.mem_singleton] at hmem
        cases hmem
      | err h1 h2 =>
        dsimp only at hmem
        rw [Fits.collect_errored h1, List.mem_singleton] at hmem
        cases hmem
      | @ok h0 _ _ h1 h2 h3 =>
        dsimp only at hmem hfit hl ⊢
        have hi : h0.dataOffset ≤ data.length := hnx rfl
        refine (ih x2 y2 h1 ?_ (by rw [h2.1]; exact hfit h0 (List.mem_cons_self ..) _ h3)
          (fun h hh => hfit h (List.mem_cons_of_mem _ hh)) (by rw [List.length_cons] at hl; omega) ?_).cons h0
        · rw [h2.2]; exact hi
        · rcases List.mem_cons.1 hmem with hmem | hmem
          · cases hmem
            exact .inl fun hcc => hnc ((completeAt_iff h2.1 h3).1 hcc)
          · exact .inr ⟨h, hmem, hnc⟩
    · obtain ⟨h1, e, a', h2, h3⟩ := cut_step (p := p) b hin hm hcf
      refine ⟨[], e, ?_, ?_⟩
      · unfold Fits.collect
        generalize f.next p = x at h1
        obtain ⟨x1, x2⟩ := x
        dsimp only at h1
        subst h1
        rfl
      · unfold AFits.collect
        rw [h2]
        dsimp only
        rw [AFits.collect_errored h3]
        rfl

/-- **C48**, exactly, for files that are cut: if the data unit of some HDU that the iterator returns is not entirely in the
file, or is followed by a part of a record only, then the iterator returns HDUs only and ends, while the stream (on a source
that is always ready) returns the same HDUs and then an error.  Otherwise the two agree (`C48_agree`). -/
theorem C48_exact {p : Profile} {r : AReader} (hr : Ready r.events) (hsize : r.bytes.length + 2960 < 2 ^ 63)
    (hs : FirstSimple r.bytes) (n : Nat)
    (hfit : ∀ h, .ok h ∈ Fits.collect p n (Fits.fromReader ⟨r.bytes, 0⟩) → EndsFit p h)
    (hl : (Fits.collect p n (Fits.fromReader ⟨r.bytes, 0⟩)).length < n)
    {h : HDU} (hmem : .ok h ∈ Fits.collect p n (Fits.fromReader ⟨r.bytes, 0⟩)) (hc : ¬ CompleteIn p r.bytes h) :
    FailsAfter (Fits.collect p n (Fits.fromReader ⟨r.bytes, 0⟩)) (AFits.collect p n (AFits.fromReader r)) := by
  cases n with
  | zero => exact absurd hl (by omega)
  | succ n =>
    have hstep := first_step (p := p) hr rfl hs
    have hnx := @next_ok_inside p (Fits.fromReader ⟨r.bytes, 0⟩)
    unfold Fits.collect at hmem hfit hl ⊢
    unfold AFits.collect
    generalize (Fits.fromReader ⟨r.bytes, 0⟩).next p = x at hstep hmem hfit hl hnx
    generalize (AFits.fromReader r).pollNext p = y at hstep
    obtain ⟨x1, x2⟩ := x
    obtain ⟨y1, y2⟩ := y
    dsimp only at hstep hmem hfit hl
    cases hstep with
    | none => cases hmem
    | panic =>
      dsimp only at hmem
      rw [List.mem_singleton] at hmem
      cases hmem
    | err h1 h2 =>
      dsimp only at hmem
      rw [Fits.collect_errored h1, List.mem_singleton] at hmem
      cases hmem
    | @ok h0 _ _ h1 h2 h3 =>
      dsimp only at hmem hfit hl ⊢
      have hi : h0.dataOffset ≤ r.bytes.length := hnx rfl
      refine (cut_collect hsize n x2 y2 h1 (by rw [h2.2]; exact hi) (by rw [h2.1]; exact hfit h0 (List.mem_cons_self ..) _ h3)
        (fun h hh => hfit h (List.mem_cons_of_mem _ hh)) (by rw [List.length_cons] at hl; omega) ?_).cons h0
      rcases List.mem_cons.1 hmem with hmem | hmem
      · cases hmem
        exact .inl fun hcc => hc ((completeAt_iff h2.1 h3).1 hcc)
      · exact .inr ⟨h, hmem, hc⟩

set_option maxRecDepth 20000 in
theorem cut_sync (p : Profile) : Fits.collect p 3 (Fits.fromReader ⟨sampleFile.take 2884, 0⟩) = [.ok samplePrimaryHdu] := by
  cases p <;> decide +kernel

set_option maxRecDepth 20000 in
/-- The sample file, cut inside the data unit of its first HDU, which the stream reports. -/
example (p : Profile) : FailsAfter [.ok samplePrimaryHdu] (AFits.collect p 3 (AFits.fromReader ⟨sampleFile.take 2884, []⟩)) := by
  have hb : (AReader.mk (sampleFile.take 2884) []).bytes = sampleFile.take 2884 := List.append_nil _
  have hl : (sampleFile.take 2884).length = 2884 := by decide +kernel
  have hsz : samplePrimaryHdu.dataSize p = .ok 10 := by cases p <;> decide +kernel
  have hoff : samplePrimaryHdu.dataOffset = 2880 := by decide +kernel
  have h1 : recordCard (recordAt (sampleFile.take 2884) 0 0) = .ok (.value "SIMPLE".toList (.logical true none)) := by
    decide +kernel
  have hcs := cut_sync p
  have := C48_exact (p := p) (r := ⟨sampleFile.take 2884, []⟩) (by decide) (by rw [hb, hl]; decide)
    (by
      rw [hb]
      intro name c h
      rw [h1] at h
      cases h
      rfl) 3 (by
      rw [hb, hcs]
      intro h hm sz hz
      rw [List.mem_singleton] at hm
      cases hm
      rw [hsz] at hz
      cases hz
      rw [hoff]
      decide) (by rw [hb, hcs]; decide) (h := samplePrimaryHdu) (by rw [hb, hcs]; exact List.mem_singleton.2 rfl) (by
      intro hc
      have := hc.size 10 hsz
      rw [hb, hl, hoff] at this
      omega)
  rw [hb, hcs] at this
  exact this

end Fitsrs

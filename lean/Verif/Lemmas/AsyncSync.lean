import Verif.Lemmas.AsyncFits
/-
The asynchronous stream on a reader that is always ready, compared with the synchronous iterator.
-/

namespace Fitsrs
open Spec Fut

theorem extensionItem_some {p : Profile} {data : List UInt8} {T : Nat} (h : T + 80 ≤ data.length) :
    Fits.extensionItem (Fits.extensionAt p data T) = some (Fits.extensionAt p data T).1 := by
  unfold Fits.extensionItem
  split
  · rename_i he
    rw [if_neg]
    unfold Fits.extensionAt HDU.newXtension at he ⊢
    cases hc : consumeCards { rd := ⟨data, T⟩, nread := 0 } with
    | mk x s =>
      rw [hc] at he
      cases x with
      | ok cards => exact absurd he xtensionOf_ne_eof
      | panic => cases he
      | err e =>
        dsimp only
        obtain ⟨-, k, h1, h2, -⟩ := consumeCardsN_err hc
        dsimp only at h1 h2
        omega
  · rfl

/-- The states of the two readers between two HDUs. -/
structure Beside (data : List UInt8) (f : Fits) (a : AFits) : Prop where
  dataEq : f.rd.data = data
  startF : f.start = false
  startA : a.start = false
  errF : f.errored = false
  errA : a.errored = false
  numBytes : a.numBytes = f.numBytes
  lo : f.posStart ≤ f.rd.pos
  hi : f.rd.pos ≤ f.posStart + f.numBytes
  remaining : a.remaining = f.posStart + f.numBytes - f.rd.pos
  bytes : a.rd.bytes = data.drop f.rd.pos
  ready : Ready a.rd.events

/-- And the data unit is in the file, with nothing or a whole record after its last block. -/
structure Together (data : List UInt8) (f : Fits) (a : AFits) : Prop extends Beside data f a where
  complete : f.posStart + f.numBytes ≤ data.length
  rest : data.length ≤ f.posStart + roundUp2880 f.numBytes ∨ f.posStart + roundUp2880 f.numBytes + 80 ≤ data.length

/-- The items and the states after one step. -/
inductive Step (p : Profile) (data : List UInt8) : Option (Res HDU) → Fits → StreamPoll AHdu → AFits → Prop
  | none {f a} : Step p data none f (.ready none) a
  | ok {h f a} : Beside data f a → f.posStart = h.dataOffset ∧ f.rd.pos = h.dataOffset → h.dataSize p = .ok f.numBytes → Step p data (some (.ok h)) f (.ready (some (.ok h.forget))) a
  | err {e e' f a} : f.errored = true → a.errored = true → Step p data (some (.err e)) f (.ready (some (.err e'))) a
  | panic {f a} : Step p data (some .panic) f (.ready (some .panic)) a

theorem pollNext_ready {p : Profile} {a : AFits} (h : Ready a.rd.events) : Ready (a.pollNext p).2.rd.events :=
  pollNext_keeps (P := fun r => Ready r.events) (fun _ _ _ h => poll_ready_events h) h

theorem together_step {p : Profile} {data : List UInt8} {f : Fits} {a : AFits} (t : Together data f a)
    (hsize : data.length + 2960 < 2 ^ 63) :
    Step p data (f.next p).1 (f.next p).2 (a.pollNext p).1 (a.pollNext p).2 := by
  have hge := roundUp2880_ge f.numBytes
  have hlt := roundUp2880_lt f.numBytes
  have hcomp := t.complete
  have hlo := t.lo
  have hhi := t.hi
  have hrem := t.remaining
  have hs : Sees a.rd (data.length + 1) (data.drop f.rd.pos) := by
    have := Sees.of_ready t.ready (data.length + 1)
    rw [t.bytes] at this
    exact this
  have hnext := Fits.next_inside (p := p) t.startF t.errF t.lo t.hi (by omega)
  rw [t.dataEq] at hnext
  have hT : f.posStart + roundUp2880 f.numBytes = f.rd.pos + (a.remaining + (roundUp2880 a.numBytes - a.numBytes)) := by
    rw [t.numBytes]; omega
  rcases t.rest with hr | hr
  · -- nothing after the last block
    rw [Fits.next_eof (p := p) t.startF t.errF t.lo t.hi (by omega) (by rw [t.dataEq]; omega)]
    obtain ⟨a', ha⟩ := pollNext_none (p := p) t.startA t.errA hs (by omega) (by omega) (by omega)
    rw [ha]
    exact .none
  · rw [extensionItem_some hr] at hnext
    have hready := pollNext_ready (p := p) t.ready
    cases hx : Fits.extensionAt p data (f.posStart + roundUp2880 f.numBytes) with
    | mk x s =>
      rw [hx] at hnext
      dsimp only at hnext
      have hx' := hx
      rw [hT] at hx'
      -- the asynchronous side, when the extension cannot be read
      have hbad : ∀ (r1 : AReader), (AFits.consumeUntilNextHdu a.remaining a.numBytes).poll a.rd = (.ready (.ok false), r1) →
          a.pollNext p = match (AHdu.newXtension p (r1.bytes.length + 1)).poll r1 with
            | (.pending _, rd) => (.pending, { a with rd })
            | (.ready r, rd) => AFits.record p (some r) { a with rd } := by
        intro r1 h1
        unfold AFits.pollNext
        rw [if_neg (by simp [t.errA]), if_neg (by simp [t.startA]), h1]
        rfl
      obtain ⟨r1, e1, e2⟩ := consumeUntilNextA_false (rem := a.remaining) (n := a.numBytes) hs
        (by rw [List.length_drop]; omega) (by omega)
      rw [List.drop_drop, ← hT] at e2
      have hb := hbad r1 e1
      have hnx := newXtensionA_bad (p := p) (s := { rd := ⟨data, f.posStart + roundUp2880 f.numBytes⟩, nread := 0 }) rfl
        (fuel := r1.bytes.length + 1) e2 (by dsimp only; omega)
        (by rw [e2.bytes, List.length_drop]; dsimp only; omega)
      cases x with
      | err e =>
        obtain ⟨e', r', h1⟩ := hnx.1 e s hx
        rw [h1] at hb
        rw [hb, hnext]
        exact .err rfl rfl
      | panic =>
        obtain ⟨r', h1⟩ := hnx.2 s hx
        rw [h1] at hb
        rw [hb, hnext]
        exact .panic
      | ok h =>
        have hoff := newXtension_ok rfl hx
        cases hsz : h.dataSize p with
        | err e => exact absurd hsz HDU.dataSize_ne_err
        | panic =>
          obtain ⟨r2, f1, -⟩ := newXtensionA_ok (fuel := r1.bytes.length + 1) (k := data.length + 2960) rfl hx
            ⟨e2.bytes, .of_ready (by have := poll_ready_events (f := AFits.consumeUntilNextHdu a.remaining a.numBytes) t.ready
                                     rw [e1] at this; exact this) _⟩
            (by
              have h2 := hoff.1.inFile
              have h3 := hoff.2.2.1
              have := roundUp2880_lt (80 * h.cards.length)
              dsimp only at h2 h3 ⊢
              omega)
            (by rw [e2.bytes, List.length_drop]; dsimp only; omega)
          rw [f1] at hb
          rw [hb, hnext]
          unfold Fits.record AFits.record
          dsimp only
          rw [HDU.forget_dataSize, hsz]
          exact .panic
        | ok sz =>
          have hs' : Sees a.rd (data.length + 2960) (data.drop f.rd.pos) := by
            have := Sees.of_ready t.ready (data.length + 2960)
            rw [t.bytes] at this
            exact this
          obtain ⟨r2, f1, f2⟩ := pollNext_ok (p := p) t.startA t.errA hs' hx' hsz (by
              have h2 := hoff.1.inFile
              have h3 := hoff.2.2.1
              have := roundUp2880_lt (80 * h.cards.length)
              dsimp only at h2 h3 ⊢
              omega)
          rw [f1] at hready
          rw [f1, hnext]
          unfold Fits.record
          dsimp only
          rw [hsz]
          have hsrd := hoff.2.2.2
          refine Step.ok ⟨by rw [hsrd], t.startF, rfl, t.errF, rfl, rfl, ?_, ?_, ?_, ?_, hready⟩ ⟨rfl, by rw [hsrd]⟩ hsz
          · rw [hsrd]; exact Nat.le_refl _
          · rw [hsrd]; exact Nat.le_add_right _ _
          · rw [hsrd]; dsimp only; omega
          · rw [f2.bytes, hsrd]

theorem Fits.collect_errored {p : Profile} {f : Fits} (h : f.errored = true) (n : Nat) : f.collect p n = [] := by
  cases n with
  | zero => rfl
  | succ n => unfold Fits.collect Fits.next; rw [if_pos h]

theorem AFits.collect_errored {p : Profile} {f : AFits} (h : f.errored = true) (n : Nat) : f.collect p n = [] := by
  cases n with
  | zero => rfl
  | succ n => unfold AFits.collect AFits.pollNext; rw [if_pos h]

theorem agree_step {p : Profile} {data : List UInt8} {f : Fits} {a : AFits} {n : Nat}
    (ih : ∀ f a, Together data f a → (∀ h, .ok h ∈ Fits.collect p n f → CompleteIn p data h) →
      SameItems (Fits.collect p n f) (AFits.collect p n a))
    (hstep : Step p data (f.next p).1 (f.next p).2 (a.pollNext p).1 (a.pollNext p).2)
    (hc : ∀ h, .ok h ∈ Fits.collect p (n + 1) f → CompleteIn p data h) :
    SameItems (Fits.collect p (n + 1) f) (AFits.collect p (n + 1) a) := by
  unfold Fits.collect at hc ⊢
  unfold AFits.collect
  generalize f.next p = x at hstep hc
  generalize a.pollNext p = y at hstep
  obtain ⟨x1, x2⟩ := x
  obtain ⟨y1, y2⟩ := y
  dsimp only at hstep hc
  cases hstep with
  | none => exact .nil
  | panic => exact .cons .panic .nil
  | err h1 h2 =>
    dsimp only
    rw [Fits.collect_errored h1, AFits.collect_errored h2]
    exact .cons (.err _ _) .nil
  | ok h1 h2 h3 =>
    dsimp only at hc ⊢
    have hc1 := hc _ (List.mem_cons_self ..)
    exact .cons (.ok _) (ih x2 y2 ⟨h1, by rw [h2.1]; exact hc1.size _ h3, by rw [h2.1]; exact hc1.rest _ h3⟩
      fun h hh => hc h (List.mem_cons_of_mem _ hh))

theorem together_collect {p : Profile} {data : List UInt8} (hsize : data.length + 2960 < 2 ^ 63) (n : Nat) :
    ∀ f a, Together data f a → (∀ h, .ok h ∈ Fits.collect p n f → CompleteIn p data h) →
      SameItems (Fits.collect p n f) (AFits.collect p n a) := by
  induction n with
  | zero => exact fun f a t hc => .nil
  | succ n ih => exact fun f a t hc => agree_step ih (together_step t hsize) hc

theorem first_step {p : Profile} {data : List UInt8} {r : AReader} (hr : Ready r.events) (hb : r.bytes = data)
    (hs : FirstSimple data) :
    Step p data ((Fits.fromReader ⟨data, 0⟩).next p).1 ((Fits.fromReader ⟨data, 0⟩).next p).2
      ((AFits.fromReader r).pollNext p).1 ((AFits.fromReader r).pollNext p).2 := by
  have hready := pollNext_ready (p := p) (a := AFits.fromReader r) hr
  have hsees : ∀ k, Sees r k (data.drop 0) := fun k => ⟨hb, .of_ready hr _⟩
  have hx : (Fits.fromReader ⟨data, 0⟩).next p = Fits.record p (some (HDU.newPrimary ⟨data, 0⟩).1)
      { start := false, posStart := 0, numBytes := 0, errored := false, rd := (HDU.newPrimary ⟨data, 0⟩).2.rd } := rfl
  rw [hx]
  clear hx
  have hy : (AFits.fromReader r).pollNext p = match (AHdu.newPrimary (r.bytes.length + 1)).poll r with
      | (.pending _, rd) => (.pending, { AFits.fromReader r with rd })
      | (.ready x, rd) => AFits.record p (some x) { AFits.fromReader r with rd } := rfl
  have hbad := newPrimaryA_bad (rd := ⟨data, 0⟩) (fuel := r.bytes.length + 1) (hsees (data.length + 1)) (by dsimp only; omega)
    (by rw [hb]; dsimp only; omega) (by
      intro cards s' h name c cs hcs
      have h1 := (consumeCardsN_ok h).2.2.2.2.1 0 (by rw [hcs]; exact Nat.succ_pos _)
      subst hcs
      exact hs name c h1)
  cases hx : HDU.newPrimary ⟨data, 0⟩ with
  | mk x s =>
    cases x with
    | err e =>
      obtain ⟨e', r', h1⟩ := hbad.1 e s hx
      rw [h1] at hy
      rw [hy]
      exact .err rfl rfl
    | panic =>
      obtain ⟨r', h1⟩ := hbad.2 s hx
      rw [h1] at hy
      rw [hy]
      exact .panic
    | ok h =>
      have hoff := newPrimary_ok hx
      cases hsz : h.dataSize p with
      | err e => exact absurd hsz HDU.dataSize_ne_err
      | panic =>
        obtain ⟨r2, f1, -⟩ := newPrimaryA_ok (fuel := r.bytes.length + 1) hx (hsees (h.dataOffset)) (by dsimp only; omega)
          (by rw [hb]; dsimp only; omega)
        rw [f1] at hy
        rw [hy]
        unfold Fits.record AFits.record
        dsimp only
        rw [HDU.forget_dataSize, hsz]
        exact .panic
      | ok sz =>
        obtain ⟨r2, f1, f2⟩ := pollNext_first (p := p) (a := AFits.fromReader r) rfl rfl (hsees (h.dataOffset)) hx hsz
          (Nat.le_refl _)
        rw [f1] at hready
        rw [f1]
        unfold Fits.record
        dsimp only
        rw [hsz]
        have hsrd := hoff.2.2.2.2
        refine Step.ok ⟨by rw [hsrd], rfl, rfl, rfl, rfl, rfl, ?_, ?_, ?_, ?_, hready⟩ ⟨rfl, by rw [hsrd]⟩ hsz
        · rw [hsrd]; exact Nat.le_refl _
        · rw [hsrd]; exact Nat.le_add_right _ _
        · rw [hsrd]; dsimp only; omega
        · rw [f2.bytes, hsrd]; rfl

theorem async_sync {p : Profile} {r : AReader} (hr : Ready r.events) (hsize : r.bytes.length + 2960 < 2 ^ 63)
    (hs : FirstSimple r.bytes) (n : Nat)
    (hc : ∀ h, .ok h ∈ Fits.collect p n (Fits.fromReader ⟨r.bytes, 0⟩) → CompleteIn p r.bytes h) :
    SameItems (Fits.collect p n (Fits.fromReader ⟨r.bytes, 0⟩)) (AFits.collect p n (AFits.fromReader r)) := by
  cases n with
  | zero => exact .nil
  | succ n => exact agree_step (together_collect hsize n) (first_step hr rfl hs) hc

end Fitsrs

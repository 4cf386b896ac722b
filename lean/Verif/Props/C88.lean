import Verif.Lemmas.AsyncProg
/-
C88: the end of the asynchronous stream of HDUs, when it is polled again.
-/

namespace Fitsrs
open Spec Fut

/-! ### At the end of the source -/

/-- A source at its end. -/
def atEnd : AReader := ⟨[], []⟩

theorem pollFill_empty {r r' : AReader} (h : r.pollFill = (some (.ok []), r')) : r' = atEnd := by
  obtain ⟨cur, es⟩ := r
  cases cur with
  | cons b bs => cases h
  | nil =>
    cases es with
    | nil => cases h; rfl
    | cons e es => cases e <;> cases h

theorem readExactN_end {fuel : Nat} : ∀ {n : Nat} {acc : List UInt8} {r r' : AReader} {x : IoKind}, Healthy r.events →
    (readExactN fuel n acc).poll r = (.ready (.err (.io x)), r') → r' = atEnd := by
  induction fuel with
  | zero => intro n acc r r' x _ h; cases n <;> cases h
  | succ fuel ih =>
    intro n acc r r' x hh h
    cases n with
    | zero => cases h
    | succ n =>
      unfold readExactN at h
      obtain ⟨cur, es⟩ := r
      cases cur with
      | cons b bs => exact ih (r := (AReader.mk (b :: bs) es).consume (min (n + 1) (b :: bs).length)) hh h
      | nil =>
        cases es with
        | nil => cases h; rfl
        | cons e es =>
          cases e with
          | pending => cases h
          | fail x => exact hh.fail.elim
          | chunk b bs => exact ih (r := (AReader.mk (b :: bs) es).consume (min (n + 1) (b :: bs).length)) hh.tail h

theorem atEof_end {r r' : AReader} (h : AFits.atEof.poll r = (.ready (.ok true), r')) : r' = atEnd := by
  obtain ⟨cur, es⟩ := r
  cases cur with
  | cons b bs => cases h
  | nil =>
    cases es with
    | nil => cases h; rfl
    | cons e es => cases e <;> cases h

theorem skipFill_end {n : Nat} {r r' : AReader} (hh : Healthy r.events)
    (h : (AFits.skipFill n).poll r = (.ready (.ok true), r')) : r' = atEnd := by
  unfold AFits.skipFill at h
  split at h
  · rw [poll_bind] at h
    rcases hp : (readExact (2880 - n % 2880)).poll r with ⟨x, r1⟩
    rw [hp] at h
    cases x with
    | pending f => cases h
    | ready x =>
      dsimp only at h
      cases x with
      | panic => cases h
      | ok bs => exact atEof_end h
      | err e =>
        split at h
        · rename_i he
          cases he
          cases h
          exact readExactN_end hh hp
        · cases h
        · cases h
        · rename_i he; cases he
  · exact atEof_end h

theorem consumeUntil_end {m n : Nat} {r r' : AReader} (hh : Healthy r.events)
    (h : (AFits.consumeUntilNextHdu m n).poll r = (.ready (.ok true), r')) : r' = atEnd := by
  unfold AFits.consumeUntilNextHdu at h
  split at h
  · unfold Fut.andThen at h
    rw [poll_bind] at h
    have hk := poll_healthy (f := readNBytesExact m) hh
    rcases hp : (readNBytesExact m).poll r with ⟨x, r1⟩
    rw [hp] at h hk
    cases x with
    | pending f => cases h
    | ready x =>
      cases x with
      | panic => cases h
      | ok bs => exact skipFill_end hk h
      | err e => cases h
  · exact skipFill_end hh h

theorem skipFill_atEnd (n : Nat) : (AFits.skipFill n).poll atEnd = (.ready (.ok true), atEnd) := by
  unfold AFits.skipFill
  split
  · obtain ⟨m, hm⟩ : ∃ m, 2880 - n % 2880 = m + 1 := ⟨2880 - n % 2880 - 1, by omega⟩
    rw [hm]
    rfl
  · rfl

/-- Polling at the end of the source: the end again if no value is left, an error otherwise. -/
theorem pollNext_atEnd {p : Profile} {nb : Nat} (m : Nat) :
    AFits.pollNext p ⟨false, m, nb, false, atEnd⟩ =
      if m = 0 then (.ready none, ⟨false, m, nb, false, atEnd⟩)
      else (.ready (some (.err (.static "The file has reached EOF"))), ⟨false, m, nb, true, atEnd⟩) := by
  unfold AFits.pollNext
  dsimp only
  rw [if_neg (by decide), if_neg (by decide)]
  unfold AFits.consumeUntilNextHdu
  by_cases hm : m = 0
  · rw [if_neg (by omega), skipFill_atEnd, if_pos hm]
    rfl
  · rw [if_pos (by omega), if_neg hm]
    have h1 : (readNBytesExact m).poll atEnd = (.ready (.err (.static "The file has reached EOF")), atEnd) := by
      show (Poll.ready (if m ≠ 0 then _ else _), _) = _
      rw [if_pos hm]
    rw [poll_andThen_err h1]
    rfl

/-- When the stream says that it is at its end, the source is at its end, and the values that are left are what they were. -/
theorem pollNext_none_end {p : Profile} {f f' : AFits} (hh : Healthy f.rd.events) (he : f.errored = false)
    (h : f.pollNext p = (.ready none, f')) : f' = ⟨false, f.remaining, f.numBytes, false, atEnd⟩ := by
  obtain ⟨st, m, nb, er, r⟩ := f
  dsimp only at he hh ⊢
  subst he
  have hrec : ∀ (x : Res AHdu) (g : AFits), AFits.record p (some x) g ≠ (.ready none, f') := by
    intro x g hx
    unfold AFits.record at hx
    split at hx
    · split at hx <;> cases hx
    · cases hx
    · cases hx
    · rename_i he; cases he
  unfold AFits.pollNext at h
  dsimp only at h
  rw [if_neg (by decide)] at h
  split at h
  · split at h
    · cases h
    · exact absurd h (hrec _ _)
  · split at h
    · cases h
    · rename_i hp
      have := consumeUntil_end hh hp
      subst this
      cases h
      rfl
    · split at h
      · cases h
      · exact absurd h (hrec _ _)
    · exact absurd h (hrec _ _)
    · exact absurd h (hrec _ _)

/-- A value at the end of the source. -/
theorem value_atEnd {p : Profile} (ty : Bitpix) (m : Nat) :
    St.pollNext p ⟨ty, atEnd, m⟩ =
      if m = 0 then (.ready none, ⟨ty, atEnd, m⟩) else (.ready (some (.err (.io .unexpectedEof))), ⟨ty, atEnd, m⟩) := by
  unfold St.pollNext
  dsimp only
  by_cases hm : m = 0
  · rw [if_pos hm, if_pos hm]
  · rw [if_neg hm, if_neg hm]
    cases ty <;> rfl

theorem readExactN_ne_panic {fuel : Nat} : ∀ {n : Nat} {acc : List UInt8} {r r' : AReader}, n ≤ fuel →
    (readExactN fuel n acc).poll r ≠ (.ready .panic, r') := by
  induction fuel with
  | zero => intro n acc r r' hn h; obtain rfl : n = 0 := by omega
            cases h
  | succ fuel ih =>
    intro n acc r r' hn h
    cases n with
    | zero => cases h
    | succ n =>
      unfold readExactN at h
      obtain ⟨cur, es⟩ := r
      cases cur with
      | cons b bs =>
        exact ih (r := (AReader.mk (b :: bs) es).consume (min (n + 1) (b :: bs).length)) (by rw [List.length_cons]; omega) h
      | nil =>
        cases es with
        | nil => cases h
        | cons e es =>
          cases e with
          | pending => cases h
          | fail x => cases h
          | chunk b bs =>
            exact ih (r := (AReader.mk (b :: bs) es).consume (min (n + 1) (b :: bs).length)) (by rw [List.length_cons]; omega) h

theorem St.pollNext_calm {p : Profile} {s : St} (hd : pixelSize s.ty ∣ s.remaining) :
    (AOut.value (s.pollNext p).1).panics = false := by
  unfold St.pollNext
  split
  · rfl
  · rename_i hz
    have hle := Nat.le_of_dvd (by omega) hd
    split
    · rfl
    · have hu : usub p s.remaining s.ty.byteSize = .ok (s.remaining - pixelSize s.ty) := by
        rw [byteSize_eq]
        unfold usub
        rw [if_pos hle]
      rw [hu]
      rfl
    · rfl
    · rename_i hp
      exact absurd hp (readExactN_ne_panic (Nat.le_refl _))

/-- What a program is told about the HDUs after the end, when it polls `k` times. -/
def afterEnd (failed : Bool) (left : Nat) : (k : Nat) → List (StreamPoll AHdu)
  | 0 => []
  | k + 1 =>
    (if failed = false ∧ left ≠ 0 then .ready (some (.err (.static "The file has reached EOF"))) else .ready none) ::
      List.replicate k (.ready none)

theorem afterEnd_failed (left k : Nat) : afterEnd true left k = List.replicate k (.ready none) := by
  cases k with
  | zero => rfl
  | succ k =>
    show (if _ then _ else _) :: _ = _
    rw [if_neg (by simp)]
    rfl

theorem afterEnd_zero (failed : Bool) (k : Nat) : afterEnd failed 0 k = List.replicate k (.ready none) := by
  cases k with
  | zero => rfl
  | succ k =>
    show (if _ then _ else _) :: _ = _
    rw [if_neg (by simp)]
    rfl

theorem run_atEnd {p : Profile} (ops : List AOp) : ∀ (st er : Bool) (m nb : Nat) (last : Option AHdu) (r : AReader),
    (er = false → st = false ∧ r = atEnd) →
    Healthy r.events → (∀ h, last = some h → pixelSize h.ty ∣ m) →
    ∃ xs, AProg.run p ops ⟨⟨st, m, nb, er, r⟩, last⟩ = xs ∧
      hduPolls xs = afterEnd er m (ops.countP isNext) := by
  induction ops with
  | nil => intro st er m nb last r _ _ _; exact ⟨[], rfl, rfl⟩
  | cons op ops ih =>
    intro st er m nb last r hr hh hd
    refine ⟨_, rfl, ?_⟩
    cases op with
    | next =>
      rw [List.countP_cons_of_pos (by rfl)]
      cases er with
      | true =>
        have h1 : AFits.pollNext p ⟨st, m, nb, true, r⟩ = (.ready none, ⟨st, m, nb, true, r⟩) := by
          unfold AFits.pollNext
          rw [if_pos rfl]
        have h2 : AProg.step p ⟨⟨st, m, nb, true, r⟩, last⟩ .next = (.hdu (.ready none), ⟨⟨st, m, nb, true, r⟩, last⟩) := by
          unfold AProg.step
          rw [h1]
          rfl
        rw [run_cons (by rw [h2]; rfl), h2]
        obtain ⟨xs, h3, h4⟩ := ih st true m nb last r hr hh hd
        rw [h3]
        show _ :: hduPolls xs = _
        rw [h4, afterEnd_failed, afterEnd_failed]
        rfl
      | false =>
        obtain ⟨rfl, rfl⟩ := hr rfl
        have h1 := pollNext_atEnd (p := p) (nb := nb) m
        by_cases hm : m = 0
        · subst hm
          rw [if_pos rfl] at h1
          have h2 : AProg.step p ⟨⟨false, 0, nb, false, atEnd⟩, last⟩ .next =
              (.hdu (.ready none), ⟨⟨false, 0, nb, false, atEnd⟩, last⟩) := by
            unfold AProg.step
            rw [h1]
            rfl
          rw [run_cons (by rw [h2]; rfl), h2]
          obtain ⟨xs, h3, h4⟩ := ih false false 0 nb last atEnd hr hh hd
          rw [h3]
          show _ :: hduPolls xs = _
          rw [h4, afterEnd_zero, afterEnd_zero]
          rfl
        · rw [if_neg hm] at h1
          have h2 : AProg.step p ⟨⟨false, m, nb, false, atEnd⟩, last⟩ .next =
              (.hdu (.ready (some (.err (.static "The file has reached EOF")))), ⟨⟨false, m, nb, true, atEnd⟩, last⟩) := by
            unfold AProg.step
            rw [h1]
            rfl
          rw [run_cons (by rw [h2]; rfl), h2]
          obtain ⟨xs, h3, h4⟩ := ih false true m nb last atEnd (fun h => by cases h) hh hd
          rw [h3]
          show _ :: hduPolls xs = _
          rw [h4, afterEnd_failed]
          show _ = (if _ then _ else _) :: _
          rw [if_pos ⟨rfl, hm⟩]
    | value =>
      rw [List.countP_cons_of_neg (by decide)]
      cases last with
      | none =>
        have h2 : AProg.step p ⟨⟨st, m, nb, er, r⟩, none⟩ .value = (.nothing, ⟨⟨st, m, nb, er, r⟩, none⟩) := rfl
        rw [run_cons (by rw [h2]; rfl), h2]
        obtain ⟨xs, h3, h4⟩ := ih st er m nb none r hr hh hd
        rw [h3]
        exact h4
      | some h =>
        have hdv := hd h rfl
        have h2 : AProg.step p ⟨⟨st, m, nb, er, r⟩, some h⟩ .value = (.value (St.pollNext p ⟨h.ty, r, m⟩).1,
            ⟨⟨st, (St.pollNext p ⟨h.ty, r, m⟩).2.remaining, nb, er, (St.pollNext p ⟨h.ty, r, m⟩).2.rd⟩, some h⟩) := by
          unfold AProg.step
          dsimp only
          rw [dataOf_eq]
          rfl
        have hnp := St.pollNext_calm (p := p) (s := ⟨h.ty, r, m⟩) hdv
        rw [run_cons (by rw [h2]; exact hnp), h2]
        show hduPolls (AProg.run p ops _) = _
        cases er with
        | false =>
          obtain ⟨rfl, rfl⟩ := hr rfl
          have h3 : (St.pollNext p ⟨h.ty, atEnd, m⟩).2 = ⟨h.ty, atEnd, m⟩ := by
            rw [value_atEnd]; split <;> rfl
          rw [h3]
          obtain ⟨xs, h3, h4⟩ := ih false false m nb (some h) atEnd hr hh hd
          rw [h3]
          exact h4
        | true =>
          have hk := St.pollNext_keeps (p := p) (s := ⟨h.ty, r, m⟩) (P := fun r => Healthy r.events)
            (fun _ _ _ h => poll_healthy h) hh
          obtain ⟨xs, h3, h4⟩ := ih st true (St.pollNext p ⟨h.ty, r, m⟩).2.remaining nb (some h) (St.pollNext p ⟨h.ty, r, m⟩).2.rd
            (fun h => by cases h) hk (fun h' hh' => by
              cases hh'
              rcases St.pollNext_cases p (s := ⟨h.ty, r, m⟩) hdv with ⟨g, -⟩ | ⟨v, -, -, g⟩
              · rw [g]; exact hdv
              · rw [g]; exact Nat.dvd_sub hdv (Nat.dvd_refl _))
          rw [h3, h4, afterEnd_failed, afterEnd_failed]

/-! ## C88: the end of the stream of HDUs is final -/

/-- **C88**, the full statement: after a program has been told that the stream of HDUs is at its end, it is told so each time
it asks again. -/
def C88_statement : Prop :=
  ∀ (p : Profile) (r : AReader) (ops ops' : List AOp) (os : List AOut), Healthy r.events →
    AProg.ofSource p (ops ++ [.next]) r = os ++ [.hdu (.ready none)] → (∀ o ∈ os, o.panics = false) →
    hduPolls (AProg.ofSource p (ops ++ .next :: ops') r) =
      hduPolls os ++ List.replicate (ops'.countP isNext + 1) (.ready none)

theorem ofSource_end {p : Profile} {r : AReader} {ops : List AOp} {os : List AOut}
    (h : AProg.ofSource p (ops ++ [.next]) r = os ++ [.hdu (.ready none)]) (hc : ∀ o ∈ os, o.panics = false) :
    AProg.run p ops ⟨AFits.fromReader r, none⟩ = os ∧
    ((AProg.after p ops ⟨AFits.fromReader r, none⟩).file.pollNext p).1 = .ready none := by
  unfold AProg.ofSource at h
  generalize AProg.mk (AFits.fromReader r) none = s at *
  induction ops generalizing s os with
  | nil =>
    have h1 : AProg.run p [.next] s = [(s.step p .next).1] := by
      unfold AProg.run
      split <;> rfl
    rw [List.nil_append, h1] at h
    cases os with
    | nil =>
      injection h with h
      injection h with h
      exact ⟨rfl, h⟩
    | cons o os =>
      injection h with _ h
      cases os <;> cases h
  | cons op ops ih =>
    rw [List.cons_append] at h
    by_cases hp : (s.step p op).1.panics = true
    · unfold AProg.run at h
      rw [if_pos hp] at h
      cases os with
      | nil =>
        injection h with h
        rw [h] at hp
        cases hp
      | cons o os =>
        injection h with _ h
        cases os <;> cases h
    · rw [Bool.not_eq_true] at hp
      rw [run_cons hp] at h
      cases os with
      | nil =>
        injection h with _ h
        exfalso
        cases ops <;> (unfold AProg.run at h; cases h)
      | cons o os =>
        injection h with h1 h2
        obtain ⟨g1, g2⟩ := ih (os := os) (fun o ho => hc o (List.mem_cons_of_mem _ ho)) _ h2
        rw [run_cons hp, g1, h1]
        exact ⟨rfl, g2⟩

/-- **C88**, exactly what happens: after the end, the program is told about an error the first time it asks again for an
HDU, if it has not been given all the values of the last HDU and has not been told about an error before; and about the end
otherwise. -/
theorem C88_exact {p : Profile} {r : AReader} {ops : List AOp} (ops' : List AOp) {os : List AOut} (hh : Healthy r.events)
    (h : AProg.ofSource p (ops ++ [.next]) r = os ++ [.hdu (.ready none)]) (hc : ∀ o ∈ os, o.panics = false) :
    hduPolls (AProg.ofSource p (ops ++ .next :: ops') r) =
      hduPolls os ++ .ready none :: afterEnd (os.any hduFailed) (leftAfter p 0 os) (ops'.countP isNext) := by
  obtain ⟨h1, h2⟩ := ofSource_end h hc
  have hcalm : Calm (AProg.run p ops ⟨AFits.fromReader r, none⟩) := by rw [h1]; exact hc
  obtain ⟨t1, t2, t3, t4⟩ := (Told.init p hh).run ops hcalm
  rw [List.nil_append, h1] at t2 t3
  unfold AProg.ofSource
  rw [run_append _ _ _ hcalm, hduPolls_append, h1]
  congr 1
  generalize AProg.after p ops ⟨AFits.fromReader r, none⟩ = s at *
  have hs : s.step p .next = (.hdu (.ready none), ⟨(s.file.pollNext p).2, s.last⟩) := by
    unfold AProg.step
    dsimp only
    rw [h2]
    rfl
  rw [run_cons (by rw [hs]; rfl), hs]
  show _ :: hduPolls (AProg.run p ops' _) = _
  congr 1
  cases he : s.file.errored with
  | true =>
    have h3 : (s.file.pollNext p).2 = s.file := by
      unfold AFits.pollNext
      rw [if_pos he]
    rw [h3, ← t3, he]
    obtain ⟨⟨st, m, nb, er, r⟩, last⟩ := s
    dsimp only at he t1 t2 t4 ⊢
    subst he
    obtain ⟨xs, g1, g2⟩ := run_atEnd (p := p) ops' st true m nb last r (fun h => by cases h) t1 t4
    rw [g1, g2, t2]
  | false =>
    have h3 := pollNext_none_end (p := p) (f' := (s.file.pollNext p).2) t1 he (Prod.ext h2 rfl)
    rw [h3, ← t3, he, ← t2]
    obtain ⟨xs, g1, g2⟩ := run_atEnd (p := p) ops' false false s.file.remaining s.file.numBytes s.last atEnd
      (fun _ => ⟨rfl, rfl⟩) (fun _ h => by cases h) t4
    rw [g1, g2]

/-- **C88**, partial: if the program has been given all the values of the last HDU (or its data unit is empty), or has been
told about an error.  (Missing: the other programs, for which the statement is false, see below.) -/
theorem C88_partial {p : Profile} {r : AReader} {ops : List AOp} (ops' : List AOp) {os : List AOut} (hh : Healthy r.events)
    (h : AProg.ofSource p (ops ++ [.next]) r = os ++ [.hdu (.ready none)]) (hc : ∀ o ∈ os, o.panics = false)
    (hl : leftAfter p 0 os = 0 ∨ os.any hduFailed = true) :
    hduPolls (AProg.ofSource p (ops ++ .next :: ops') r) =
      hduPolls os ++ List.replicate (ops'.countP isNext + 1) (.ready none) := by
  rw [C88_exact ops' hh h hc]
  rcases hl with hl | hl
  · rw [hl, afterEnd_zero]; rfl
  · rw [hl, afterEnd_failed]; rfl

set_option maxRecDepth 20000 in
theorem end_told : AProg.ofSource .checked ([.next, .next] ++ [.next]) ⟨[], deliver [sampleFile]⟩ =
    [.hdu (.ready (some (.ok samplePrimaryHdu.forget))), .hdu (.ready (some (.ok sampleImageHdu.forget)))] ++
      [.hdu (.ready none)] := by
  decide +kernel

set_option maxRecDepth 20000 in
theorem end_told_again : hduPolls (AProg.ofSource .checked ([.next, .next] ++ .next :: [.next]) ⟨[], deliver [sampleFile]⟩) =
    [.ready (some (.ok samplePrimaryHdu.forget)), .ready (some (.ok sampleImageHdu.forget)), .ready none,
      .ready (some (.err (.static "The file has reached EOF")))] := by
  decide +kernel

set_option maxRecDepth 20000 in
theorem sample_healthy : Healthy (deliver [sampleFile]) := by decide +kernel

/-- **C88 is false**: the number of bytes left in the data unit is not set to zero when these are skipped, so that the
stream wants to skip them again.  Of the sample file, of which no value was read, a program is told about the two HDUs, the
end, and then an error. -/
theorem C88_fails : ¬ C88_statement := by
  intro h
  have h1 := h .checked ⟨[], deliver [sampleFile]⟩ [.next, .next] [.next]
    [.hdu (.ready (some (.ok samplePrimaryHdu.forget))), .hdu (.ready (some (.ok sampleImageHdu.forget)))] sample_healthy
    end_told (fun o ho => by
      rcases List.mem_cons.1 ho with rfl | ho
      · rfl
      · rw [List.mem_singleton] at ho; subst ho; rfl)
  rw [end_told_again] at h1
  simp only [hduPolls, List.cons_append, List.nil_append, List.cons.injEq, true_and] at h1
  have h2 : isNext .next = true := rfl
  rw [List.countP_cons_of_pos h2] at h1
  injection h1 with _ h1
  injection h1 with h1
  cases h1

set_option maxRecDepth 20000 in
theorem end_left : leftAfter .checked 0 [.hdu (.ready (some (.ok samplePrimaryHdu.forget))),
    .hdu (.ready (some (.ok sampleImageHdu.forget)))] = 12 := by decide +kernel

set_option maxRecDepth 20000 in
/-- The same program, as `C88_exact` describes it: twelve bytes are left. -/
example : hduPolls (AProg.ofSource .checked ([.next, .next] ++ .next :: [.next, .value, .next]) ⟨[], deliver [sampleFile]⟩) =
    [.ready (some (.ok samplePrimaryHdu.forget)), .ready (some (.ok sampleImageHdu.forget)), .ready none,
      .ready (some (.err (.static "The file has reached EOF"))), .ready none] := by
  have h := C88_exact [.next, .value, .next] sample_healthy end_told (fun o ho => by
      rcases List.mem_cons.1 ho with rfl | ho
      · rfl
      · rw [List.mem_singleton] at ho; subst ho; rfl)
  rw [end_left] at h
  exact h

/-- What is told about the second image of the sample file, of which all the values are taken, and before. -/
def valuesTold : List AOut :=
  [.hdu (.ready (some (.ok samplePrimaryHdu.forget))), .hdu (.ready (some (.ok sampleImageHdu.forget))),
    .value (.ready (some (.ok (.i16 1)))), .value (.ready (some (.ok (.i16 2)))), .value (.ready (some (.ok (.i16 3)))),
    .value (.ready (some (.ok (.i16 4)))), .value (.ready (some (.ok (.i16 5)))), .value (.ready (some (.ok (.i16 6))))]

set_option maxRecDepth 20000 in
theorem values_told : AProg.ofSource .checked ([.next, .next, .value, .value, .value, .value, .value, .value] ++ [.next])
      ⟨[], deliver [sampleFile]⟩ = valuesTold ++ [.hdu (.ready none)] := by
  decide +kernel

set_option maxRecDepth 20000 in
theorem values_left : leftAfter .checked 0 valuesTold = 0 := by decide +kernel

theorem values_calm : ∀ o ∈ valuesTold, o.panics = false := by
  unfold valuesTold
  generalize samplePrimaryHdu.forget = a
  generalize sampleImageHdu.forget = b
  intro o ho
  simp only [List.mem_cons, List.not_mem_nil, or_false] at ho
  rcases ho with rfl | rfl | rfl | rfl | rfl | rfl | rfl | rfl <;> rfl

/-- After all the values of the last HDU have been taken, the end is final. -/
example : hduPolls (AProg.ofSource .checked ([.next, .next, .value, .value, .value, .value, .value, .value] ++
      .next :: [.next, .value, .next]) ⟨[], deliver [sampleFile]⟩) =
    [.ready (some (.ok samplePrimaryHdu.forget)), .ready (some (.ok sampleImageHdu.forget)), .ready none, .ready none, .ready none] :=
  C88_partial [.next, .value, .next] sample_healthy values_told values_calm (.inl values_left)

end Fitsrs

import Verif.Spec.AsyncEnd
import Verif.Props.C57
import Verif.Props.C86
/-
Programs on asynchronous files: their state, and what they were told.
-/

namespace Fitsrs
open Spec Fut

/-- The state after some operations. -/
def AProg.after (p : Profile) : List AOp → AProg → AProg
  | [], s => s
  | op :: ops, s => AProg.after p ops (s.step p op).2

/-- Nothing panicked. -/
def Calm (os : List AOut) : Prop := ∀ o ∈ os, o.panics = false

theorem run_cons {p : Profile} {op : AOp} {ops : List AOp} {s : AProg} (h : (s.step p op).1.panics = false) :
    AProg.run p (op :: ops) s = (s.step p op).1 :: AProg.run p ops (s.step p op).2 := by
  conv => lhs; unfold AProg.run
  rw [if_neg (by rw [h]; decide)]

theorem Calm.first {p : Profile} {op : AOp} {ops : List AOp} {s : AProg} (h : Calm (AProg.run p (op :: ops) s)) :
    (s.step p op).1.panics = false := h _ (List.mem_cons_self ..)

theorem Calm.rest {p : Profile} {op : AOp} {ops : List AOp} {s : AProg} (h : Calm (AProg.run p (op :: ops) s)) :
    Calm (AProg.run p ops (s.step p op).2) := by
  have h1 := h.first
  rw [run_cons h1] at h
  exact fun o ho => h o (List.mem_cons_of_mem _ ho)

theorem run_append {p : Profile} (ops ops' : List AOp) : ∀ s : AProg, Calm (AProg.run p ops s) →
    AProg.run p (ops ++ ops') s = AProg.run p ops s ++ AProg.run p ops' (AProg.after p ops s) := by
  induction ops with
  | nil => intro s _; rfl
  | cons op ops ih =>
    intro s h
    rw [List.cons_append]
    rw [run_cons h.first, run_cons h.first, ih _ h.rest]
    rfl

theorem leftAfter_append {p : Profile} (os os' : List AOut) : ∀ n, leftAfter p n (os ++ os') = leftAfter p (leftAfter p n os) os' := by
  induction os with
  | nil => intro n; rfl
  | cons o os ih =>
    intro n
    rw [List.cons_append]
    cases o with
    | nothing => exact ih n
    | hdu x =>
      cases x with
      | pending => exact ih n
      | ready x =>
        cases x with
        | none => exact ih n
        | some x =>
          cases x with
          | err e => exact ih n
          | panic => exact ih n
          | ok h =>
            show (match h.dataSize p with | .ok sz => leftAfter p sz (os ++ os') | _ => leftAfter p n (os ++ os')) =
              leftAfter p (match h.dataSize p with | .ok sz => leftAfter p sz os | _ => leftAfter p n os) os'
            cases h.dataSize p with
            | ok sz => exact ih sz
            | err e => exact ih n
            | panic => exact ih n
    | value x =>
      cases x with
      | pending => exact ih n
      | ready x =>
        cases x with
        | none => exact ih n
        | some x =>
          cases x with
          | err e => exact ih n
          | panic => exact ih n
          | ok v => exact ih _

theorem hduPolls_append (os os' : List AOut) : hduPolls (os ++ os') = hduPolls os ++ hduPolls os' := by
  induction os with
  | nil => rfl
  | cons o os ih =>
    cases o with
    | hdu x => exact congrArg (x :: ·) ih
    | value x => exact ih
    | nothing => exact ih

theorem poll_healthy {α : Type} {f : Fut α} {r : AReader} (h : Healthy r.events) : Healthy (f.poll r).2.events := by
  induction f generalizing r with
  | done a => exact h
  | consume n k ih => exact ih (r := r.consume n) h
  | fill k l ih ih' =>
    obtain ⟨cur, es⟩ := r
    cases cur with
    | cons b bs => exact ih (b :: bs) (r := ⟨b :: bs, es⟩) h
    | nil =>
      cases es with
      | nil => exact ih [] (r := ⟨[], []⟩) h
      | cons e es =>
        cases e with
        | pending => exact h.tail
        | fail x => exact h.fail.elim
        | chunk b bs => exact ih (b :: bs) (r := ⟨b :: bs, es⟩) h.tail

/-- The size of the values of an HDU. -/
def AHdu.ty : AHdu → Bitpix
  | .primary h | .image h => h.xtension.bitpix
  | .binTable _ | .asciiTable _ => .u8

theorem dataOf_eq (f : AFits) (h : AHdu) : f.dataOf h = ⟨h.ty, f.rd, f.remaining⟩ := by
  cases h <;> rfl

theorem AHdu.dvd {p : Profile} {h : AHdu} {sz : Nat} (hsz : h.dataSize p = .ok sz) : pixelSize h.ty ∣ sz := by
  cases h with
  | primary h =>
    obtain ⟨n, -, h2⟩ := Res.bind_eq_ok.1 hsz
    exact umul_dvd h2
  | image h =>
    obtain ⟨n, -, h2⟩ := Res.bind_eq_ok.1 hsz
    exact umul_dvd h2
  | binTable h => exact Nat.one_dvd _
  | asciiTable h => exact Nat.one_dvd _

theorem pixelBytes_ofBytes (b : Bitpix) (bs : List UInt8) : (pixelBytes (Pixel.ofBytes b bs)).length = pixelSize b := by
  cases b <;> exact bigEndian_length ..

/-- What the fields of the stream of HDUs are, from what was told. -/
structure Told (p : Profile) (os : List AOut) (s : AProg) : Prop where
  healthy : Healthy s.file.rd.events
  left : s.file.remaining = leftAfter p 0 os
  errored : s.file.errored = os.any hduFailed
  dvd : ∀ h, s.last = some h → pixelSize h.ty ∣ s.file.remaining

theorem AFits.record_cases (p : Profile) (n : Option (Res AHdu)) (f : AFits) :
    ((AFits.record p n f).2.remaining = f.remaining ∧
      (∀ h, (AFits.record p n f).1 ≠ .ready (some (.ok h))) ∧
      ((AFits.record p n f).2.errored = f.errored ∧ (∀ e, (AFits.record p n f).1 ≠ .ready (some (.err e))) ∨
        (AFits.record p n f).2.errored = true ∧ ∃ e, (AFits.record p n f).1 = .ready (some (.err e)))) ∨
    ∃ h sz, n = some (.ok h) ∧ h.dataSize p = .ok sz ∧ (AFits.record p n f).1 = .ready (some (.ok h)) ∧
      (AFits.record p n f).2.remaining = sz ∧ (AFits.record p n f).2.errored = f.errored := by
  unfold AFits.record
  cases n with
  | none => exact .inl ⟨rfl, (fun h e => by cases e), .inl ⟨rfl, (fun h e => by cases e)⟩⟩
  | some x =>
    cases x with
    | err e => exact .inl ⟨rfl, (fun h e => by cases e), .inr ⟨rfl, e, rfl⟩⟩
    | panic => exact .inl ⟨rfl, (fun h e => by cases e), .inl ⟨rfl, (fun h e => by cases e)⟩⟩
    | ok h =>
      dsimp only
      cases hd : h.dataSize p with
      | ok sz => exact .inr ⟨h, sz, rfl, hd, rfl, rfl, rfl⟩
      | err e => exact absurd hd AHdu.dataSize_ne_err
      | panic => exact .inl ⟨rfl, (fun h e => by cases e), .inl ⟨rfl, (fun h e => by cases e)⟩⟩

/-- Polling for an HDU: what changes. -/
theorem pollNext_cases (p : Profile) (f : AFits) :
    ((f.pollNext p).2.remaining = f.remaining ∧ (∀ h, (f.pollNext p).1 ≠ .ready (some (.ok h))) ∧
      ((f.pollNext p).2.errored = f.errored ∧ (∀ e, (f.pollNext p).1 ≠ .ready (some (.err e))) ∨
        (f.pollNext p).2.errored = true ∧ ∃ e, (f.pollNext p).1 = .ready (some (.err e)))) ∨
    ∃ h sz, h.dataSize p = .ok sz ∧ (f.pollNext p).1 = .ready (some (.ok h)) ∧
      (f.pollNext p).2.remaining = sz ∧ (f.pollNext p).2.errored = f.errored := by
  have hrec : ∀ n (g : AFits), g.remaining = f.remaining → g.errored = f.errored →
      (((AFits.record p n g).2.remaining = f.remaining ∧ (∀ h, (AFits.record p n g).1 ≠ .ready (some (.ok h))) ∧
      ((AFits.record p n g).2.errored = f.errored ∧ (∀ e, (AFits.record p n g).1 ≠ .ready (some (.err e))) ∨
        (AFits.record p n g).2.errored = true ∧ ∃ e, (AFits.record p n g).1 = .ready (some (.err e)))) ∨
      ∃ h sz, h.dataSize p = .ok sz ∧ (AFits.record p n g).1 = .ready (some (.ok h)) ∧
        (AFits.record p n g).2.remaining = sz ∧ (AFits.record p n g).2.errored = f.errored) := by
    intro n g h1 h2
    have := AFits.record_cases p n g
    rw [h1, h2] at this
    rcases this with h | ⟨h, sz, -, h3⟩
    · exact .inl h
    · exact .inr ⟨h, sz, h3⟩
  have hpend : ∀ g : AFits, g.remaining = f.remaining → g.errored = f.errored →
      (((StreamPoll.pending, g) : StreamPoll AHdu × AFits).2.remaining = f.remaining ∧
        (∀ h, (StreamPoll.pending : StreamPoll AHdu) ≠ .ready (some (.ok h))) ∧
      (g.errored = f.errored ∧ (∀ e, (StreamPoll.pending : StreamPoll AHdu) ≠ .ready (some (.err e))) ∨
        g.errored = true ∧ ∃ e, (StreamPoll.pending : StreamPoll AHdu) = .ready (some (.err e)))) :=
    fun g h1 h2 => ⟨h1, (fun h e => by cases e), .inl ⟨h2, (fun h e => by cases e)⟩⟩
  unfold AFits.pollNext
  split
  · exact .inl ⟨rfl, (fun h e => by cases e), .inl ⟨rfl, (fun h e => by cases e)⟩⟩
  · split
    · split
      · exact .inl (hpend _ rfl rfl)
      · exact hrec _ _ rfl rfl
    · split
      · exact .inl (hpend _ rfl rfl)
      · exact hrec _ _ rfl rfl
      · split
        · exact .inl (hpend _ rfl rfl)
        · exact hrec _ _ rfl rfl
      · exact hrec _ _ rfl rfl
      · exact hrec _ _ rfl rfl

/-- Polling for a value: what changes. -/
theorem St.pollNext_cases (p : Profile) {s : St} (hd : pixelSize s.ty ∣ s.remaining) :
    ((s.pollNext p).2.remaining = s.remaining ∧ ∀ v, (s.pollNext p).1 ≠ .ready (some (.ok v))) ∨
    ∃ v, (s.pollNext p).1 = .ready (some (.ok v)) ∧ (pixelBytes v).length = pixelSize s.ty ∧
      (s.pollNext p).2.remaining = s.remaining - pixelSize s.ty := by
  unfold St.pollNext
  split
  · exact .inl ⟨rfl, (fun v e => by cases e)⟩
  · rename_i hz
    have hle := Nat.le_of_dvd (by omega) hd
    split
    · exact .inl ⟨rfl, (fun v e => by cases e)⟩
    · have hu : usub p s.remaining s.ty.byteSize = .ok (s.remaining - pixelSize s.ty) := by
        rw [byteSize_eq]
        unfold usub
        rw [if_pos hle]
      rw [hu]
      exact .inr ⟨_, rfl, pixelBytes_ofBytes _ _, rfl⟩
    · exact .inl ⟨rfl, (fun v e => by cases e)⟩
    · exact .inl ⟨rfl, (fun v e => by cases e)⟩

theorem Told.step {p : Profile} {os : List AOut} {s : AProg} (h : Told p os s) (op : AOp) :
    Told p (os ++ [(s.step p op).1]) (s.step p op).2 := by
  obtain ⟨h1, h2, h3, h4⟩ := h
  cases op with
  | next =>
    show Told p (os ++ [.hdu (s.file.pollNext p).1]) ⟨(s.file.pollNext p).2, AProg.lastOf s.last (s.file.pollNext p).1⟩
    have hh := pollNext_keeps (p := p) (a := s.file) (P := fun r => Healthy r.events) (fun _ _ _ h => poll_healthy h) h1
    rcases pollNext_cases p s.file with ⟨g1, g2, g3⟩ | ⟨h, sz, g1, g2, g3, g4⟩
    · have hl : AProg.lastOf s.last (s.file.pollNext p).1 = s.last := by
        unfold AProg.lastOf
        split
        · rename_i h hh; exact absurd hh (g2 h)
        · rfl
      refine ⟨hh, ?_, ?_, ?_⟩
      · rw [leftAfter_append, ← h2]
        show (s.file.pollNext p).2.remaining = _
        rw [g1]
        generalize (s.file.pollNext p).1 = x at g2
        cases x with
        | pending => rfl
        | ready x =>
          cases x with
          | none => rfl
          | some x =>
            cases x with
            | ok h => exact absurd rfl (g2 h)
            | err e => rfl
            | panic => rfl
      · rw [List.any_append, ← h3]
        show (s.file.pollNext p).2.errored = _
        rcases g3 with ⟨g3, g4⟩ | ⟨g3, e, g4⟩
        · rw [g3]
          generalize (s.file.pollNext p).1 = x at g4
          have : hduFailed (.hdu x) = false := by
            unfold hduFailed
            split
            · rename_i e he; cases he; exact absurd rfl (g4 e)
            · rfl
          simp [this]
        · rw [g3, g4]
          simp [hduFailed]
      · intro h hh
        rw [hl] at hh
        show _ ∣ (s.file.pollNext p).2.remaining
        rw [g1]
        exact h4 h hh
    · refine ⟨hh, ?_, ?_, ?_⟩
      · rw [leftAfter_append]
        show (s.file.pollNext p).2.remaining = _
        rw [g2, g3]
        unfold leftAfter
        rw [g1]
        rfl
      · rw [List.any_append, ← h3]
        show (s.file.pollNext p).2.errored = _
        rw [g2, g4]
        simp [hduFailed]
      · intro h' hh
        rw [g2] at hh
        cases hh
        show _ ∣ (s.file.pollNext p).2.remaining
        rw [g3]
        exact AHdu.dvd g1
  | value =>
    unfold AProg.step
    dsimp only
    cases hl : s.last with
    | none =>
      refine ⟨h1, ?_, ?_, h4⟩
      · rw [leftAfter_append, ← h2]; rfl
      · rw [List.any_append, ← h3]; simp [hduFailed]
    | some h =>
      have hd := h4 h hl
      dsimp only
      rw [dataOf_eq]
      have hh := St.pollNext_keeps (p := p) (s := ⟨h.ty, s.file.rd, s.file.remaining⟩) (P := fun r => Healthy r.events)
        (fun _ _ _ h => poll_healthy h) h1
      rcases St.pollNext_cases p (s := ⟨h.ty, s.file.rd, s.file.remaining⟩) hd with ⟨g1, g2⟩ | ⟨v, g1, g2, g3⟩
      · refine ⟨hh, ?_, ?_, ?_⟩
        · rw [leftAfter_append, ← h2]
          show (St.pollNext p _).2.remaining = _
          rw [g1]
          generalize (St.pollNext p ⟨h.ty, s.file.rd, s.file.remaining⟩).1 = x at g2
          cases x with
          | pending => rfl
          | ready x =>
            cases x with
            | none => rfl
            | some x =>
              cases x with
              | ok h => exact absurd rfl (g2 h)
              | err e => rfl
              | panic => rfl
        · rw [List.any_append, ← h3]
          show s.file.errored = _
          simp [hduFailed]
        · intro h' hh'
          show _ ∣ (St.pollNext p _).2.remaining
          rw [g1]
          cases hh'
          exact hd
      · refine ⟨hh, ?_, ?_, ?_⟩
        · rw [leftAfter_append, ← h2]
          show (St.pollNext p _).2.remaining = _
          rw [g1, g3]
          unfold leftAfter
          rw [g2]
          rfl
        · rw [List.any_append, ← h3]
          show s.file.errored = _
          simp [hduFailed]
        · intro h' hh'
          show _ ∣ (St.pollNext p _).2.remaining
          rw [g3]
          cases hh'
          exact Nat.dvd_sub hd (Nat.dvd_refl _)

theorem Told.run {p : Profile} (ops : List AOp) : ∀ {os : List AOut} {s : AProg}, Told p os s → Calm (AProg.run p ops s) →
    Told p (os ++ AProg.run p ops s) (AProg.after p ops s) := by
  induction ops with
  | nil => intro os s h _; rw [show AProg.run p [] s = [] from rfl, List.append_nil]; exact h
  | cons op ops ih =>
    intro os s h hc
    rw [run_cons hc.first]
    have := ih (h.step op) hc.rest
    rw [List.append_assoc] at this
    exact this

theorem Told.init (p : Profile) {r : AReader} (h : Healthy r.events) : Told p [] ⟨AFits.fromReader r, none⟩ :=
  ⟨h, rfl, rfl, fun _ h => by cases h⟩

end Fitsrs

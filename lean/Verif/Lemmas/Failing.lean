import Verif.Props.C69
import Verif.Lemmas.Next
/-
What holds of a reader whatever its reads do.
-/

namespace Fitsrs
open Spec

namespace Input
variable {σ : Type}

/-- The property `P` of the reader is kept by every call, also by those that fail. -/
structure Keeps (S : Input σ) (P : σ → Prop) : Prop where
  read : ∀ {s} (n : Nat), P s → P (S.readExact n s).2
  seek : ∀ {s} (off : Int), P s → P (S.seekRelative off s).2
  goto : ∀ {s} (pos : Nat), P s → P (S.seekStart pos s).2
  tell : ∀ {s}, P s → P (S.tell s).2

variable {S : Input σ} {P : σ → Prop}

theorem consumeNextCard_keeps (hS : S.Keeps P) {s : HSt σ} (h : P s.rd) : P (S.consumeNextCard s).2.rd := by
  have := hS.read 80 h
  unfold consumeNextCard
  split <;> (rename_i hx; rw [hx] at this; exact this)

theorem consumeCardsN_keeps (hS : S.Keeps P) (fuel : Nat) {s : HSt σ} (h : P s.rd) : P (S.consumeCardsN fuel s).2.rd := by
  induction fuel generalizing s with
  | zero => exact h
  | succ fuel ih =>
    have h1 := consumeNextCard_keeps hS h
    unfold consumeCardsN
    split
    · rename_i hx
      rw [hx] at h1
      split
      · split
        · exact h1
        · exact ih h1
      · exact h1
      · exact h1
    · rename_i hx
      rw [hx] at h1
      exact h1
    · rename_i hx
      rw [hx] at h1
      exact h1

theorem hduNew_keeps (hS : S.Keeps P) {X : Type} (parse : ValueMap → Res X) (cards : List Card) {s : HSt σ} (h : P s.rd) :
    P (S.hduNew parse cards s).2.rd := by
  unfold hduNew
  split
  · split
    · have := hS.read (2880 - s.nread % 2880) h
      dsimp only
      split
      · rename_i hx
        rw [hx] at this
        exact hS.tell this
      · rename_i hx
        rw [hx] at this
        exact this
      · rename_i hx
        rw [hx] at this
        exact this
    · exact hS.tell h
  · exact h
  · exact h

theorem newXtension_keeps (hS : S.Keeps P) (p : Profile) {s : HSt σ} (h : P s.rd) : P (S.newXtension p s).2.rd := by
  have h1 := consumeCardsN_keeps hS (S.size s.rd + 1) h
  unfold newXtension consumeCards
  split
  · rename_i hx
    rw [hx] at h1
    unfold xtensionOf
    split
    · exact hduNew_keeps hS _ _ h1
    · exact hduNew_keeps hS _ _ h1
    · exact hduNew_keeps hS _ _ h1
    · exact h1
    · exact h1
  · rename_i hx
    rw [hx] at h1
    exact h1
  · rename_i hx
    rw [hx] at h1
    exact h1

theorem newPrimary_keeps (hS : S.Keeps P) {s : σ} (h : P s) : P (S.newPrimary s).2.rd := by
  have h1 := consumeCardsN_keeps hS (S.size s + 1) (s := ⟨s, 0⟩) h
  unfold newPrimary consumeCards
  split
  · rename_i hx
    rw [hx] at h1
    unfold primaryOf
    split
    · split
      · exact hduNew_keeps hS _ _ h1
      · exact h1
    · exact h1
    · exact h1
  · rename_i hx
    rw [hx] at h1
    exact h1
  · rename_i hx
    rw [hx] at h1
    exact h1

theorem record_keeps (p : Profile) (n : Option (Res HDU)) (f : File σ) : (record p n f).2.rd = f.rd := by
  unfold record
  split
  · split <;> rfl
  all_goals rfl

theorem next_keeps (hS : S.Keeps P) (p : Profile) {f : File σ} (h : P f.rd) : P (S.next p f).2.rd := by
  unfold next
  split
  · exact h
  · split
    · rw [record_keeps]
      exact newPrimary_keeps hS h
    · have h1 : P (S.consumeUntilNextHdu p f).2 := by
        unfold consumeUntilNextHdu
        split
        · exact hS.seek _ (hS.tell h)
        · exact hS.tell h
        · exact hS.tell h
      split
      · rename_i hx
        rw [hx] at h1
        rw [record_keeps]
        exact newXtension_keeps hS p h1
      · rename_i hx
        rw [hx] at h1
        rw [record_keeps]
        exact h1
      · rename_i hx
        rw [hx] at h1
        rw [record_keeps]
        exact h1

theorem raw_keeps (hS : S.Keeps P) (p : Profile) {f : File σ} (h : P f.rd) (c : RawCall) : P (S.raw p f c).2.rd := by
  cases c with
  | hdu => exact next_keeps hS p h
  | read n => exact hS.read n h
  | pixel n => exact hS.read n h
  | move off => exact hS.seek off h
  | tell => exact hS.tell h
  | goto pos => exact hS.goto pos h

/-- After `None` only the reader has changed. -/
theorem next_none_fields (p : Profile) {f : File σ} (hs : f.start = false) (h : (S.next p f).1 = none) :
    (S.next p f).2 = { f with rd := (S.next p f).2.rd } := by
  have key : ∀ (n : Option (Res HDU)) (g : File σ), (record p n g).1 = none → (record p n g).2 = g := by
    intro n g hn
    unfold record at hn ⊢
    split at hn
    · split at hn <;> cases hn
    · cases hn
    · cases hn
    · rfl
  unfold next at h ⊢
  split
  · rfl
  · rename_i he
    rw [if_neg he] at h
    rw [hs] at h ⊢
    simp only [Bool.false_eq_true, if_false] at h ⊢
    split
    · rename_i hx
      rw [hx] at h
      rw [key _ _ h]
    · rename_i hx
      rw [hx] at h
      rw [key _ _ h]
    · rename_i hx
      rw [hx] at h
      rw [key _ _ h]

/-- After an error there are no HDUs any more. -/
theorem next_err_errored (p : Profile) {f : File σ} {e : Err} (h : (S.next p f).1 = some (.err e)) :
    (S.next p f).2.errored = true := by
  have key : ∀ (n : Option (Res HDU)) (g : File σ), (record p n g).1 = some (.err e) → (record p n g).2.errored = true := by
    intro n g hn
    unfold record at hn ⊢
    split at hn
    · split at hn
      · cases hn
      · rename_i hd
        exact absurd hd HDU.dataSize_ne_err
      · cases hn
    · rfl
    · cases hn
    · cases hn
  unfold next at h ⊢
  split
  · rename_i he
    exact he
  · rename_i he
    rw [if_neg he] at h
    split
    · rename_i hs
      rw [if_pos hs] at h
      exact key _ _ h
    · rename_i hs
      rw [if_neg hs] at h
      split
      · rename_i hx
        rw [hx] at h
        exact key _ _ h
      · rename_i hx
        rw [hx] at h
        exact key _ _ h
      · rename_i hx
        rw [hx] at h
        exact key _ _ h

theorem next_of_errored (p : Profile) {f : File σ} (h : f.errored = true) : S.next p f = (none, f) := by
  unfold next
  rw [if_pos h]

end Input

namespace BufReader

/-- The reader stands somewhere in the file, at an offset below 2^63, and only the planned reads will fail. -/
def At (data : List UInt8) (plan : List ReadEvent) (b : BufReader) : Prop :=
  (∃ pos, b.Is ⟨data, pos⟩) ∧ b.file.plan <:+ plan

variable {data : List UInt8} {plan : List ReadEvent} {b : BufReader}

/-- A read that fails leaves the reader where it is. -/
theorem read_failed {b b' : BufReader} {r : Reader} {n : Nat} {pl : List ReadEvent} (h : b.Is r) (hp : b.file.plan = .fails :: pl)
    (e : b.read n = (.failed, b')) : b'.Is r ∧ b'.file.plan = pl := by
  have h1 := h.inside
  have h3 := h.pos
  have h6 := h.small
  have hread : ∀ m, b.file.read m = (.failed, { b.file with plan := pl }) := by
    intro m
    unfold SlowFile.read
    rw [hp]
  unfold BufReader.read at e
  by_cases hc : b.bpos = b.buf.length ∧ b.cap ≤ n
  · rw [if_pos hc, hread] at e
    cases e
    exact ⟨is_empty _ _ h.data (by dsimp only; omega) rfl rfl h.size (by omega), rfl⟩
  · rw [if_neg hc] at e
    unfold fillBuf at e
    by_cases hb : b.bpos = b.buf.length
    · rw [if_pos hb, hread] at e
      cases e
      exact ⟨is_empty _ _ h.data (by dsimp only; omega) rfl rfl h.size (by omega), rfl⟩
    · rw [if_neg hb] at e
      cases e

theorem At.read (h : b.At data plan) {n : Nat} (hn : n ≠ 0) : (b.read n).2.At data plan := by
  obtain ⟨⟨pos, h⟩, hp⟩ := h
  rcases read_spec h hn with ⟨b', pl, e, h', hp1, hp2⟩ | ⟨b', pl, e, hp1⟩ | ⟨k, b', -, -, e, h', hp1⟩
  · rw [e]
    refine ⟨⟨pos, h'⟩, List.IsSuffix.trans ?_ hp⟩
    rw [hp1, hp2]
    exact List.suffix_cons _ _
  · obtain ⟨h', hp2⟩ := read_failed h hp1 e
    rw [e]
    refine ⟨⟨pos, h'⟩, List.IsSuffix.trans ?_ hp⟩
    rw [hp1, hp2]
    exact List.suffix_cons _ _
  · rw [e]
    exact ⟨⟨_, h'⟩, List.IsSuffix.trans hp1 hp⟩

theorem At.readLoop (fuel : Nat) {n : Nat} (h : b.At data plan) : (readLoop fuel n b).2.At data plan := by
  induction fuel generalizing n b with
  | zero => exact h
  | succ fuel ih =>
    unfold BufReader.readLoop
    by_cases hn : n = 0
    · rw [if_pos hn]
      exact h
    · rw [if_neg hn]
      have h1 := h.read hn
      split
      · rename_i hx
        rw [hx] at h1
        exact ih h1
      · rename_i hx
        rw [hx] at h1
        exact h1
      · rename_i hx
        rw [hx] at h1
        split
        · exact h1
        · exact ih h1

theorem At.readExact {n : Nat} (h : b.At data plan) : (b.readExact n).2.At data plan := by
  unfold BufReader.readExact
  split
  · rename_i hn
    obtain ⟨⟨pos, h⟩, hp⟩ := h
    exact ⟨⟨_, h.consume hn⟩, hp⟩
  · exact h.readLoop _

theorem At.seek (off : Int) (h : b.At data plan) : (b.seek off).2.At data plan := by
  refine ⟨?_, by rw [seek_plan]; exact h.2⟩
  obtain ⟨⟨pos, h⟩, -⟩ := h
  have h6 := h.small
  have h5 := h.size
  have fresh : ∀ x : Nat, x < 2 ^ 63 →
      ∃ pos, Is { b with file := { b.file with pos := x }, buf := [], bpos := 0 } ⟨data, pos⟩ :=
    fun x hx => ⟨x, is_empty _ _ h.data rfl rfl rfl h5 hx⟩
  unfold BufReader.seek
  split
  · rcases slow_seek b.file (off - ((b.buf.length : Int) - b.bpos)) with ⟨q1, q2, e⟩ | ⟨-, e⟩
    · rw [e]
      exact fresh _ (by omega)
    · rw [e]
      exact ⟨pos, h⟩
  · rcases slow_seek b.file (-((b.buf.length : Int) - b.bpos)) with ⟨q1, q2, e⟩ | ⟨-, e⟩
    · rw [e]
      dsimp only
      rcases slow_seek { b.file with pos := ((b.file.pos : Int) + -((b.buf.length : Int) - b.bpos)).toNat } off with
        ⟨r1, r2, e2⟩ | ⟨-, e2⟩
      · rw [e2]
        exact fresh _ (by dsimp only at r1 r2 ⊢; omega)
      · rw [e2]
        exact fresh _ (by omega)
    · rw [e]
      exact ⟨pos, h⟩

theorem At.seekRelative (off : Int) (h : b.At data plan) : (b.seekRelative off).2.At data plan := by
  obtain ⟨⟨pos, hi⟩, hp⟩ := h
  have h1 := hi.inside
  unfold BufReader.seekRelative
  split
  · split
    · rename_i hb
      exact ⟨⟨_, hi.back hb⟩, hp⟩
    · exact At.seek off ⟨⟨pos, hi⟩, hp⟩
  · split
    · exact ⟨⟨_, hi.consume (by omega)⟩, hp⟩
    · exact At.seek off ⟨⟨pos, hi⟩, hp⟩

theorem At.seekStart (pos : Nat) (h : b.At data plan) : (b.seekStart pos).2.At data plan := by
  obtain ⟨⟨q, hi⟩, hp⟩ := h
  by_cases hl : pos < 2 ^ 63
  · obtain ⟨e, h2⟩ := seekStart_is hi hl
    refine ⟨⟨_, h2⟩, ?_⟩
    rw [e]
    exact hp
  · unfold BufReader.seekStart SlowFile.seekStart
    rw [if_neg hl]
    exact ⟨⟨q, hi⟩, hp⟩

theorem At.reads (h : b.At data plan) : ∃ pos, pos < 2 ^ 63 ∧ b.Reads (.fails ∈ plan) ⟨data, pos⟩ := by
  obtain ⟨⟨pos, hi⟩, hp⟩ := h
  have h3 := hi.pos
  have h6 := hi.small
  refine ⟨pos, by dsimp only at h3; omega, hi, ?_⟩
  by_cases hF : .fails ∈ plan
  · exact .inl hF
  · exact .inr fun hm => hF (hp.subset hm)

end BufReader

theorem buf_keeps (data : List UInt8) (plan : List ReadEvent) : bufInput.Keeps (BufReader.At data plan) where
  read _ h := h.readExact
  seek off h := h.seekRelative off
  goto pos h := h.seekStart pos
  tell h := h

theorem gz_keeps (data : List UInt8) (plan : List ReadEvent) : gzInput.Keeps (BufReader.At data plan) where
  read _ h := h.readLoop _
  seek off h := h.seek off
  goto pos h := h.seekStart pos
  tell h := h.seek 0

end Fitsrs

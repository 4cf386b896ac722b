import Verif.Lemmas.AsyncHeader
import Verif.Lemmas.NoEof
import Verif.Lemmas.Walk
/-
The asynchronous stream of HDUs, step by step.
-/

namespace Fitsrs
open Spec Fut

/-! ### What polling does to the source -/

theorem poll_ready_events {α : Type} {f : Fut α} {r : AReader} (h : Ready r.events) : Ready (f.poll r).2.events := by
  induction f generalizing r with
  | done a => exact h
  | consume n k ih => exact ih (r := r.consume n) h
  | fill k l ih ih' =>
    obtain ⟨cur, es⟩ := r
    cases cur with
    | cons b bs => exact ih (b :: bs) (r := ⟨b :: bs, es⟩) h
    | nil =>
      cases es with
      | nil => exact ih [] (r := ⟨[], []⟩) h
      | cons e es =>
        cases e with
        | pending => exact h.pending.elim
        | fail x => exact h.fail.elim
        | chunk b bs => exact ih (b :: bs) (r := ⟨b :: bs, es⟩) h.tail

/-- The source is not ready only at some positions of a stream of `N` bytes. -/
structure At (S : Nat → Prop) (N : Nat) (r : AReader) : Prop where
  le : (eventBytes r.events).length ≤ N
  at_ : PendingsAt S (N - (eventBytes r.events).length) r.events

theorem poll_at {α : Type} {f : Fut α} {r : AReader} {S : Nat → Prop} {N : Nat} (h : At S N r) : At S N (f.poll r).2 := by
  induction f generalizing r with
  | done a => exact h
  | consume n k ih => exact ih (r := r.consume n) ⟨h.le, h.at_⟩
  | fill k l ih ih' =>
    obtain ⟨cur, es⟩ := r
    cases cur with
    | cons b bs => exact ih (b :: bs) (r := ⟨b :: bs, es⟩) h
    | nil =>
      cases es with
      | nil => exact ih [] (r := ⟨[], []⟩) h
      | cons e es =>
        cases e with
        | pending => exact ⟨h.le, h.at_.2⟩
        | fail x => exact h.at_.elim
        | chunk b bs =>
          obtain ⟨h1, h2⟩ := h
          refine ih (b :: bs) (r := ⟨b :: bs, es⟩) ⟨?_, ?_⟩
          · simp only [eventBytes, List.length_append, List.length_cons] at h1
            dsimp only; omega
          · simp only [eventBytes, List.length_append, List.length_cons, PendingsAt] at h1 h2
            dsimp only
            rw [show N - (eventBytes es).length
              = N - (bs.length + 1 + (eventBytes es).length) + bs.length + 1 by omega]
            exact h2

theorem pendings_poll {α : Type} {f : Fut α} {r : AReader} : pendings (f.poll r).2.events ≤ pendings r.events := by
  induction f generalizing r with
  | done a => exact Nat.le_refl _
  | consume n k ih => exact ih (r := r.consume n)
  | fill k l ih ih' =>
    obtain ⟨cur, es⟩ := r
    cases cur with
    | cons b bs => exact ih (b :: bs) (r := ⟨b :: bs, es⟩)
    | nil =>
      cases es with
      | nil => exact ih [] (r := ⟨[], []⟩)
      | cons e es =>
        cases e with
        | pending => exact Nat.le_succ _
        | fail x => exact ih' x (r := ⟨[], es⟩)
        | chunk b bs => exact ih (b :: bs) (r := ⟨b :: bs, es⟩)

/-- If the source is not ready only at some positions, it is ready until the next of them. -/
theorem PendingsAt.clear {S : Nat → Prop} {pos k : Nat} {es : List Event} (h : PendingsAt S pos es)
    (hS : ∀ s, pos ≤ s → s < pos + k → ¬ S s) : ClearE k es := by
  induction es generalizing pos k with
  | nil => trivial
  | cons e es ih =>
    cases e with
    | pending =>
      by_cases hk : k = 0
      · exact hk
      · exact absurd h.1 (hS pos (Nat.le_refl _) (by omega))
    | fail x => exact h.elim
    | chunk b bs =>
      refine ih (pos := pos + bs.length + 1) h fun s h1 h2 => hS s (by omega) (by omega)

/-- The reader at a position of the file: either the source is not ready, or it is until the next position where it may
not be. -/
theorem At.sees {S : Nat → Prop} {data : List UInt8} {r : AReader} (h : At S data.length r) {pos k : Nat}
    (hb : r.bytes = data.drop pos) (hpos : pos ≤ data.length) (hS : ∀ s, pos < s → s < pos + k → ¬ S s) :
    (r.cur = [] ∧ ∃ es, r.events = .pending :: es) ∨ Sees r k (data.drop pos) := by
  obtain ⟨cur, es⟩ := r
  have hlen := congrArg List.length hb
  unfold AReader.bytes at hlen
  rw [List.length_append, List.length_drop] at hlen
  obtain ⟨h1, h2⟩ := h
  dsimp only at h1 h2 hlen
  by_cases hc : cur = []
  · subst hc
    cases es with
    | nil => exact .inr ⟨hb, trivial⟩
    | cons e es =>
      cases e with
      | pending => exact .inl ⟨rfl, es, rfl⟩
      | fail x => exact h2.elim
      | chunk b bs =>
        refine .inr ⟨hb, ?_⟩
        show ClearE _ es
        simp only [eventBytes, List.length_append, List.length_cons, PendingsAt, List.length_nil] at h1 h2 hlen ⊢
        exact PendingsAt.clear h2 fun s g1 g2 => hS s (by omega) (by omega)
  · have := List.length_pos_iff.2 hc
    exact .inr ⟨hb, PendingsAt.clear h2 fun s g1 g2 => by dsimp only at g1 g2; exact hS s (by omega) (by omega)⟩

/-! ### Skipping to the next HDU -/

theorem atEof_false {r : AReader} {k : Nat} {bytes : List UInt8} (h : Sees r k bytes) (hk : 0 < k) (hb : bytes ≠ []) :
    ∃ r', AFits.atEof.poll r = (.ready (.ok false), r') ∧ Sees r' k bytes := by
  obtain ⟨r', h1, h2, h3, h4⟩ := h.fill hk
  refine ⟨r', ?_, h2⟩
  unfold AFits.atEof
  rw [poll_fill h1]
  have : r'.cur ≠ [] := fun he => hb (h4 he)
  show (Poll.ready (Res.ok (decide (r'.cur = []))), r') = _
  rw [decide_eq_false this]

theorem atEof_true {r : AReader} {k : Nat} (h : Sees r k []) (hk : 0 < k) :
    ∃ r', AFits.atEof.poll r = (.ready (.ok true), r') := by
  obtain ⟨r', h1, h2, h3, h4⟩ := h.fill hk
  refine ⟨r', ?_⟩
  unfold AFits.atEof
  rw [poll_fill h1]
  have : r'.cur = [] := List.prefix_nil.1 h3
  show (Poll.ready (Res.ok (decide (r'.cur = []))), r') = _
  rw [decide_eq_true this]

theorem skipFill_false {r : AReader} {k n : Nat} {bytes : List UInt8} (h : Sees r k bytes)
    (hb : roundUp2880 n - n < bytes.length) (hk : roundUp2880 n - n < k) :
    ∃ r', (AFits.skipFill n).poll r = (.ready (.ok false), r') ∧
      Sees r' (k - (roundUp2880 n - n)) (bytes.drop (roundUp2880 n - n)) := by
  unfold AFits.skipFill
  by_cases hm : n % 2880 = 0
  · rw [if_neg (by omega)]
    rw [roundUp2880_of_mod hm, Nat.sub_self] at hb hk ⊢
    exact atEof_false h (by omega) (List.length_pos_iff.1 hb)
  · rw [if_pos hm]
    rw [roundUp2880_of_not_mod hm, Nat.add_sub_cancel_left] at hb hk ⊢
    obtain ⟨r1, g1, g2⟩ := readExact_ok (n := 2880 - n % 2880) h (by omega) (by omega)
    rw [poll_bind_ready g1]
    exact atEof_false g2 (by omega) (List.length_pos_iff.1 (by rw [List.length_drop]; omega))

theorem skipFill_true {r : AReader} {k n : Nat} {bytes : List UInt8} (h : Sees r k bytes)
    (hb : bytes.length ≤ roundUp2880 n - n) (hk : bytes.length < k) :
    ∃ r', (AFits.skipFill n).poll r = (.ready (.ok true), r') := by
  unfold AFits.skipFill
  by_cases hm : n % 2880 = 0
  · rw [if_neg (by omega)]
    rw [roundUp2880_of_mod hm, Nat.sub_self] at hb
    obtain rfl : bytes = [] := List.length_eq_zero_iff.1 (by omega)
    exact atEof_true h (by omega)
  · rw [if_pos hm]
    rw [roundUp2880_of_not_mod hm, Nat.add_sub_cancel_left] at hb
    by_cases hl : bytes.length < 2880 - n % 2880
    · obtain ⟨r1, g1, g2⟩ := readExact_eof (n := 2880 - n % 2880) h hl hk
      exact ⟨r1, by rw [poll_bind_ready g1]; rfl⟩
    · obtain ⟨r1, g1, g2⟩ := readExact_ok (n := 2880 - n % 2880) h (by omega) (by omega)
      rw [poll_bind_ready g1]
      rw [List.drop_of_length_le (by omega)] at g2
      exact atEof_true g2 (by omega)

theorem consumeUntilNextA_false {r : AReader} {k rem n : Nat} {bytes : List UInt8} (h : Sees r k bytes)
    (hb : rem + (roundUp2880 n - n) < bytes.length) (hk : rem + (roundUp2880 n - n) < k) :
    ∃ r', (AFits.consumeUntilNextHdu rem n).poll r = (.ready (.ok false), r') ∧
      Sees r' (k - (rem + (roundUp2880 n - n))) (bytes.drop (rem + (roundUp2880 n - n))) := by
  unfold AFits.consumeUntilNextHdu
  by_cases hr : rem = 0
  · subst hr
    rw [if_neg (by omega)]
    rw [Nat.zero_add] at hb hk ⊢
    exact skipFill_false h hb hk
  · rw [if_pos (by omega)]
    obtain ⟨r1, g1, g2⟩ := readNBytes_ok (n := rem) h (by omega) (by omega) (by omega)
    rw [poll_andThen_ok g1]
    obtain ⟨r2, f1, f2⟩ := skipFill_false (n := n) g2 (by rw [List.length_drop]; omega) (by omega)
    rw [List.drop_drop, Nat.sub_sub] at f2
    exact ⟨r2, f1, f2⟩

theorem consumeUntilNextA_true {r : AReader} {k rem n : Nat} {bytes : List UInt8} (h : Sees r k bytes)
    (hr : rem ≤ bytes.length) (hb : bytes.length ≤ rem + (roundUp2880 n - n)) (hk : bytes.length < k) :
    ∃ r', (AFits.consumeUntilNextHdu rem n).poll r = (.ready (.ok true), r') := by
  unfold AFits.consumeUntilNextHdu
  by_cases hr0 : rem = 0
  · subst hr0
    rw [if_neg (by omega)]
    exact skipFill_true h (by omega) hk
  · rw [if_pos (by omega)]
    obtain ⟨r1, g1, g2⟩ := readNBytes_ok (n := rem) h (by omega) (by omega) (by omega)
    rw [poll_andThen_ok g1]
    exact skipFill_true g2 (by rw [List.length_drop]; omega) (by rw [List.length_drop]; omega)

/-- A file cut inside a data unit. -/
theorem consumeUntilNextA_err {r : AReader} {k rem n : Nat} {bytes : List UInt8} (h : Sees r k bytes)
    (hr : bytes.length < rem) (hk : bytes.length < k) :
    ∃ r', (AFits.consumeUntilNextHdu rem n).poll r = (.ready (.err (.static "The file has reached EOF")), r') := by
  unfold AFits.consumeUntilNextHdu
  rw [if_pos (by omega)]
  obtain ⟨r1, g1, -⟩ := readNBytes_eof (n := rem) h hr hk
  exact ⟨r1, poll_andThen_err g1⟩

/-- Every computation begins with a request to the reader. -/
theorem consumeUntilNextA_pending {es : List Event} {rem n : Nat} :
    ∃ f, (AFits.consumeUntilNextHdu rem n).poll ⟨[], .pending :: es⟩ = (.pending f, ⟨[], es⟩) := by
  have hfill : ∃ f, (AFits.skipFill n).poll ⟨[], .pending :: es⟩ = (.pending f, ⟨[], es⟩) := by
    unfold AFits.skipFill
    split
    · obtain ⟨m, hm⟩ : ∃ m, 2880 - n % 2880 = m + 1 := ⟨2880 - n % 2880 - 1, by omega⟩
      rw [hm]
      exact ⟨_, rfl⟩
    · exact ⟨_, rfl⟩
  unfold AFits.consumeUntilNextHdu
  split
  · exact ⟨_, rfl⟩
  · exact hfill

theorem newPrimaryA_pending {es : List Event} {fuel : Nat} (hf : 0 < fuel) :
    ∃ f, (AHdu.newPrimary fuel).poll ⟨[], .pending :: es⟩ = (.pending f, ⟨[], es⟩) := by
  obtain ⟨m, rfl⟩ : ∃ m, fuel = m + 1 := ⟨fuel - 1, by omega⟩
  exact ⟨_, rfl⟩

theorem HDU.forget_dataSize (p : Profile) (h : HDU) : h.forget.dataSize p = h.dataSize p := by
  cases h <;> rfl

/-! ### One step of the stream -/

/-- The next HDU. -/
theorem pollNext_ok {p : Profile} {data : List UInt8} {a : AFits} {pos k sz : Nat} {h : HDU} {s' : HState}
    (hs : a.start = false) (he : a.errored = false) (hr : Sees a.rd k (data.drop pos))
    (hx : Fits.extensionAt p data (pos + (a.remaining + (roundUp2880 a.numBytes - a.numBytes))) = (.ok h, s'))
    (hsz : h.dataSize p = .ok sz) (hk : h.dataOffset - pos ≤ k) :
    ∃ r', a.pollNext p = (.ready (some (.ok h.forget)),
        { start := false, remaining := sz, numBytes := sz, errored := false, rd := r' }) ∧
      Sees r' (k - (h.dataOffset - pos)) (data.drop h.dataOffset) := by
  have hoff := (newXtension_ok rfl hx).2.2.1
  have hpos : 0 < h.cards.length := (newXtension_ok rfl hx).1.1
  have hlen : pos + (a.remaining + (roundUp2880 a.numBytes - a.numBytes)) + 80 ≤ data.length := by
    by_cases hc : data.length < pos + (a.remaining + (roundUp2880 a.numBytes - a.numBytes)) + 80
    · rw [Fits.extensionAt_eof hc] at hx; cases hx
    · omega
  dsimp only at hoff
  have hge := roundUp2880_ge (80 * h.cards.length)
  obtain ⟨r1, e1, e2⟩ := consumeUntilNextA_false (rem := a.remaining) (n := a.numBytes) hr
    (by rw [List.length_drop]; omega) (by omega)
  rw [List.drop_drop] at e2
  obtain ⟨r2, f1, f2⟩ := newXtensionA_ok (fuel := r1.bytes.length + 1) rfl hx e2 (by dsimp only; omega)
    (by rw [e2.bytes, List.length_drop]; dsimp only; omega)
  refine ⟨r2, ?_, ?_⟩
  · unfold AFits.pollNext
    rw [if_neg (by simp [he]), if_neg (by simp [hs]), e1]
    dsimp only
    rw [f1]
    unfold AFits.record
    dsimp only
    rw [HDU.forget_dataSize, hsz]
    simp [he]
  · dsimp only at f2
    rw [show k - (a.remaining + (roundUp2880 a.numBytes - a.numBytes))
      - (h.dataOffset - (pos + (a.remaining + (roundUp2880 a.numBytes - a.numBytes)))) = k - (h.dataOffset - pos) by omega] at f2
    exact f2

/-- The end of the file. -/
theorem pollNext_none {p : Profile} {data : List UInt8} {a : AFits} {pos k : Nat}
    (hs : a.start = false) (he : a.errored = false) (hr : Sees a.rd k (data.drop pos))
    (h1 : a.remaining ≤ data.length - pos)
    (h2 : data.length ≤ pos + (a.remaining + (roundUp2880 a.numBytes - a.numBytes))) (hk : data.length - pos < k) :
    ∃ a', a.pollNext p = (.ready none, a') := by
  obtain ⟨r1, e1⟩ := consumeUntilNextA_true (rem := a.remaining) (n := a.numBytes) hr
    (by rw [List.length_drop]; omega) (by rw [List.length_drop]; omega) (by rw [List.length_drop]; omega)
  refine ⟨{ a with rd := r1, start := false }, ?_⟩
  unfold AFits.pollNext
  rw [if_neg (by simp [he]), if_neg (by simp [hs]), e1]
  rfl

/-- The source is not ready between two HDUs. -/
theorem pollNext_pending {p : Profile} {a : AFits} {es : List Event} (hs : a.start = false) (he : a.errored = false)
    (hr : a.rd = ⟨[], .pending :: es⟩) : a.pollNext p = (.pending, { a with rd := ⟨[], es⟩ }) := by
  unfold AFits.pollNext
  rw [if_neg (by simp [he]), if_neg (by simp [hs]), hr]
  obtain ⟨f, hf⟩ := consumeUntilNextA_pending (es := es) (rem := a.remaining) (n := a.numBytes)
  rw [hf]

theorem pollNext_pending_first {p : Profile} {a : AFits} {es : List Event} (hs : a.start = true) (he : a.errored = false)
    (hr : a.rd = ⟨[], .pending :: es⟩) : a.pollNext p = (.pending, { a with rd := ⟨[], es⟩ }) := by
  unfold AFits.pollNext
  rw [if_neg (by simp [he]), if_pos hs]
  obtain ⟨f, hf⟩ := newPrimaryA_pending (es := es) (fuel := a.rd.bytes.length + 1) (by omega)
  rw [hr] at hf ⊢
  rw [hf]

/-- The primary HDU. -/
theorem pollNext_first {p : Profile} {data : List UInt8} {a : AFits} {k sz : Nat} {h : HDU} {s' : HState}
    (hs : a.start = true) (he : a.errored = false) (hr : Sees a.rd k data)
    (hx : HDU.newPrimary ⟨data, 0⟩ = (.ok h, s')) (hsz : h.dataSize p = .ok sz) (hk : h.dataOffset ≤ k) :
    ∃ r', a.pollNext p = (.ready (some (.ok h.forget)),
        { start := false, remaining := sz, numBytes := sz, errored := false, rd := r' }) ∧
      Sees r' (k - h.dataOffset) (data.drop h.dataOffset) := by
  obtain ⟨r1, e1, e2⟩ := newPrimaryA_ok (rd := ⟨data, 0⟩) (fuel := a.rd.bytes.length + 1) (k := k) hx hr hk
    (by rw [hr.bytes]; dsimp only; omega)
  refine ⟨r1, ?_, e2⟩
  unfold AFits.pollNext
  rw [if_neg (by simp [he]), if_pos hs, e1]
  unfold AFits.record
  dsimp only
  rw [HDU.forget_dataSize, hsz]
  simp [he]

/-- What every poll keeps is kept by a step. -/
theorem pollNext_keeps {p : Profile} {a : AFits} {P : AReader → Prop}
    (hP : ∀ (α : Type) (f : Fut α) r, P r → P (f.poll r).2) (h : P a.rd) : P (a.pollNext p).2.rd := by
  have hrec : ∀ n f, (AFits.record p n f).2.rd = f.rd := by
    intro n f
    unfold AFits.record
    split
    · split <;> rfl
    · rfl
    · rfl
    · rfl
  unfold AFits.pollNext
  split
  · exact h
  split
  · have := hP _ (AHdu.newPrimary (a.rd.bytes.length + 1)) _ h
    split
    · rename_i he; rw [he] at this; exact this
    · rename_i he; rw [he] at this; rw [hrec]; exact this
  · have := hP _ (AFits.consumeUntilNextHdu a.remaining a.numBytes) _ h
    split
    · rename_i he; rw [he] at this; exact this
    · rename_i he; rw [he] at this; rw [hrec]; exact this
    · rename_i rd he
      rw [he] at this
      have := hP _ (AHdu.newXtension p (rd.bytes.length + 1)) rd this
      split
      · rename_i he; rw [he] at this; exact this
      · rename_i he; rw [he] at this; rw [hrec]; exact this
    · rename_i he; rw [he] at this; rw [hrec]; exact this
    · rename_i he; rw [he] at this; rw [hrec]; exact this

end Fitsrs

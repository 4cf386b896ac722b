import Verif.Props.C83
import Verif.Props.C88
/-
C91: in builds without overflow checks, programs on asynchronous sources do not panic on damaged files.
-/

namespace Fitsrs
open Spec Fut

/-! ### What is left of a source -/

/-- A poll takes bytes from the beginning only. -/
theorem poll_drop {α : Type} (f : Fut α) : ∀ r : AReader, ∃ k, (f.poll r).2.bytes = r.bytes.drop k := by
  induction f with
  | done a => exact fun r => ⟨0, rfl⟩
  | consume n f ih =>
    intro r
    obtain ⟨k, hk⟩ := ih (r.consume n)
    refine ⟨min n r.cur.length + k, ?_⟩
    show (f.poll (r.consume n)).2.bytes = _
    rw [hk, ← List.drop_drop]
    congr 1
    unfold AReader.consume AReader.bytes
    dsimp only
    rw [List.drop_append]
    have h1 : r.cur.drop (min n r.cur.length) = r.cur.drop n := by
      by_cases h : n ≤ r.cur.length
      · rw [Nat.min_eq_left h]
      · rw [Nat.min_eq_right (by omega), List.drop_of_length_le (Nat.le_refl _), List.drop_of_length_le (by omega)]
    rw [h1, Nat.sub_eq_zero_of_le (by omega)]
    rfl
  | fill k e ih ih' =>
    intro r
    obtain ⟨cur, es⟩ := r
    cases cur with
    | cons b bs => exact ih (b :: bs) ⟨b :: bs, es⟩
    | nil =>
      cases es with
      | nil => exact ih [] ⟨[], []⟩
      | cons ev es =>
        cases ev with
        | pending => exact ⟨0, rfl⟩
        | fail x => exact ih' x ⟨[], es⟩
        | chunk b bs => exact ih (b :: bs) ⟨b :: bs, es⟩

theorem readExactN_bytes (fuel : Nat) : ∀ (n : Nat) (acc a : List UInt8) (r r' : AReader),
    (readExactN fuel n acc).poll r = (.ready (.ok a), r') →
    n ≤ r.bytes.length ∧ a = acc ++ r.bytes.take n ∧ r'.bytes = r.bytes.drop n := by
  induction fuel with
  | zero =>
    intro n acc a r r' h
    cases n with
    | zero => cases h; exact ⟨by omega, by simp, rfl⟩
    | succ n => cases h
  | succ fuel ih =>
    intro n acc a r r' h
    cases n with
    | zero => cases h; exact ⟨by omega, by simp, rfl⟩
    | succ n =>
      have key : ∀ (b : UInt8) (bs : List UInt8) (es : List Event),
          (readExactN fuel (n + 1 - (b :: bs).length) (acc ++ (b :: bs).take (n + 1))).poll
            ((AReader.mk (b :: bs) es).consume (min (n + 1) (b :: bs).length)) = (.ready (.ok a), r') →
          n + 1 ≤ (AReader.mk (b :: bs) es).bytes.length ∧ a = acc ++ (AReader.mk (b :: bs) es).bytes.take (n + 1) ∧
            r'.bytes = (AReader.mk (b :: bs) es).bytes.drop (n + 1) := by
        intro b bs es h
        obtain ⟨h1, h2, h3⟩ := ih _ _ _ _ _ h
        have hb : ((AReader.mk (b :: bs) es).consume (min (n + 1) (b :: bs).length)).bytes =
            (AReader.mk (b :: bs) es).bytes.drop (min (n + 1) (b :: bs).length) := by
          unfold AReader.consume AReader.bytes
          dsimp only
          rw [List.drop_append, Nat.sub_eq_zero_of_le (by omega)]
          rfl
        rw [hb] at h1 h2 h3
        have hB : (AReader.mk (b :: bs) es).bytes = b :: bs ++ eventBytes es := rfl
        rw [hB] at h1 h2 h3 ⊢
        generalize b :: bs = c at *
        generalize eventBytes es = d at *
        by_cases hc : n + 1 ≤ c.length
        · rw [Nat.min_eq_left hc] at h1 h2 h3
          rw [Nat.sub_eq_zero_of_le hc] at h2 h3
          refine ⟨by rw [List.length_append]; omega, ?_, ?_⟩
          · rw [h2, List.take_zero, List.append_nil, List.take_append_of_le_length hc]
          · rw [h3]; rfl
        · rw [Nat.min_eq_right (by omega), List.drop_left] at h1 h2 h3
          refine ⟨by rw [List.length_append]; omega, ?_, ?_⟩
          · rw [h2, List.take_append, List.append_assoc]
          · rw [h3, List.drop_append, List.drop_of_length_le (l := c) (by omega)]; rfl
      unfold readExactN at h
      obtain ⟨cur, es⟩ := r
      cases cur with
      | cons b bs => exact key b bs es h
      | nil =>
        cases es with
        | nil => cases h
        | cons e es =>
          cases e with
          | pending => cases h
          | fail x => cases h
          | chunk b bs => exact key b bs es h

theorem readExact_bytes {n : Nat} {a : List UInt8} {r r' : AReader} (h : (readExact n).poll r = (.ready (.ok a), r')) :
    n ≤ r.bytes.length ∧ a = r.bytes.take n ∧ r'.bytes = r.bytes.drop n := by
  have := readExactN_bytes _ _ _ _ _ _ h
  rwa [List.nil_append] at this

/-! ### Headers -/

/-- Cards read asynchronously, without an error, are read as from a file. -/
theorem cards_at (fuel : Nat) : ∀ (n : Nat) (x : Res (List Card × Nat)) (data : List UInt8) (o : Nat) (r r' : AReader),
    r.bytes = data.drop o → (consumeCardsA fuel n).poll r = (.ready x, r') →
    (∃ e, x = .err e) ∨ ∃ s', consumeCardsN fuel ⟨⟨data, o⟩, n⟩ = (x.map Prod.fst, s') := by
  induction fuel with
  | zero => intro n x data o r r' _ h; cases h; exact .inr ⟨_, rfl⟩
  | succ fuel ih =>
    intro n x data o r r' hb h
    unfold consumeCardsA at h
    rcases hp : (readExact 80).poll r with ⟨x, r1⟩
    cases x with
    | pending f =>
      obtain ⟨g, h1⟩ := poll_andThen_pending hp
      rw [h1] at h
      cases h
    | ready x =>
      cases x with
      | err e => rw [poll_andThen_err hp] at h; cases h; exact .inl ⟨_, rfl⟩
      | panic => exact absurd hp (readExactN_ne_panic (Nat.le_refl _))
      | ok buf =>
        rw [poll_andThen_ok hp] at h
        obtain ⟨h1, h2, h3⟩ := readExact_bytes hp
        rw [hb, List.length_drop] at h1
        rw [hb] at h2 h3
        rw [List.drop_drop] at h3
        unfold consumeCardsN
        rw [consumeNextCard_le (s := ⟨⟨data, o⟩, n⟩) (by dsimp only; omega)]
        have h4 : recordAt data o 0 = buf := h2.symm
        dsimp only
        rw [h4]
        cases hc : recordCard buf with
        | err e => rw [hc] at h; cases h; exact .inl ⟨_, rfl⟩
        | panic => rw [hc] at h; cases h; exact .inr ⟨_, rfl⟩
        | ok c =>
          rw [hc] at h
          dsimp only at h ⊢
          by_cases he : c = .end_
          · rw [if_pos he] at h ⊢
            cases h
            exact .inr ⟨_, rfl⟩
          · rw [if_neg he] at h ⊢
            rcases hq : (consumeCardsA fuel (n + 80)).poll r1 with ⟨y, r2⟩
            cases y with
            | pending f =>
              obtain ⟨g, g1⟩ := poll_andThen_pending hq
              rw [g1] at h
              cases h
            | ready y =>
              have := ih (n + 80) y data (o + 80) r1 r2 h3 hq
              cases y with
              | err e => rw [poll_andThen_err hq] at h; cases h; exact .inl ⟨_, rfl⟩
              | panic =>
                rw [poll_andThen_panic hq] at h
                cases h
                rcases this with ⟨e, g⟩ | ⟨s', g⟩
                · cases g
                · rw [g]; exact .inr ⟨_, rfl⟩
              | ok y =>
                rw [poll_andThen_ok hq] at h
                cases h
                rcases this with ⟨e, g⟩ | ⟨s', g⟩
                · cases g
                · rw [g]; exact .inr ⟨_, rfl⟩

theorem andThen_panic {α β : Type} {f : Fut (Res α)} {g : α → Fut (Res β)} {oe : Err → Err} {r r' : AReader}
    (h : (f.andThen oe g).poll r = (.ready .panic, r')) :
    f.poll r = (.ready .panic, r') ∨ ∃ a r1, f.poll r = (.ready (.ok a), r1) ∧ (g a).poll r1 = (.ready .panic, r') := by
  rcases hq : f.poll r with ⟨y, r2⟩
  cases y with
  | pending f' =>
    obtain ⟨g, g1⟩ := poll_andThen_pending hq
    rw [g1] at h
    cases h
  | ready y =>
    cases y with
    | err e => rw [poll_andThen_err hq] at h; cases h
    | panic => rw [poll_andThen_panic hq] at h; cases h; exact .inl rfl
    | ok y => rw [poll_andThen_ok hq] at h; exact .inr ⟨y, r2, rfl, h⟩

theorem AHdu.new_panic {X : Type} {parse : ValueMap → Res X} {cards : List Card} {n : Nat} {r r' : AReader}
    (h : (AHdu.new parse cards n).poll r = (.ready .panic, r')) : Header.parse parse cards = .panic := by
  unfold AHdu.new at h
  cases hp : Header.parse parse cards with
  | panic => rfl
  | err e => rw [hp] at h; cases h
  | ok x =>
    rw [hp] at h
    dsimp only at h
    by_cases hn : n % 2880 ≠ 0
    · rw [if_pos hn] at h
      rcases andThen_panic h with h | ⟨a, r1, -, h⟩
      · exact absurd h (readExactN_ne_panic (Nat.le_refl _))
      · cases h
    · rw [if_neg hn] at h
      cases h

theorem done_ok_panic {α : Type} {a : α} {r r' : AReader} (h : (Fut.done (Res.ok a)).poll r = (.ready .panic, r')) : False := by
  cases h

theorem xtensionOfA_huge {cards : List Card} {n : Nat} {r r' : AReader} {data : List UInt8} {o : Nat} (ha : HeaderAt data o cards)
    (h : (xtensionOfA .wrapping cards n).poll r = (.ready .panic, r')) : HugeIn data o := by
  unfold xtensionOfA at h
  have h0 := ha.nonempty
  split at h
  · rcases andThen_panic h with h | ⟨a, r1, -, h⟩
    · obtain ⟨m, -, hm⟩ := Header.parse_panic ha (AHdu.new_panic h)
      exact absurd hm (C26_image m)
    · exact (done_ok_panic h).elim
  · rcases andThen_panic h with h | ⟨a, r1, -, h⟩
    · obtain ⟨m, hc, hm⟩ := Header.parse_panic ha (AHdu.new_panic h)
      obtain ⟨w, r, pc, tf, -, h | ⟨h, -⟩⟩ := (C26_bintable .wrapping m).1 hm
      · unfold ZNaxisFits at h
        refine ⟨_, m, ha, hc, .inr ?_⟩
        by_cases hz : ∃ n : Nat, HasInt m "ZNAXIS".toList n ∧ 2 ^ 63 ≤ n * 8
        · exact hz
        · refine absurd (fun z hi => ?_) h
          by_cases hl : z * 8 < 2 ^ 63
          · exact hl
          · exact absurd ⟨z, hi, Nat.le_of_not_lt hl⟩ hz
      · cases h
    · exact (done_ok_panic h).elim
  · rcases andThen_panic h with h | ⟨a, r1, -, h⟩
    · obtain ⟨m, hc, hm⟩ := Header.parse_panic ha (AHdu.new_panic h)
      obtain ⟨w, r, tf, hk, h⟩ := (C26_ascii m).1 hm
      exact ⟨_, m, ha, hc, .inl ⟨tf, hk.tfields, h⟩⟩
    · exact (done_ok_panic h).elim
  · cases h
  · simp at h0

theorem primaryOfA_calm {cards : List Card} {n : Nat} {r r' : AReader} {data : List UInt8} {o : Nat} (ha : HeaderAt data o cards)
    (h : (primaryOfA cards n).poll r = (.ready .panic, r')) : False := by
  unfold primaryOfA at h
  have h0 := ha.nonempty
  split at h
  · rcases andThen_panic h with h | ⟨a, r1, -, h⟩
    · obtain ⟨m, -, hm⟩ := Header.parse_panic ha (AHdu.new_panic h)
      exact absurd hm (C26_image m)
    · exact (done_ok_panic h).elim
  · cases h
  · simp at h0

/-- A header of the source makes the parser panic. -/
def Spec.BadHeader (data : List UInt8) : Prop := ∃ o, QuoteIn data o ∨ HugeIn data o

theorem cards_cause {data : List UInt8} {o : Nat} {r r' : AReader} (hb : r.bytes = data.drop o)
    {x : Res (List Card × Nat)} (h : (consumeCardsA (r.bytes.length + 1) 0).poll r = (.ready x, r')) :
    match x with
    | .ok y => HeaderAt data o y.1
    | .err _ => True
    | .panic => QuoteIn data o := by
  rcases cards_at _ _ _ _ _ _ _ hb h with ⟨e, rfl⟩ | ⟨s', hs⟩
  · trivial
  · cases x with
    | err e => trivial
    | ok y =>
      obtain ⟨h1, h2, h3, h4, h5, h6⟩ := consumeCardsN_ok hs
      exact ⟨h1, h4, h5, h6⟩
    | panic =>
      obtain ⟨k, h1, h2, h3⟩ := consumeCardsN_panic (by omega) (by rw [hb, List.length_drop]; dsimp only; omega) hs
      exact ⟨k, h1, h3, (C09_panic_iff _).1 (recordCard_panic h2)⟩

theorem newXtensionA_cause {data : List UInt8} {o : Nat} {r r' : AReader} (hb : r.bytes = data.drop o)
    (h : (AHdu.newXtension .wrapping (r.bytes.length + 1)).poll r = (.ready .panic, r')) : BadHeader data := by
  unfold AHdu.newXtension at h
  rcases andThen_panic h with h | ⟨a, r1, h1, h⟩
  · exact ⟨o, .inl (cards_cause hb h)⟩
  · exact ⟨o, .inr (xtensionOfA_huge (cards_cause hb h1) h)⟩

theorem newPrimaryA_cause {data : List UInt8} {o : Nat} {r r' : AReader} (hb : r.bytes = data.drop o)
    (h : (AHdu.newPrimary (r.bytes.length + 1)).poll r = (.ready .panic, r')) : BadHeader data := by
  unfold AHdu.newPrimary at h
  rcases andThen_panic h with h | ⟨a, r1, h1, h⟩
  · exact ⟨o, .inl (cards_cause hb h)⟩
  · exact (primaryOfA_calm (cards_cause hb h1) h).elim

/-! ### Skipping -/

theorem readNBytesN_ne_panic {fuel : Nat} : ∀ {n : Nat} {r r' : AReader}, n < fuel →
    (readNBytesN fuel n).poll r ≠ (.ready .panic, r') := by
  induction fuel with
  | zero => intro n r r' hn; omega
  | succ fuel ih =>
    intro n r r' hn h
    have key : ∀ (b : UInt8) (bs : List UInt8) (es : List Event),
        (if (b :: bs).length < n then Fut.consume (b :: bs).length (readNBytesN fuel (n - (b :: bs).length))
          else Fut.consume n (Fut.done (.ok ()))).poll ⟨b :: bs, es⟩ ≠ (.ready .panic, r') := by
      intro b bs es h
      split at h
      · exact ih (n := n - (b :: bs).length) (r := (AReader.mk (b :: bs) es).consume (b :: bs).length)
          (by rw [List.length_cons] at *; omega) h
      · cases h
    unfold readNBytesN at h
    obtain ⟨cur, es⟩ := r
    have hend : ∀ r'', (Fut.done (if n ≠ 0 then Res.err (.static "The file has reached EOF") else Res.ok ())).poll r'' ≠
        (.ready .panic, r') := by
      intro r'' h
      split at h <;> cases h
    cases cur with
    | cons b bs => exact key b bs es h
    | nil =>
      cases es with
      | nil => exact hend _ h
      | cons e es =>
        cases e with
        | pending => cases h
        | fail x => cases h
        | chunk b bs => exact key b bs es h

theorem atEof_calm {r r' : AReader} : AFits.atEof.poll r ≠ (.ready .panic, r') := by
  intro h
  obtain ⟨cur, es⟩ := r
  cases cur with
  | cons b bs => cases h
  | nil =>
    cases es with
    | nil => cases h
    | cons e es => cases e <;> cases h

theorem skipFill_calm {n : Nat} {r r' : AReader} : (AFits.skipFill n).poll r ≠ (.ready .panic, r') := by
  intro h
  unfold AFits.skipFill at h
  split at h
  · rw [poll_bind] at h
    rcases hp : (readExact (2880 - n % 2880)).poll r with ⟨x, r1⟩
    rw [hp] at h
    cases x with
    | pending f => cases h
    | ready x =>
      dsimp only at h
      split at h
      · cases h
      · cases h
      · exact readExactN_ne_panic (Nat.le_refl _) hp
      · exact atEof_calm h
  · exact atEof_calm h

theorem consumeUntil_calm {m n : Nat} {r r' : AReader} : (AFits.consumeUntilNextHdu m n).poll r ≠ (.ready .panic, r') := by
  intro h
  unfold AFits.consumeUntilNextHdu at h
  split at h
  · rcases andThen_panic h with h | ⟨a, r1, -, h⟩
    · exact readNBytesN_ne_panic (by omega) h
    · exact skipFill_calm h
  · exact skipFill_calm h

/-! ### Programs -/

theorem AHdu.dataSize_wraps (h : AHdu) : h.dataSize .wrapping ≠ .panic := by
  cases h with
  | primary h => exact HDU.dataSize_wraps (.primary ⟨h, 0⟩)
  | image h => exact HDU.dataSize_wraps (.image ⟨h, 0⟩)
  | binTable h => exact HDU.dataSize_wraps (.binTable ⟨h, 0⟩)
  | asciiTable h => exact HDU.dataSize_wraps (.asciiTable ⟨h, 0⟩)

theorem recordA_wraps {n : Option (Res AHdu)} {f : AFits} (h : (AFits.record .wrapping n f).1 = .ready (some .panic)) :
    n = some .panic := by
  unfold AFits.record at h
  cases n with
  | none => cases h
  | some r =>
    cases r with
    | panic => rfl
    | err e => cases h
    | ok x =>
      dsimp only at h
      cases hs : x.dataSize .wrapping with
      | ok n => rw [hs] at h; cases h
      | err e => rw [hs] at h; cases h
      | panic => exact absurd hs x.dataSize_wraps

theorem pollNext_cause {data : List UInt8} {o : Nat} {a : AFits} (hb : a.rd.bytes = data.drop o)
    (h : (a.pollNext .wrapping).1 = .ready (some .panic)) : BadHeader data := by
  unfold AFits.pollNext at h
  split at h
  · cases h
  · split at h
    · split at h
      · cases h
      · rename_i hp
        have := recordA_wraps h
        cases this
        exact newPrimaryA_cause hb hp
    · split at h
      · cases h
      · exact absurd (recordA_wraps h) (by simp)
      · rename_i rd hq
        split at h
        · cases h
        · rename_i hp
          have := recordA_wraps h
          cases this
          obtain ⟨k, hk⟩ := poll_drop (AFits.consumeUntilNextHdu a.remaining a.numBytes) a.rd
          rw [hq, hb, List.drop_drop] at hk
          exact newXtensionA_cause hk hp
      · exact absurd (recordA_wraps h) (by simp)
      · rename_i hq
        exact absurd hq consumeUntil_calm

theorem St.pollNext_wraps {s : St} : (s.pollNext .wrapping).1 ≠ .ready (some .panic) := by
  intro h
  unfold St.pollNext at h
  split at h
  · cases h
  · split at h
    · cases h
    · split at h
      · cases h
      · cases h
      · rename_i hu
        exact usub_wraps _ _ hu
    · cases h
    · rename_i hp
      exact readExactN_ne_panic (Nat.le_refl _) hp

theorem St.pollNext_drop (p : Profile) (s : St) : ∃ k, (s.pollNext p).2.rd.bytes = s.rd.bytes.drop k := by
  unfold St.pollNext
  obtain ⟨k, hk⟩ := poll_drop (readExact s.ty.byteSize) s.rd
  split
  · exact ⟨0, rfl⟩
  · split
    · rename_i hp
      rw [hp] at hk
      exact ⟨k, hk⟩
    · rename_i hp
      rw [hp] at hk
      split <;> exact ⟨k, hk⟩
    · rename_i hp
      rw [hp] at hk
      exact ⟨k, hk⟩
    · rename_i hp
      rw [hp] at hk
      exact ⟨k, hk⟩

theorem step_calm {data : List UInt8} (hr : ¬ BadHeader data) (op : AOp) (s : AProg)
    (h : ∃ k, s.file.rd.bytes = data.drop k) :
    (s.step .wrapping op).1.panics = false ∧ ∃ k, (s.step .wrapping op).2.file.rd.bytes = data.drop k := by
  obtain ⟨k, hk⟩ := h
  unfold AProg.step
  cases op with
  | next =>
    dsimp only
    constructor
    · cases hp : (s.file.pollNext .wrapping).1 with
      | pending => rfl
      | ready x =>
        cases x with
        | none => rfl
        | some x =>
          cases x with
          | ok h => rfl
          | err e => rfl
          | panic => exact absurd (pollNext_cause hk hp) hr
    · exact pollNext_keeps (P := fun q => ∃ k, q.bytes = data.drop k)
        (fun α f q ⟨k, hk⟩ => by
          obtain ⟨j, hj⟩ := poll_drop f q
          exact ⟨k + j, by rw [hj, hk, List.drop_drop]⟩) ⟨k, hk⟩
  | value =>
    dsimp only
    cases hl : s.last with
    | none => exact ⟨rfl, k, hk⟩
    | some h =>
      dsimp only
      constructor
      · cases hp : ((s.file.dataOf h).pollNext .wrapping).1 with
        | pending => rfl
        | ready x =>
          cases x with
          | none => rfl
          | some x =>
            cases x with
            | ok h => rfl
            | err e => rfl
            | panic => exact absurd hp St.pollNext_wraps
      · obtain ⟨j, hj⟩ := St.pollNext_drop .wrapping (s.file.dataOf h)
        refine ⟨k + j, ?_⟩
        show ((s.file.dataOf h).pollNext .wrapping).2.rd.bytes = _
        rw [hj, ← List.drop_drop, ← hk]
        cases h <;> rfl

/-- **C91.** In a build without overflow checks, a program on an asynchronous source never panics, whatever the bytes of
the source (damaged, truncated, or no FITS file at all), the schedule of `Pending` and chunks and the failures of the
source are, unless the bytes hold, somewhere, a header with a lone quote for a value, or one that announces more columns
or axes than memory can hold. -/
theorem C91_no_panic {r : AReader} (hr : ¬ BadHeader r.bytes) (ops : List AOp) :
    ∀ o ∈ AProg.ofSource .wrapping ops r, o.panics = false := by
  have key : ∀ (ops : List AOp) (s : AProg), (∃ k, s.file.rd.bytes = r.bytes.drop k) →
      ∀ o ∈ AProg.run .wrapping ops s, o.panics = false := by
    intro ops
    induction ops with
    | nil => intro s _ o ho; cases ho
    | cons op ops ih =>
      intro s hk o ho
      have h1 := step_calm hr op s hk
      rw [run_cons h1.1] at ho
      rcases List.mem_cons.1 ho with rfl | ho
      · exact h1.1
      · exact ih _ h1.2 o ho
  exact key ops _ ⟨0, rfl⟩

/-! ### Both causes exist, and others do not -/

/-- A check that there is no such header. -/
def soundHeaders (data : List UInt8) : Bool :=
  (List.range data.length).all fun o => soundRecords data (data.length + 1) o && moderateHeader data o

theorem soundHeaders_ok {data : List UInt8} (h : soundHeaders data = true) : ¬ BadHeader data := by
  rintro ⟨o, ho⟩
  have hl : o < data.length := by
    rcases ho with ⟨k, h1, -⟩ | ⟨cards, m, h1, -⟩
    · omega
    · have := h1.inFile
      have := h1.nonempty
      omega
  have := List.all_eq_true.1 h o (List.mem_range.2 hl)
  rw [Bool.and_eq_true] at this
  rcases ho with ho | ho
  · exact soundRecords_ok this.1 ho
  · exact moderateHeader_ok this.2 ho

/-- A primary header with values that are not allowed, cut in a record. -/
def damagedBytes : List UInt8 :=
  (rec80 "SIMPLE  =                    T" ++ rec80 "BITPIX  = 'x'" ++ rec80 "NAXIS   = 99999999999999999999999").take 200

set_option maxRecDepth 20000 in
theorem damaged_sound : soundHeaders damagedBytes = true := by decide +kernel

/-- Programs on these bytes, from sources that deliver them in any pieces, are late and fail as they like. -/
example (r : AReader) (h : r.bytes = damagedBytes) (ops : List AOp) :
    ∀ o ∈ AProg.ofSource .wrapping ops r, o.panics = false :=
  C91_no_panic (by rw [h]; exact soundHeaders_ok damaged_sound) ops

set_option maxRecDepth 20000 in
/-- Such a program: the source is late in the first record, of which a part is then lost, and fails in the second. -/
example : AProg.ofSource .wrapping [.next, .value, .next, .next] ⟨[], deliver [damagedBytes.take 100, [], damagedBytes.drop 100] ++ [.fail .invalidInput]⟩ =
    [.hdu .pending, .nothing, .hdu (.ready (some (.err failHeader))), .hdu (.ready none)] := by decide +kernel

set_option maxRecDepth 20000 in
/-- A lone quote. -/
theorem C91_quote_needed : (AOut.hdu (.ready (some .panic))) ∈ AProg.ofSource .wrapping [.next]
    ⟨[], deliver [rec80 "SIMPLE  =                    T" ++ rec80 "AAA     = '"]⟩ := by decide +kernel

/-- A header of a table that announces `2^63 - 1` columns. -/
def hugeColumnsFile : List UInt8 :=
  samplePrimarySegment.bytes ++ rec80 "XTENSION= 'TABLE   '" ++ rec80 "BITPIX  =                    8" ++
    rec80 "NAXIS   =                    2" ++ rec80 "NAXIS1  =                    1" ++ rec80 "NAXIS2  =                    1" ++
    rec80 "PCOUNT  =                    0" ++ rec80 "GCOUNT  =                    1" ++ rec80 "TFIELDS = 9223372036854775807" ++
    rec80 "END" ++ List.replicate 2160 0x20

set_option maxRecDepth 20000 in
/-- Too many columns. -/
theorem C91_huge_needed : (AOut.hdu (.ready (some .panic))) ∈ AProg.ofSource .wrapping [.next, .value, .next]
    ⟨[], deliver [hugeColumnsFile.take 100, hugeColumnsFile.drop 100]⟩ := by decide +kernel

end Fitsrs

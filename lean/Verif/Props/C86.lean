import Verif.Spec.AsyncFail
import Verif.Lemmas.AsyncFits
import Verif.Props.C47_C51
/-
C86: asynchronous sources that fail.
-/

namespace Fitsrs
open Spec Fut

/-! ### Futures that end with an error when the source fails -/

/-- If the source fails with an error of kind `k`, the result is as `P` says. -/
def OnFail {α : Type} (k : IoKind) (P : α → Prop) : Fut α → Prop
  | .done _ => True
  | .consume _ f => OnFail k P f
  | .fill g l => (∀ b, OnFail k P (g b)) ∧ ∃ a, l k = .done a ∧ P a

/-- An error. -/
def IsErr {α : Type} (r : Res α) : Prop := ∃ e, r = .err e

theorem OnFail.bind {α β : Type} {k : IoKind} {P : α → Prop} {Q : β → Prop} {f : Fut α} {g : α → Fut β} (h : OnFail k P f)
    (hg : ∀ a, OnFail k Q (g a)) (hP : ∀ a, P a → ∃ b, g a = .done b ∧ Q b) : OnFail k Q (f.bind g) := by
  induction f with
  | done a => exact hg a
  | consume n f ih => exact ih h
  | fill f l ih ih' =>
    refine ⟨fun b => ih b (h.1 b), ?_⟩
    obtain ⟨a, h1, h2⟩ := h.2
    obtain ⟨b, h3, h4⟩ := hP a h2
    refine ⟨b, ?_, h4⟩
    show (l k).bind g = _
    rw [h1]
    exact h3

theorem OnFail.andThen {α β : Type} {k : IoKind} {f : Fut (Res α)} {o : Err → Err} {g : α → Fut (Res β)}
    (h : OnFail k IsErr f) (hg : ∀ a, OnFail k IsErr (g a)) : OnFail k IsErr (f.andThen o g) := by
  refine h.bind (fun a => ?_) fun a ha => ?_
  · cases a with
    | ok a => exact hg a
    | err e => trivial
    | panic => trivial
  · obtain ⟨e, rfl⟩ := ha
    exact ⟨_, rfl, _, rfl⟩

theorem onFail_readExactN (k : IoKind) (fuel : Nat) : ∀ (n : Nat) (acc : List UInt8),
    OnFail k (fun r => r = .err (.io k)) (readExactN fuel n acc) := by
  induction fuel with
  | zero => intro n acc; cases n <;> trivial
  | succ fuel ih =>
    intro n acc
    cases n with
    | zero => trivial
    | succ n =>
      refine ⟨fun b => ?_, _, rfl, rfl⟩
      dsimp only
      split
      · trivial
      · exact ih _ _

theorem OnFail.mono {α : Type} {k : IoKind} {P Q : α → Prop} (hPQ : ∀ a, P a → Q a) {f : Fut α} (h : OnFail k P f) :
    OnFail k Q f := by
  induction f with
  | done a => trivial
  | consume n f ih => exact ih h
  | fill f l ih ih' =>
    obtain ⟨a, h1, h2⟩ := h.2
    exact ⟨fun b => ih b (h.1 b), a, h1, hPQ a h2⟩

theorem onFail_readExact (k : IoKind) (n : Nat) : OnFail k IsErr (readExact n) :=
  (onFail_readExactN k n n []).mono fun _ h => ⟨_, h⟩

theorem onFail_readNBytes (k : IoKind) (n : Nat) : OnFail k IsErr (readNBytesExact n) := by
  unfold readNBytesExact
  generalize n + 1 = fuel
  induction fuel generalizing n with
  | zero => trivial
  | succ fuel ih =>
    refine ⟨fun b => ?_, _, rfl, _, rfl⟩
    dsimp only
    split
    · trivial
    · split
      · exact ih _
      · trivial

theorem onFail_cards (k : IoKind) (fuel : Nat) : ∀ n, OnFail k IsErr (consumeCardsA fuel n) := by
  induction fuel with
  | zero => intro n; trivial
  | succ fuel ih =>
    intro n
    unfold consumeCardsA
    refine (onFail_readExact k 80).andThen fun buf => ?_
    split
    · split
      · trivial
      · exact (ih _).andThen fun _ => trivial
    · trivial
    · trivial

theorem onFail_new (k : IoKind) {X : Type} (parse : ValueMap → Res X) (cards : List Card) (n : Nat) :
    OnFail k IsErr (AHdu.new parse cards n) := by
  unfold AHdu.new
  split
  · split
    · exact (onFail_readExact k _).andThen fun _ => trivial
    · trivial
  · trivial
  · trivial

theorem onFail_xtension (k : IoKind) (p : Profile) (fuel : Nat) : OnFail k IsErr (AHdu.newXtension p fuel) := by
  refine (onFail_cards k fuel 0).andThen fun ⟨cards, n⟩ => ?_
  dsimp only
  unfold xtensionOfA
  split
  · exact (onFail_new k _ _ _).andThen fun _ => trivial
  · exact (onFail_new k _ _ _).andThen fun _ => trivial
  · exact (onFail_new k _ _ _).andThen fun _ => trivial
  · trivial
  · trivial

theorem onFail_primary (k : IoKind) (fuel : Nat) : OnFail k IsErr (AHdu.newPrimary fuel) := by
  refine (onFail_cards k fuel 0).andThen fun ⟨cards, n⟩ => ?_
  dsimp only
  unfold primaryOfA
  split
  · exact (onFail_new k _ _ _).andThen fun _ => trivial
  · trivial
  · trivial

/-- The way to the next HDU: an error of kind `UnexpectedEof` in the fill of the last block is taken for the end. -/
def EndOrErr (k : IoKind) (r : Res Bool) : Prop := IsErr r ∨ k = .unexpectedEof ∧ r = .ok true

theorem onFail_atEof (k : IoKind) : OnFail k (EndOrErr k) AFits.atEof := ⟨fun _ => trivial, _, rfl, .inl ⟨_, rfl⟩⟩

theorem onFail_skipFill (k : IoKind) (n : Nat) : OnFail k (EndOrErr k) (AFits.skipFill n) := by
  unfold AFits.skipFill
  split
  · refine (onFail_readExactN k _ _ _).bind (fun a => ?_) fun a ha => ?_
    · split
      · trivial
      · trivial
      · trivial
      · exact onFail_atEof k
    · subst ha
      cases k with
      | unexpectedEof => exact ⟨_, rfl, .inr ⟨rfl, rfl⟩⟩
      | invalidInput => exact ⟨_, rfl, .inl ⟨_, rfl⟩⟩
  · exact onFail_atEof k

theorem onFail_consume (k : IoKind) (m n : Nat) : OnFail k (EndOrErr k) (AFits.consumeUntilNextHdu m n) := by
  unfold AFits.consumeUntilNextHdu
  split
  · refine (onFail_readNBytes k m).bind (fun a => ?_) fun a ha => ?_
    · cases a with
      | ok a => exact onFail_skipFill k n
      | err e => trivial
      | panic => trivial
    · obtain ⟨e, rfl⟩ := ha
      exact ⟨_, rfl, .inl ⟨_, rfl⟩⟩
  · exact onFail_skipFill k n

/-! ### Two sources that are the same up to a failure -/

/-- The first source is the second up to some point, where it fails. -/
def Twins (k : IoKind) (t rest : List Event) (r r' : AReader) : Prop :=
  ∃ cur as, Healthy as ∧ r = ⟨cur, as ++ .fail k :: t⟩ ∧ r' = ⟨cur, as ++ rest⟩

theorem Twins.poll {α : Type} {k : IoKind} {t rest : List Event} {P : α → Prop} {f : Fut α} (h : OnFail k P f) {r r' : AReader}
    (ht : Twins k t rest r r') :
    (∃ a, P a ∧ ∃ s, f.poll r = (.ready a, s)) ∨
    (∃ a s s', f.poll r = (.ready a, s) ∧ f.poll r' = (.ready a, s') ∧ Twins k t rest s s') ∨
    ∃ g s s', f.poll r = (.pending g, s) ∧ f.poll r' = (.pending g, s') ∧ Twins k t rest s s' := by
  obtain ⟨cur, as, hh, rfl, rfl⟩ := ht
  induction f generalizing cur as with
  | done a => exact .inr (.inl ⟨a, _, _, rfl, rfl, cur, as, hh, rfl, rfl⟩)
  | consume n f ih => exact ih h (cur.drop n) as hh
  | fill g l ih ih' =>
    cases cur with
    | cons b bs => exact ih (b :: bs) (h.1 _) (b :: bs) as hh
    | nil =>
      cases as with
      | nil =>
        obtain ⟨a, h1, h2⟩ := h.2
        refine .inl ⟨a, h2, ⟨[], t⟩, ?_⟩
        show (l k).poll ⟨[], t⟩ = _
        rw [h1]
        rfl
      | cons e as =>
        cases e with
        | pending => exact .inr (.inr ⟨_, _, _, rfl, rfl, [], as, hh.tail, rfl, rfl⟩)
        | chunk b bs => exact ih (b :: bs) (h.1 _) (b :: bs) as hh.tail
        | fail x => exact hh.fail.elim

/-! ### The number of records does not matter -/

/-- The same, up to what is left of a future that is dropped. -/
def PollEq {α : Type} (x y : Poll α × AReader) : Prop :=
  x = y ∨ ∃ f g r, x = (.pending f, r) ∧ y = (.pending g, r)

theorem PollEq.bind {α β : Type} {f f' : Fut α} {g : α → Fut β} {r : AReader} (h : PollEq (f.poll r) (f'.poll r)) :
    PollEq ((f.bind g).poll r) ((f'.bind g).poll r) := by
  rw [poll_bind, poll_bind]
  rcases h with h | ⟨a, b, r', h1, h2⟩
  · rw [h]; exact .inl rfl
  · rw [h1, h2]; exact .inr ⟨_, _, _, rfl, rfl⟩

theorem poll_andThen_pending {α β : Type} {f g : Fut (Res α)} {e : Err → Err} {h : α → Fut (Res β)} {r r' : AReader}
    (hp : f.poll r = (.pending g, r')) : ∃ g', (f.andThen e h).poll r = (.pending g', r') := by
  unfold Fut.andThen
  rw [poll_bind, hp]
  exact ⟨_, rfl⟩

theorem poll_bytes_le {α : Type} (f : Fut α) (r : AReader) : (f.poll r).2.bytes.length ≤ r.bytes.length := by
  obtain ⟨cur, es⟩ := r
  induction f generalizing cur es with
  | done a => exact Nat.le_refl _
  | consume n f ih =>
    refine Nat.le_trans (ih (cur.drop n) es) ?_
    unfold AReader.bytes
    rw [List.length_append, List.length_append, List.length_drop]
    dsimp only
    omega
  | fill g l ih ih' =>
    cases cur with
    | cons b bs => exact ih (b :: bs) (b :: bs) es
    | nil =>
      cases es with
      | nil => exact ih [] [] []
      | cons e es =>
        cases e with
        | pending => exact Nat.le_refl _
        | fail x => exact ih' x [] es
        | chunk b bs => exact ih (b :: bs) (b :: bs) es

theorem readExactN_shorter (fuel n : Nat) (acc : List UInt8) (r r' : AReader) (a : List UInt8)
    (h : (readExactN fuel (n + 1) acc).poll r = (.ready (.ok a), r')) : r'.bytes.length < r.bytes.length := by
  cases fuel with
  | zero => cases h
  | succ fuel =>
    unfold readExactN at h
    obtain ⟨cur, es⟩ := r
    have key : ∀ (b : UInt8) (bs : List UInt8) (es : List Event),
        (Fut.consume (min (n + 1) (b :: bs).length) (readExactN fuel (n + 1 - (b :: bs).length)
          (acc ++ (b :: bs).take (n + 1)))).poll ⟨b :: bs, es⟩ = (.ready (.ok a), r') →
        r'.bytes.length < (AReader.mk (b :: bs) es).bytes.length := by
      intro b bs es hp
      have h1 := poll_bytes_le (readExactN fuel (n + 1 - (b :: bs).length) (acc ++ (b :: bs).take (n + 1)))
        ((AReader.mk (b :: bs) es).consume (min (n + 1) (b :: bs).length))
      have h2 : (readExactN fuel (n + 1 - (b :: bs).length) (acc ++ (b :: bs).take (n + 1))).poll
        ((AReader.mk (b :: bs) es).consume (min (n + 1) (b :: bs).length)) = (.ready (.ok a), r') := hp
      rw [h2] at h1
      refine Nat.lt_of_le_of_lt h1 ?_
      unfold AReader.consume AReader.bytes
      rw [List.length_append, List.length_append, List.length_drop, List.length_cons]
      dsimp only
      omega
    cases cur with
    | cons b bs => exact key b bs es h
    | nil =>
      cases es with
      | nil => cases h
      | cons e es =>
        cases e with
        | pending => cases h
        | fail x => cases h
        | chunk b bs => exact key b bs es h

theorem readExact_shorter {n : Nat} (hn : 0 < n) {r r' : AReader} {a : List UInt8}
    (h : (readExact n).poll r = (.ready (.ok a), r')) : r'.bytes.length < r.bytes.length := by
  cases n with
  | zero => omega
  | succ n => exact readExactN_shorter _ _ _ _ _ _ h

/-- The bound on the number of records is never met, if it is large enough. -/
theorem cards_fuel (fuel : Nat) : ∀ (fuel' n : Nat) (r : AReader), r.bytes.length < fuel → r.bytes.length < fuel' →
    PollEq ((consumeCardsA fuel n).poll r) ((consumeCardsA fuel' n).poll r) := by
  induction fuel with
  | zero => intro _ _ _ h; omega
  | succ fuel ih =>
    intro fuel' n r h h'
    cases fuel' with
    | zero => omega
    | succ fuel' =>
      unfold consumeCardsA
      rcases hp : (readExact 80).poll r with ⟨x, r'⟩
      cases x with
      | pending f =>
        obtain ⟨g, h1⟩ := poll_andThen_pending hp
        obtain ⟨g', h2⟩ := poll_andThen_pending hp
        exact .inr ⟨g, g', r', h1, h2⟩
      | ready x =>
        cases x with
        | err e => rw [poll_andThen_err hp, poll_andThen_err hp]; exact .inl rfl
        | panic => rw [poll_andThen_panic hp, poll_andThen_panic hp]; exact .inl rfl
        | ok buf =>
          rw [poll_andThen_ok hp, poll_andThen_ok hp]
          have hs := readExact_shorter (by omega) hp
          split
          · split
            · exact .inl rfl
            · exact (ih fuel' (n + 80) r' (by omega) (by omega)).bind
          · exact .inl rfl
          · exact .inl rfl

theorem primary_fuel {fuel fuel' : Nat} {r : AReader} (h : r.bytes.length < fuel) (h' : r.bytes.length < fuel') :
    PollEq ((AHdu.newPrimary fuel).poll r) ((AHdu.newPrimary fuel').poll r) :=
  (cards_fuel fuel fuel' 0 r h h').bind

theorem xtension_fuel {p : Profile} {fuel fuel' : Nat} {r : AReader} (h : r.bytes.length < fuel)
    (h' : r.bytes.length < fuel') : PollEq ((AHdu.newXtension p fuel).poll r) ((AHdu.newXtension p fuel').poll r) :=
  (cards_fuel fuel fuel' 0 r h h').bind

/-! ### The streams -/

theorem record_rd (p : Profile) (n : Option (Res AHdu)) (st : Bool) (m nb : Nat) (er : Bool) (rd rd' : AReader) :
    (AFits.record p n ⟨st, m, nb, er, rd⟩).1 = (AFits.record p n ⟨st, m, nb, er, rd'⟩).1 ∧
    (AFits.record p n ⟨st, m, nb, er, rd'⟩).2 = { (AFits.record p n ⟨st, m, nb, er, rd⟩).2 with rd := rd' } ∧
    (AFits.record p n ⟨st, m, nb, er, rd⟩).2.rd = rd := by
  unfold AFits.record
  cases n with
  | none => exact ⟨rfl, rfl, rfl⟩
  | some x =>
    cases x with
    | ok h =>
      dsimp only
      cases h.dataSize p <;> exact ⟨rfl, rfl, rfl⟩
    | err e => exact ⟨rfl, rfl, rfl⟩
    | panic => exact ⟨rfl, rfl, rfl⟩

/-- A header read from two sources: the same, or the error is reported. -/
theorem header_twins {k : IoKind} {t rest : List Event} {mk : Nat → Fut (Res AHdu)} (hm : ∀ n, OnFail k IsErr (mk n))
    (hn : ∀ m n r, r.bytes.length < m → r.bytes.length < n → PollEq ((mk m).poll r) ((mk n).poll r)) {r r' : AReader}
    (ht : Twins k t rest r r') :
    (∃ e s, (mk (r.bytes.length + 1)).poll r = (.ready (.err e), s)) ∨
    (∃ a s s', (mk (r.bytes.length + 1)).poll r = (.ready a, s) ∧ (mk (r'.bytes.length + 1)).poll r' = (.ready a, s') ∧
      Twins k t rest s s') ∨
    ∃ g g' s s', (mk (r.bytes.length + 1)).poll r = (.pending g, s) ∧
      (mk (r'.bytes.length + 1)).poll r' = (.pending g', s') ∧ Twins k t rest s s' := by
  have h1 := hn (r.bytes.length + 1) (max r.bytes.length r'.bytes.length + 1) r (by omega) (by omega)
  have h2 := hn (r'.bytes.length + 1) (max r.bytes.length r'.bytes.length + 1) r' (by omega) (by omega)
  rcases ht.poll (hm (max r.bytes.length r'.bytes.length + 1)) with ⟨a, ⟨e, rfl⟩, s, g1⟩ | ⟨a, s, s', g1, g2, g3⟩ |
    ⟨g, s, s', g1, g2, g3⟩
  · rw [g1] at h1
    rcases h1 with h1 | ⟨_, _, _, -, h1⟩
    · exact .inl ⟨e, s, h1⟩
    · cases h1
  · rw [g1] at h1
    rw [g2] at h2
    rcases h1 with h1 | ⟨_, _, _, -, h1⟩
    · rcases h2 with h2 | ⟨_, _, _, -, h2⟩
      · exact .inr (.inl ⟨a, s, s', h1, h2, g3⟩)
      · cases h2
    · cases h1
  · rw [g1] at h1
    rw [g2] at h2
    have h3 : ∃ g, (mk (r.bytes.length + 1)).poll r = (.pending g, s) := by
      rcases h1 with h1 | ⟨f1, f2, r1, h1, h3⟩
      · exact ⟨_, h1⟩
      · injection h3 with _ h3; exact ⟨f1, by rw [h1, h3]⟩
    have h4 : ∃ g, (mk (r'.bytes.length + 1)).poll r' = (.pending g, s') := by
      rcases h2 with h2 | ⟨f1, f2, r1, h2, h4⟩
      · exact ⟨_, h2⟩
      · injection h4 with _ h4; exact ⟨f1, by rw [h2, h4]⟩
    obtain ⟨g1, h3⟩ := h3
    obtain ⟨g2, h4⟩ := h4
    exact .inr (.inr ⟨g1, g2, s, s', h3, h4, g3⟩)

/-- Two results of polling for the next HDU on two sources: the same, with the same state but for the sources. -/
def SameNext (k : IoKind) (t rest : List Event) (x y : StreamPoll AHdu × AFits) : Prop :=
  x.1 = y.1 ∧ y.2 = { x.2 with rd := y.2.rd } ∧ Twins k t rest x.2.rd y.2.rd

theorem record_twins {p : Profile} {k : IoKind} {t rest : List Event} (n : Option (Res AHdu)) (st : Bool) (m nb : Nat) (er : Bool)
    {s s' : AReader} (h : Twins k t rest s s') :
    SameNext k t rest (AFits.record p n ⟨st, m, nb, er, s⟩) (AFits.record p n ⟨st, m, nb, er, s'⟩) := by
  obtain ⟨h1, h2, h3⟩ := record_rd p n st m nb er s s'
  have h4 := (record_rd p n st m nb er s' s).2.2
  exact ⟨h1, by rw [h4]; exact h2, by rw [h3, h4]; exact h⟩

/-- The next HDU: the same, or the error is reported, or it is taken for the end. -/
theorem next_twins {p : Profile} {k : IoKind} {t rest : List Event} (st : Bool) (m nb : Nat) (er : Bool) {r r' : AReader}
    (ht : Twins k t rest r r') :
    (∃ e, (AFits.pollNext p ⟨st, m, nb, er, r⟩).1 = .ready (some (.err e))) ∨
    (k = .unexpectedEof ∧ (AFits.pollNext p ⟨st, m, nb, er, r⟩).1 = .ready none) ∨
    SameNext k t rest (AFits.pollNext p ⟨st, m, nb, er, r⟩) (AFits.pollNext p ⟨st, m, nb, er, r'⟩) := by
  unfold AFits.pollNext
  dsimp only
  by_cases he : er = true
  · rw [if_pos he, if_pos he]
    exact .inr (.inr ⟨rfl, rfl, ht⟩)
  rw [if_neg he, if_neg he]
  by_cases hs : st = true
  · rw [if_pos hs, if_pos hs]
    rcases header_twins (mk := AHdu.newPrimary) (onFail_primary k) (fun _ _ _ => primary_fuel) ht with ⟨e, s, h1⟩ |
      ⟨a, s, s', h1, h2, h3⟩ | ⟨g, g', s, s', h1, h2, h3⟩
    · rw [h1]; exact .inl ⟨e, rfl⟩
    · rw [h1, h2]
      exact .inr (.inr (record_twins _ _ _ _ _ h3))
    · rw [h1, h2]
      exact .inr (.inr ⟨rfl, rfl, h3⟩)
  rw [if_neg hs, if_neg hs]
  rcases ht.poll (onFail_consume k m nb) with ⟨a, ha, s, h1⟩ | ⟨a, s, s', h1, h2, h3⟩ | ⟨g, s, s', h1, h2, h3⟩
  · rw [h1]
    rcases ha with ⟨e, rfl⟩ | ⟨hk, rfl⟩
    · exact .inl ⟨e, rfl⟩
    · exact .inr (.inl ⟨hk, rfl⟩)
  · rw [h1, h2]
    cases a with
    | err e => exact .inl ⟨e, rfl⟩
    | panic => exact .inr (.inr (record_twins _ _ _ _ _ h3))
    | ok b =>
      cases b with
      | true => exact .inr (.inr (record_twins _ _ _ _ _ h3))
      | false =>
        dsimp only
        rcases header_twins (mk := AHdu.newXtension p) (onFail_xtension k p) (fun _ _ _ => xtension_fuel) h3 with ⟨e, s1, g1⟩ |
          ⟨a, s1, s2, g1, g2, g3⟩ | ⟨g, g', s1, s2, g1, g2, g3⟩
        · rw [g1]; exact .inl ⟨e, rfl⟩
        · rw [g1, g2]
          exact .inr (.inr (record_twins _ _ _ _ _ g3))
        · rw [g1, g2]
          exact .inr (.inr ⟨rfl, rfl, g3⟩)
  · rw [h1, h2]
    exact .inr (.inr ⟨rfl, rfl, h3⟩)

/-- The next value: the same, or the error is reported. -/
theorem value_twins {p : Profile} {k : IoKind} {t rest : List Event} (ty : Bitpix) (m : Nat) {r r' : AReader}
    (ht : Twins k t rest r r') :
    (∃ e, (St.pollNext p ⟨ty, r, m⟩).1 = .ready (some (.err e))) ∨
    (St.pollNext p ⟨ty, r, m⟩).1 = (St.pollNext p ⟨ty, r', m⟩).1 ∧
      (St.pollNext p ⟨ty, r, m⟩).2.remaining = (St.pollNext p ⟨ty, r', m⟩).2.remaining ∧
      Twins k t rest (St.pollNext p ⟨ty, r, m⟩).2.rd (St.pollNext p ⟨ty, r', m⟩).2.rd := by
  unfold St.pollNext
  dsimp only
  by_cases hm : m = 0
  · rw [if_pos hm, if_pos hm]
    exact .inr ⟨rfl, rfl, ht⟩
  rw [if_neg hm, if_neg hm]
  rcases ht.poll (onFail_readExact k ty.byteSize) with ⟨a, ⟨e, rfl⟩, s, h1⟩ | ⟨a, s, s', h1, h2, h3⟩ | ⟨g, s, s', h1, h2, h3⟩
  · rw [h1]
    exact .inl ⟨e, rfl⟩
  · rw [h1, h2]
    cases a with
    | err e => exact .inl ⟨e, rfl⟩
    | panic => exact .inr ⟨rfl, rfl, h3⟩
    | ok bs =>
      dsimp only
      cases usub p m ty.byteSize <;> exact .inr ⟨rfl, rfl, h3⟩
  · rw [h1, h2]
    exact .inr ⟨rfl, rfl, h3⟩

/-- One operation. -/
theorem step_twins {p : Profile} {k : IoKind} {t rest : List Event} (op : AOp) (st : Bool) (m nb : Nat) (er : Bool)
    (last : Option AHdu) {r r' : AReader} (ht : Twins k t rest r r') {x x' : AOut × AProg}
    (hx : AProg.step p ⟨⟨st, m, nb, er, r⟩, last⟩ op = x) (hx' : AProg.step p ⟨⟨st, m, nb, er, r'⟩, last⟩ op = x') :
    (reportsError x.1 || decide (k = .unexpectedEof) && reportsEnd x.1) = true ∨
    x.1 = x'.1 ∧ x'.2.last = x.2.last ∧ x'.2.file = { x.2.file with rd := x'.2.file.rd } ∧
      Twins k t rest x.2.file.rd x'.2.file.rd := by
  subst hx hx'
  cases op with
  | next =>
    unfold AProg.step
    dsimp only
    rcases next_twins (p := p) st m nb er ht with ⟨e, h⟩ | ⟨hk, h⟩ | ⟨h1, h2, h3⟩
    · rw [h]; exact .inl rfl
    · rw [h]; exact .inl (by rw [hk]; rfl)
    · exact .inr ⟨by rw [h1], by rw [h1], h2, h3⟩
  | value =>
    unfold AProg.step
    dsimp only
    cases last with
    | none => exact .inr ⟨rfl, rfl, rfl, ht⟩
    | some h =>
      dsimp only
      have hd : ∃ ty, ∀ rd, AFits.dataOf ⟨st, m, nb, er, rd⟩ h = ⟨ty, rd, m⟩ := by
        cases h with
        | primary h => exact ⟨h.xtension.bitpix, fun _ => rfl⟩
        | image h => exact ⟨h.xtension.bitpix, fun _ => rfl⟩
        | binTable h => exact ⟨.u8, fun _ => rfl⟩
        | asciiTable h => exact ⟨.u8, fun _ => rfl⟩
      obtain ⟨ty, hd⟩ := hd
      rw [hd, hd]
      rcases value_twins (p := p) ty m ht with ⟨e, h⟩ | ⟨h1, h2, h3⟩
      · rw [h]; exact .inl rfl
      · refine .inr ⟨by rw [h1], rfl, ?_, h3⟩
        unfold AFits.giveBack
        dsimp only
        rw [h2]

/-- What a program is told by two sources that are the same up to a failure. -/
theorem run_twins {p : Profile} {k : IoKind} {t rest : List Event} (ops : List AOp) :
    ∀ (st : Bool) (m nb : Nat) (er : Bool) (r r' : AReader) (last : Option AHdu), Twins k t rest r r' →
    SameUntil (fun o => reportsError o || decide (k = .unexpectedEof) && reportsEnd o)
      (AProg.run p ops ⟨⟨st, m, nb, er, r⟩, last⟩) (AProg.run p ops ⟨⟨st, m, nb, er, r'⟩, last⟩) := by
  induction ops with
  | nil => intro st m nb er r r' last ht; exact .nil
  | cons op ops ih =>
    intro st m nb er r r' last ht
    unfold AProg.run
    have hs := @step_twins p k t rest op st m nb er last r r' ht
    generalize AProg.step p ⟨⟨st, m, nb, er, r⟩, last⟩ op = x at *
    generalize AProg.step p ⟨⟨st, m, nb, er, r'⟩, last⟩ op = x' at *
    rcases hs rfl rfl with h | ⟨h1, h2, h3, h4⟩
    · exact .stop h
    · rw [← h1]
      refine .cons _ ?_
      split
      · exact .nil
      · obtain ⟨o, ⟨st, m, nb, er, r⟩, last⟩ := x
        obtain ⟨o', ⟨st', m', nb', er', r'⟩, last'⟩ := x'
        dsimp only at h2 h3 h4 ⊢
        injection h3 with e1 e2 e3 e4
        subst e1 e2 e3 e4 h2
        exact ih _ _ _ _ _ _ _ h4

/-! ## C86: failures of the source are reported -/

/-- **C86**, the full statement: a program on a source that fails is told the same as with any other source that begins in
the same way, with the same buffers and delays, until it is told about an error. -/
def C86_statement : Prop :=
  ∀ (p : Profile) (ops : List AOp) (cur : List UInt8) (as t rest : List Event) (k : IoKind), Healthy as →
    SameUntil reportsError (AProg.ofSource p ops ⟨cur, as ++ .fail k :: t⟩) (AProg.ofSource p ops ⟨cur, as ++ rest⟩)

theorem Spec.SameUntil.mono {f g : AOut → Bool} (h : ∀ o, f o = true → g o = true) {xs ys : List AOut} (hs : SameUntil f xs ys) :
    SameUntil g xs ys := by
  induction hs with
  | nil => exact .nil
  | cons o _ ih => exact .cons o ih
  | stop ho => exact .stop (h _ ho)

/-- **C86**, partial: for errors of any kind but `UnexpectedEof`. -/
theorem C86_partial (p : Profile) (ops : List AOp) (cur : List UInt8) {as : List Event} (t rest : List Event) {k : IoKind}
    (ha : Healthy as) (hk : k ≠ .unexpectedEof) :
    SameUntil reportsError (AProg.ofSource p ops ⟨cur, as ++ .fail k :: t⟩) (AProg.ofSource p ops ⟨cur, as ++ rest⟩) := by
  refine (run_twins (p := p) (k := k) (t := t) (rest := rest) ops _ _ _ _ _ _ _ ⟨cur, as, ha, rfl, rfl⟩).mono fun o h => ?_
  rw [decide_eq_false hk] at h
  simpa using h

/-- **C86**, exactly what an error of kind `UnexpectedEof` may do: it is reported, or it is taken for the end of the file. -/
theorem C86_eof (p : Profile) (ops : List AOp) (cur : List UInt8) {as : List Event} (t rest : List Event) (k : IoKind)
    (ha : Healthy as) :
    SameUntil (fun o => reportsError o || reportsEnd o) (AProg.ofSource p ops ⟨cur, as ++ .fail k :: t⟩)
      (AProg.ofSource p ops ⟨cur, as ++ rest⟩) := by
  refine (run_twins (p := p) (k := k) (t := t) (rest := rest) ops _ _ _ _ _ _ _ ⟨cur, as, ha, rfl, rfl⟩).mono fun o h => ?_
  simp only [Bool.or_eq_true, Bool.and_eq_true] at h ⊢
  exact h.imp_right And.right

set_option maxRecDepth 20000 in
theorem failing_told : AProg.ofSource .checked [.next, .next] ⟨[], deliver [sampleFile.take 2900] ++ .fail .unexpectedEof :: []⟩ =
    [.hdu (.ready (some (.ok samplePrimaryHdu.forget))), .hdu (.ready none)] := by
  decide +kernel

set_option maxRecDepth 20000 in
theorem reference_told : AProg.ofSource .checked [.next, .next] ⟨[], deliver [sampleFile.take 2900] ++ deliver [sampleFile.drop 2900]⟩ =
    [.hdu (.ready (some (.ok samplePrimaryHdu.forget))), .hdu (.ready (some (.ok sampleImageHdu.forget)))] := by
  decide +kernel

set_option maxRecDepth 20000 in
theorem failing_healthy : Healthy (deliver [sampleFile.take 2900]) := by decide +kernel

/-- **C86 is false**: if the source fails with an error of kind `UnexpectedEof` in the fill after a data unit, the error is
taken for the end of the file, and the HDUs that follow are not given. -/
theorem C86_fails : ¬ C86_statement := by
  intro h
  have h1 := h .checked [.next, .next] [] (deliver [sampleFile.take 2900]) [] (deliver [sampleFile.drop 2900]) .unexpectedEof
    failing_healthy
  rw [failing_told, reference_told] at h1
  cases h1 with
  | cons _ h1 =>
    cases h1 with
    | stop h1 => cases h1
  | stop h1 => cases h1

set_option maxRecDepth 20000 in
/-- The sample file from a source that fails in its second header: the program is told about the first HDU, its first two
values, and then about the error. -/
example : AProg.ofSource .checked [.next, .value, .value, .next, .next]
      ⟨[], deliver [sampleFile.take 3000, [], (sampleFile.drop 3000).take 3000] ++ .fail .invalidInput :: []⟩ =
    [.hdu (.ready (some (.ok samplePrimaryHdu.forget))), .value (.ready (some (.ok (.u8 7)))), .value (.ready (some (.ok (.u8 7)))),
      .hdu .pending, .hdu (.ready (some (.err failHeader)))] ∧
    SameUntil reportsError (AProg.ofSource .checked [.next, .value, .value, .next, .next]
      ⟨[], deliver [sampleFile.take 3000, [], (sampleFile.drop 3000).take 3000] ++ .fail .invalidInput :: []⟩)
      (AProg.ofSource .checked [.next, .value, .value, .next, .next]
      ⟨[], deliver [sampleFile.take 3000, [], (sampleFile.drop 3000).take 3000] ++ deliver [sampleFile.drop 6000]⟩) :=
  ⟨by decide +kernel, C86_partial _ _ _ _ _ (by decide +kernel) (by decide)⟩

theorem AHdu.dataSize_ne_err {p : Profile} {h : AHdu} {e : Err} : h.dataSize p ≠ .err e := by
  obtain ⟨g, rfl⟩ : ∃ g : HDU, g.forget = h := by
    cases h with
    | primary h => exact ⟨.primary ⟨h, 0⟩, rfl⟩
    | image h => exact ⟨.image ⟨h, 0⟩, rfl⟩
    | binTable h => exact ⟨.binTable ⟨h, 0⟩, rfl⟩
    | asciiTable h => exact ⟨.asciiTable ⟨h, 0⟩, rfl⟩
  rw [HDU.forget_dataSize]
  exact HDU.dataSize_ne_err

theorem record_err {p : Profile} {n : Option (Res AHdu)} {f f' : AFits} {e : Err}
    (h : AFits.record p n f = (.ready (some (.err e)), f')) : f'.errored = true := by
  unfold AFits.record at h
  split at h
  · split at h
    · cases h
    · rename_i hd
      exact absurd hd AHdu.dataSize_ne_err
    · cases h
  · injection h with _ h
    rw [← h]
  · cases h
  · cases h

/-- **C86**, after an error of the stream of HDUs: the stream is at its end, whatever the source does then. -/
theorem C86_final {p : Profile} {f f' : AFits} {e : Err} (h : f.pollNext p = (.ready (some (.err e)), f')) (r : AReader) :
    AFits.pollNext p { f' with rd := r } = (.ready none, { f' with rd := r }) := by
  have he : f'.errored = true := by
    unfold AFits.pollNext at h
    split at h
    · cases h
    · split at h
      · split at h
        · cases h
        · exact record_err h
      · split at h
        · cases h
        · exact record_err h
        · split at h
          · cases h
          · exact record_err h
        · exact record_err h
        · exact record_err h
  unfold AFits.pollNext
  rw [if_pos he]

set_option maxRecDepth 20000 in
/-- A source that fails once in the first header: an error, and then the end, although the file would follow. -/
example : ∃ f', AFits.pollNext .checked (AFits.fromReader ⟨[], .fail .invalidInput :: deliver [sampleFile]⟩) =
      (.ready (some (.err failHeader)), f') ∧ AFits.pollNext .checked { f' with rd := f'.rd } = (.ready none, f') := by
  have h : (AFits.pollNext .checked (AFits.fromReader ⟨[], .fail .invalidInput :: deliver [sampleFile]⟩)).1 =
      .ready (some (.err failHeader)) := by decide +kernel
  generalize AFits.fromReader ⟨[], .fail .invalidInput :: deliver [sampleFile]⟩ = f at *
  have h : AFits.pollNext .checked f = (.ready (some (.err failHeader)), (f.pollNext .checked).2) := by rw [← h]
  exact ⟨_, h, C86_final h _⟩

/-- The values after an error need not be those of the file: what had been read of a value is lost.  Of 16-bit values 1, 2
and 3, with a failure after three bytes, the stream returns 1, the error, and then 512. -/
example (p : Profile) : St.collect p 3 ⟨.i16, ⟨[], deliver [[0, 1, 0]] ++ .fail .invalidInput :: deliver [[2, 0, 3]]⟩, 6⟩ =
    [.ok (.i16 1), .err (.io .invalidInput), .ok (.i16 512)] := by
  cases p <;> decide +kernel

end Fitsrs

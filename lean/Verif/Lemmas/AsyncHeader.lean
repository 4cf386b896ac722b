import Verif.Lemmas.Async
/-
Reading headers asynchronously, compared with reading them synchronously.
-/

namespace Fitsrs
open Spec Fut

theorem drop_take_80 (data : List UInt8) (pos : Nat) : (data.drop pos).take 80 = recordAt data pos 0 := rfl

/-- Reading the cards succeeds as it does synchronously. -/
theorem consumeCardsA_ok {fuel : Nat} {s s' : HState} {cards : List Card} (h : consumeCardsN fuel s = (.ok cards, s'))
    {r : AReader} {k fuelA nread : Nat} (hr : Sees r k (s.rd.data.drop s.rd.pos)) (hk : 80 * cards.length ≤ k)
    (hf : cards.length ≤ fuelA) :
    ∃ r', (consumeCardsA fuelA nread).poll r = (.ready (.ok (cards, nread + 80 * cards.length)), r') ∧
      Sees r' (k - 80 * cards.length) (s.rd.data.drop (s.rd.pos + 80 * cards.length)) := by
  induction fuel generalizing s r k fuelA nread cards s' with
  | zero => cases h
  | succ fuel ih =>
    have hlen := (consumeCardsN_ok h).1
    obtain ⟨fuelA, rfl⟩ : ∃ m, fuelA = m + 1 := ⟨fuelA - 1, by omega⟩
    unfold consumeCardsN at h
    by_cases hl : s.rd.pos + 80 ≤ s.rd.data.length
    · rw [consumeNextCard_le hl] at h
      dsimp only at h
      obtain ⟨r1, g1, g2⟩ := readExact_ok (n := 80) hr (by rw [List.length_drop]; omega) (by omega)
      rw [drop_take_80] at g1
      unfold consumeCardsA
      rw [poll_andThen_ok g1]
      rw [List.drop_drop] at g2
      cases hc : recordCard (recordAt s.rd.data s.rd.pos 0) with
      | err e => exact absurd hc recordCard_ne_err
      | panic => rw [hc] at h; cases h
      | ok c =>
        rw [hc] at h
        dsimp only at h ⊢
        by_cases he : c = .end_
        · rw [if_pos he] at h ⊢
          simp only [Prod.mk.injEq, Res.ok.injEq] at h
          obtain ⟨rfl, -⟩ := h
          exact ⟨r1, rfl, g2⟩
        · rw [if_neg he] at h ⊢
          obtain ⟨cs, hcs⟩ : ∃ cs s1, consumeCardsN fuel
              { rd := { s.rd with pos := s.rd.pos + 80 }, nread := s.nread + 80 } = (.ok cs, s1) ∧ cards = c :: cs := by
            generalize consumeCardsN fuel _ = x at h
            obtain ⟨x1, x2⟩ := x
            cases x1 with
            | ok cs =>
              simp only [Res.map, Prod.mk.injEq, Res.ok.injEq] at h
              exact ⟨cs, x2, rfl, h.1.symm⟩
            | err e => cases h
            | panic => cases h
          obtain ⟨s1, hcs, rfl⟩ := hcs
          rw [List.length_cons] at hk hf ⊢
          obtain ⟨r2, e1, e2⟩ := ih (nread := nread + 80) (fuelA := fuelA) hcs g2 (by omega) (by omega)
          refine ⟨r2, ?_, ?_⟩
          · rw [poll_andThen_ok e1]
            show (Poll.ready (Res.ok (c :: cs, nread + 80 + 80 * cs.length)), r2) = _
            rw [show nread + 80 + 80 * cs.length = nread + 80 * (cs.length + 1) by omega]
          · dsimp only at e2
            rw [show k - 80 - 80 * cs.length = k - 80 * (cs.length + 1) by omega,
              show s.rd.pos + 80 + 80 * cs.length = s.rd.pos + 80 * (cs.length + 1) by omega] at e2
            exact e2
    · rw [consumeNextCard_gt (by omega)] at h
      cases h

/-- Reading the cards fails, or panics, as it does synchronously. -/
theorem consumeCardsA_bad {fuel : Nat} {s : HState} {r : AReader} {k fuelA nread : Nat}
    (hr : Sees r k (s.rd.data.drop s.rd.pos)) (hk : s.rd.data.length - s.rd.pos < k) (hf0 : 0 < fuel)
    (hf : s.rd.data.length < s.rd.pos + 80 * fuel) (hfA0 : 0 < fuelA) (hfA : s.rd.data.length < s.rd.pos + 80 * fuelA) :
    (∀ e s', consumeCardsN fuel s = (.err e, s') →
      ∃ r', (consumeCardsA fuelA nread).poll r = (.ready (.err failHeader), r')) ∧
    (∀ s', consumeCardsN fuel s = (.panic, s') → ∃ r', (consumeCardsA fuelA nread).poll r = (.ready .panic, r')) := by
  induction fuel generalizing s r k fuelA nread with
  | zero => omega
  | succ fuel ih =>
    obtain ⟨fuelA, rfl⟩ : ∃ m, fuelA = m + 1 := ⟨fuelA - 1, by omega⟩
    unfold consumeCardsN consumeCardsA
    by_cases hl : s.rd.pos + 80 ≤ s.rd.data.length
    · rw [consumeNextCard_le hl]
      dsimp only
      obtain ⟨r1, g1, g2⟩ := readExact_ok (n := 80) hr (by rw [List.length_drop]; omega) (by omega)
      rw [drop_take_80] at g1
      rw [poll_andThen_ok g1]
      rw [List.drop_drop] at g2
      cases hc : recordCard (recordAt s.rd.data s.rd.pos 0) with
      | err e => exact absurd hc recordCard_ne_err
      | panic => exact ⟨fun e s' h => (by cases h), fun s' h => ⟨r1, rfl⟩⟩
      | ok c =>
        dsimp only
        by_cases he : c = .end_
        · rw [if_pos he]
          exact ⟨fun e s' h => (by cases h), fun s' h => by cases h⟩
        · rw [if_neg he, if_neg he]
          have := ih (s := { rd := { s.rd with pos := s.rd.pos + 80 }, nread := s.nread + 80 }) (nread := nread + 80)
            (fuelA := fuelA) g2 (by dsimp only; omega) (by omega) (by dsimp only; omega) (by omega) (by dsimp only; omega)
          generalize hx : consumeCardsN fuel _ = x at this ⊢
          obtain ⟨x1, x2⟩ := x
          constructor
          · intro e s' h
            cases x1 with
            | ok cs => cases h
            | err e' =>
              obtain ⟨r', e1⟩ := this.1 e' x2 rfl
              exact ⟨r', poll_andThen_err e1⟩
            | panic => cases h
          · intro s' h
            cases x1 with
            | ok cs => cases h
            | err e' => cases h
            | panic =>
              obtain ⟨r', e1⟩ := this.2 x2 rfl
              exact ⟨r', poll_andThen_panic e1⟩
    · rw [consumeNextCard_gt (by omega)]
      dsimp only
      obtain ⟨r1, g1, -⟩ := readExact_eof (n := 80) hr (by rw [List.length_drop]; omega) (by rw [List.length_drop]; omega)
      exact ⟨fun e s' h => ⟨r1, poll_andThen_err g1⟩, fun s' h => by cases h⟩

/-- The end of the header. -/
theorem new_async_ok {X : Type} {parse : ValueMap → Res X} {cards : List Card} {s s' : HState} {h : Hdu X}
    (hh : Hdu.new parse cards s = (.ok h, s')) {r : AReader} {k : Nat} (hr : Sees r k (s.rd.data.drop s.rd.pos))
    (hk : h.dataOffset - s.rd.pos ≤ k) :
    ∃ r', (AHdu.new parse cards s.nread).poll r = (.ready (.ok h.header), r') ∧
      Sees r' (k - (h.dataOffset - s.rd.pos)) (s.rd.data.drop h.dataOffset) := by
  obtain ⟨h1, h2, h3, -⟩ := Hdu.new_ok hh
  unfold AHdu.new
  rw [h1]
  dsimp only
  by_cases hm : s.nread % 2880 = 0
  · rw [if_neg (by omega)]
    rw [roundUp2880_of_mod hm, Nat.sub_self, Nat.add_zero] at h2
    refine ⟨r, rfl, ?_⟩
    rw [h2, Nat.sub_self]
    exact hr
  · rw [if_pos hm]
    rw [roundUp2880_of_not_mod hm, Nat.add_sub_cancel_left] at h2
    have hlen : s.rd.pos + (2880 - s.nread % 2880) ≤ s.rd.data.length := by
      unfold Hdu.new at hh
      rw [h1] at hh
      dsimp only at hh
      rw [if_pos hm] at hh
      by_cases hc : s.rd.pos + (2880 - s.nread % 2880) ≤ s.rd.data.length
      · exact hc
      · rw [Reader.readExact_of_gt (by omega) (by omega)] at hh
        cases hh
    obtain ⟨r1, g1, g2⟩ := readExact_ok (n := 2880 - s.nread % 2880) hr (by rw [List.length_drop]; omega) (by omega)
    refine ⟨r1, by rw [poll_andThen_ok g1]; rfl, ?_⟩
    rw [List.drop_drop] at g2
    rw [h2, Nat.add_sub_cancel_left]
    exact g2

theorem new_async_bad {X : Type} {parse : ValueMap → Res X} {cards : List Card} {s : HState} {r : AReader} {k : Nat}
    (hr : Sees r k (s.rd.data.drop s.rd.pos)) (hk : s.rd.data.length - s.rd.pos < k) :
    (∀ e s', Hdu.new parse cards s = (.err e, s') → ∃ e' r', (AHdu.new parse cards s.nread).poll r = (.ready (.err e'), r')) ∧
    (∀ s', Hdu.new parse cards s = (.panic, s') → ∃ r', (AHdu.new parse cards s.nread).poll r = (.ready .panic, r')) := by
  unfold Hdu.new AHdu.new
  cases Header.parse parse cards with
  | err e => exact ⟨fun e' s' h => ⟨e, r, rfl⟩, fun s' h => by cases h⟩
  | panic => exact ⟨fun e' s' h => (by cases h), fun s' h => ⟨r, rfl⟩⟩
  | ok hd =>
    dsimp only
    by_cases hm : s.nread % 2880 = 0
    · rw [if_neg (by omega)]
      exact ⟨fun e' s' h => (by cases h), fun s' h => by cases h⟩
    · rw [if_pos hm]
      by_cases hc : s.rd.pos + (2880 - s.nread % 2880) ≤ s.rd.data.length
      · rw [Reader.readExact_of_le hc]
        exact ⟨fun e' s' h => (by cases h), fun s' h => by cases h⟩
      · rw [Reader.readExact_of_gt (by omega) (by omega), if_pos hm]
        obtain ⟨r1, g1, -⟩ := readExact_eof (n := 2880 - s.nread % 2880) hr (by rw [List.length_drop]; omega)
          (by rw [List.length_drop]; omega)
        exact ⟨fun e' s' h => ⟨_, r1, poll_andThen_err g1⟩, fun s' h => by cases h⟩

theorem wrap_async_ok {X : Type} {parse : ValueMap → Res X} {cards : List Card} {s s' : HState} {c : Hdu X → HDU}
    {c' : Header X → AHdu} {h : HDU} (hc : ∀ x, (c x).forget = c' x.header) (ho : ∀ x, (c x).dataOffset = x.dataOffset)
    (hh : wrap c (Hdu.new parse cards s) = (.ok h, s')) {r : AReader} {k : Nat}
    (hr : Sees r k (s.rd.data.drop s.rd.pos)) (hk : h.dataOffset - s.rd.pos ≤ k) :
    ∃ r', ((AHdu.new parse cards s.nread).andThen id fun h => done (.ok (c' h))).poll r = (.ready (.ok h.forget), r') ∧
      Sees r' (k - (h.dataOffset - s.rd.pos)) (s.rd.data.drop h.dataOffset) := by
  obtain ⟨x, hx, rfl⟩ := wrap_ok.1 hh
  rw [ho] at hk ⊢
  obtain ⟨r', g1, g2⟩ := new_async_ok hx hr hk
  refine ⟨r', ?_, g2⟩
  rw [poll_andThen_ok g1, hc]
  rfl

theorem wrap_async_bad {X : Type} {parse : ValueMap → Res X} {cards : List Card} {s : HState} {c : Hdu X → HDU}
    {c' : Header X → AHdu} {r : AReader} {k : Nat} (hr : Sees r k (s.rd.data.drop s.rd.pos))
    (hk : s.rd.data.length - s.rd.pos < k) :
    (∀ e s', wrap c (Hdu.new parse cards s) = (.err e, s') → ∃ e' r',
      ((AHdu.new parse cards s.nread).andThen id fun h => done (.ok (c' h))).poll r = (.ready (.err e'), r')) ∧
    (∀ s', wrap c (Hdu.new parse cards s) = (.panic, s') → ∃ r',
      ((AHdu.new parse cards s.nread).andThen id fun h => done (.ok (c' h))).poll r = (.ready .panic, r')) := by
  obtain ⟨g1, g2⟩ := new_async_bad (parse := parse) (cards := cards) hr hk
  constructor
  · intro e s' h
    obtain ⟨e', r', h'⟩ := g1 e s' (wrap_err.1 h)
    exact ⟨_, r', poll_andThen_err h'⟩
  · intro s' h
    obtain ⟨r', h'⟩ := g2 s' (wrap_panic.1 h)
    exact ⟨r', poll_andThen_panic h'⟩

theorem xtensionOfA_ok {p : Profile} {cards : List Card} {s s' : HState} {h : HDU}
    (hh : xtensionOf p cards s = (.ok h, s')) {r : AReader} {k : Nat} (hr : Sees r k (s.rd.data.drop s.rd.pos))
    (hk : h.dataOffset - s.rd.pos ≤ k) :
    ∃ r', (xtensionOfA p cards s.nread).poll r = (.ready (.ok h.forget), r') ∧
      Sees r' (k - (h.dataOffset - s.rd.pos)) (s.rd.data.drop h.dataOffset) := by
  unfold xtensionOf at hh
  split at hh
  · exact wrap_async_ok (c := .image) (c' := .image) (fun _ => rfl) (fun _ => rfl) hh hr hk
  · exact wrap_async_ok (c := .binTable) (c' := .binTable) (fun _ => rfl) (fun _ => rfl) hh hr hk
  · exact wrap_async_ok (c := .asciiTable) (c' := .asciiTable) (fun _ => rfl) (fun _ => rfl) hh hr hk
  · cases hh
  · cases hh

theorem xtensionOfA_bad {p : Profile} {cards : List Card} {s : HState} {r : AReader} {k : Nat}
    (hr : Sees r k (s.rd.data.drop s.rd.pos)) (hk : s.rd.data.length - s.rd.pos < k) :
    (∀ e s', xtensionOf p cards s = (.err e, s') → ∃ e' r', (xtensionOfA p cards s.nread).poll r = (.ready (.err e'), r')) ∧
    (∀ s', xtensionOf p cards s = (.panic, s') → ∃ r', (xtensionOfA p cards s.nread).poll r = (.ready .panic, r')) := by
  unfold xtensionOf xtensionOfA
  split
  · exact wrap_async_bad hr hk
  · exact wrap_async_bad hr hk
  · exact wrap_async_bad hr hk
  · rename_i h1 h2 h3
    constructor
    · intro e s' h
      split
      · rename_i hx; injection hx with hx; exact False.elim (by first | exact h1 _ hx | exact h1 _ _ hx)
      · rename_i hx; injection hx with hx; exact False.elim (by first | exact h2 _ hx | exact h2 _ _ hx)
      · rename_i hx; injection hx with hx; exact False.elim (by first | exact h3 _ hx | exact h3 _ _ hx)
      · exact ⟨_, r, rfl⟩
      · rename_i h; cases h
    · intro s' h; cases h
  · exact ⟨fun e s' h => (by cases h), fun s' h => ⟨r, rfl⟩⟩

theorem primaryOfA_ok {cards : List Card} {s s' : HState} {h : HDU}
    (hh : primaryOf cards s = (.ok h, s')) {r : AReader} {k : Nat} (hr : Sees r k (s.rd.data.drop s.rd.pos))
    (hk : h.dataOffset - s.rd.pos ≤ k) :
    ∃ r', (primaryOfA cards s.nread).poll r = (.ready (.ok h.forget), r') ∧
      Sees r' (k - (h.dataOffset - s.rd.pos)) (s.rd.data.drop h.dataOffset) := by
  unfold primaryOf at hh
  split at hh
  · split at hh
    · exact wrap_async_ok (c := .primary) (c' := .primary) (fun _ => rfl) (fun _ => rfl) hh hr hk
    · cases hh
  · cases hh
  · cases hh

/-- If the first card is a true logical value, its keyword is `SIMPLE`. -/
def SimpleFirst (cards : List Card) : Prop :=
  ∀ name c cs, cards = .value name (.logical true c) :: cs → name = "SIMPLE".toList

theorem primaryOfA_bad {cards : List Card} {s : HState} {r : AReader} {k : Nat}
    (hr : Sees r k (s.rd.data.drop s.rd.pos)) (hk : s.rd.data.length - s.rd.pos < k) (hs : SimpleFirst cards) :
    (∀ e s', primaryOf cards s = (.err e, s') → ∃ e' r', (primaryOfA cards s.nread).poll r = (.ready (.err e'), r')) ∧
    (∀ s', primaryOf cards s = (.panic, s') → ∃ r', (primaryOfA cards s.nread).poll r = (.ready .panic, r')) := by
  unfold primaryOf primaryOfA
  split
  · rw [if_pos (hs _ _ _ rfl)]
    exact wrap_async_bad hr hk
  · rename_i h1
    constructor
    · intro e s' h
      split
      · rename_i hx; injection hx with hx; exact False.elim (by first | exact h1 _ hx | exact h1 _ _ hx)
      · exact ⟨_, r, rfl⟩
      · rename_i h; cases h
    · intro s' h; cases h
  · exact ⟨fun e s' h => (by cases h), fun s' h => ⟨r, rfl⟩⟩

/-! ### Whole headers -/

theorem cards_nread {s s' : HState} {cards : List Card} (hn : s.nread = 0) (h : consumeCards s = (.ok cards, s')) :
    s'.rd.data = s.rd.data ∧ s'.rd.pos = s.rd.pos + 80 * cards.length ∧ s'.nread = 0 + 80 * cards.length ∧
      80 * cards.length ≤ s.rd.data.length - s.rd.pos := by
  obtain ⟨h0, h1, h2, h3⟩ := consumeCardsN_ok h
  refine ⟨by rw [h1], by rw [h1], by omega, ?_⟩
  have := h3.1
  omega

theorem newXtensionA_ok {p : Profile} {s s' : HState} {h : HDU} (hn : s.nread = 0)
    (hh : HDU.newXtension p s = (.ok h, s')) {r : AReader} {k fuel : Nat} (hr : Sees r k (s.rd.data.drop s.rd.pos))
    (hk : h.dataOffset - s.rd.pos ≤ k) (hf : s.rd.data.length - s.rd.pos < fuel) :
    ∃ r', (AHdu.newXtension p fuel).poll r = (.ready (.ok h.forget), r') ∧
      Sees r' (k - (h.dataOffset - s.rd.pos)) (s.rd.data.drop h.dataOffset) := by
  have hoff := (newXtension_ok hn hh).2.2.1
  unfold HDU.newXtension at hh
  cases hc : consumeCards s with
  | mk x s1 =>
    rw [hc] at hh
    cases x with
    | err e => cases hh
    | panic => cases hh
    | ok cards =>
      dsimp only at hh
      obtain ⟨g1, g2, g3, g4⟩ := cards_nread hn hc
      have hcards := (xtensionOf_ok hh).2.1
      have hge := roundUp2880_ge (80 * cards.length)
      rw [hcards] at hoff
      obtain ⟨r1, e1, e2⟩ := consumeCardsA_ok (nread := 0) (fuelA := fuel) hc hr (by omega) (by omega)
      rw [← g1, ← g2] at e2
      obtain ⟨r2, f1, f2⟩ := xtensionOfA_ok hh e2 (by rw [g2]; omega)
      refine ⟨r2, ?_, ?_⟩
      · unfold AHdu.newXtension
        rw [poll_andThen_ok e1]
        rw [g3] at f1
        exact f1
      · rw [g1, g2] at f2
        rw [show k - 80 * cards.length - (h.dataOffset - (s.rd.pos + 80 * cards.length)) = k - (h.dataOffset - s.rd.pos) by
          omega] at f2
        exact f2

theorem newXtensionA_bad {p : Profile} {s : HState} (hn : s.nread = 0) {r : AReader} {k fuel : Nat}
    (hr : Sees r k (s.rd.data.drop s.rd.pos)) (hk : s.rd.data.length - s.rd.pos < k)
    (hf : s.rd.data.length - s.rd.pos < fuel) :
    (∀ e s', HDU.newXtension p s = (.err e, s') → ∃ e' r', (AHdu.newXtension p fuel).poll r = (.ready (.err e'), r')) ∧
    (∀ s', HDU.newXtension p s = (.panic, s') → ∃ r', (AHdu.newXtension p fuel).poll r = (.ready .panic, r')) := by
  unfold HDU.newXtension AHdu.newXtension
  cases hc : consumeCards s with
  | mk x s1 =>
    have hbad := consumeCardsA_bad (fuel := s.rd.data.length + 1) (fuelA := fuel) (nread := 0) hr hk (by omega) (by omega)
      (by omega) (by omega)
    cases x with
    | err e =>
      obtain ⟨r', g⟩ := hbad.1 e s1 hc
      exact ⟨fun e s' h => ⟨_, r', poll_andThen_err g⟩, fun s' h => by cases h⟩
    | panic =>
      obtain ⟨r', g⟩ := hbad.2 s1 hc
      exact ⟨fun e s' h => (by cases h), fun s' h => ⟨r', poll_andThen_panic g⟩⟩
    | ok cards =>
      obtain ⟨g1, g2, g3, g4⟩ := cards_nread hn hc
      obtain ⟨r1, e1, e2⟩ := consumeCardsA_ok (nread := 0) (fuelA := fuel) hc hr (by omega) (by omega)
      rw [← g1, ← g2] at e2
      rw [poll_andThen_ok e1]
      have := xtensionOfA_bad (p := p) (cards := cards) e2 (by rw [g1, g2]; omega)
      rw [g3] at this
      exact this

theorem newPrimaryA_ok {rd : Reader} {s' : HState} {h : HDU}
    (hh : HDU.newPrimary rd = (.ok h, s')) {r : AReader} {k fuel : Nat} (hr : Sees r k (rd.data.drop rd.pos))
    (hk : h.dataOffset - rd.pos ≤ k) (hf : rd.data.length - rd.pos < fuel) :
    ∃ r', (AHdu.newPrimary fuel).poll r = (.ready (.ok h.forget), r') ∧
      Sees r' (k - (h.dataOffset - rd.pos)) (rd.data.drop h.dataOffset) := by
  have hoff := (newPrimary_ok hh).2.2.2.1
  unfold HDU.newPrimary at hh
  cases hc : consumeCards { rd, nread := 0 } with
  | mk x s1 =>
    rw [hc] at hh
    cases x with
    | err e => cases hh
    | panic => cases hh
    | ok cards =>
      dsimp only at hh
      obtain ⟨g1, g2, g3, g4⟩ := cards_nread rfl hc
      have hcards := (primaryOf_ok hh).2.2.1
      have hge := roundUp2880_ge (80 * cards.length)
      rw [hcards] at hoff
      dsimp only at g1 g2 g4
      obtain ⟨r1, e1, e2⟩ := consumeCardsA_ok (nread := 0) (fuelA := fuel) hc hr (by omega) (by omega)
      dsimp only at e2
      rw [← g1, ← g2] at e2
      obtain ⟨r2, f1, f2⟩ := primaryOfA_ok hh e2 (by rw [g2]; omega)
      refine ⟨r2, ?_, ?_⟩
      · unfold AHdu.newPrimary
        rw [poll_andThen_ok e1]
        rw [g3] at f1
        exact f1
      · rw [g1, g2] at f2
        rw [show k - 80 * cards.length - (h.dataOffset - (rd.pos + 80 * cards.length)) = k - (h.dataOffset - rd.pos) by
          omega] at f2
        exact f2

theorem newPrimaryA_bad {rd : Reader} {r : AReader} {k fuel : Nat}
    (hr : Sees r k (rd.data.drop rd.pos)) (hk : rd.data.length - rd.pos < k)
    (hf : rd.data.length - rd.pos < fuel)
    (hs : ∀ cards s', consumeCards { rd, nread := 0 } = (.ok cards, s') → SimpleFirst cards) :
    (∀ e s', HDU.newPrimary rd = (.err e, s') → ∃ e' r', (AHdu.newPrimary fuel).poll r = (.ready (.err e'), r')) ∧
    (∀ s', HDU.newPrimary rd = (.panic, s') → ∃ r', (AHdu.newPrimary fuel).poll r = (.ready .panic, r')) := by
  unfold HDU.newPrimary AHdu.newPrimary
  cases hc : consumeCards { rd, nread := 0 } with
  | mk x s1 =>
    have hbad := consumeCardsA_bad (s := { rd, nread := 0 }) (fuel := rd.data.length + 1) (fuelA := fuel) (nread := 0) hr hk
      (by omega) (by dsimp only; omega) (by omega) (by dsimp only; omega)
    cases x with
    | err e =>
      obtain ⟨r', g⟩ := hbad.1 e s1 hc
      exact ⟨fun e s' h => ⟨_, r', poll_andThen_err g⟩, fun s' h => by cases h⟩
    | panic =>
      obtain ⟨r', g⟩ := hbad.2 s1 hc
      exact ⟨fun e s' h => (by cases h), fun s' h => ⟨r', poll_andThen_panic g⟩⟩
    | ok cards =>
      obtain ⟨g1, g2, g3, g4⟩ := cards_nread rfl hc
      dsimp only at g1 g2 g4
      obtain ⟨r1, e1, e2⟩ := consumeCardsA_ok (nread := 0) (fuelA := fuel) hc hr (by omega) (by omega)
      dsimp only at e2
      rw [← g1, ← g2] at e2
      rw [poll_andThen_ok e1]
      have := primaryOfA_bad (cards := cards) e2 (by rw [g1, g2]; omega) (hs cards s1 hc)
      rw [g3] at this
      exact this

end Fitsrs

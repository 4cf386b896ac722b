import Verif.Props.C02_C08
/-
C79 the headers found do not depend on the contents of the data units.
-/

namespace Fitsrs
open Spec

/-! ### Specification -/

/-- Byte `i` of the file is not part of the records of headers: it fills the header of `h` after its last record, belongs
to its data unit, or fills the data unit. -/
def Spec.Unread (p : Profile) (h : HDU) (i : Nat) : Prop :=
  h.dataOffset + 80 * h.cards.length ≤ i + roundUp2880 (80 * h.cards.length) ∧ i < nextHeader p h

/-- Two files of the same size that have the same bytes, except in the data units of some HDUs and the bytes that fill
their headers and data units. -/
structure Spec.SameHeaders (p : Profile) (hs : List HDU) (a b : List UInt8) : Prop where
  size : a.length = b.length
  bytes : ∀ i, (∀ h ∈ hs, ¬ Unread p h i) → a[i]? = b[i]?

/-! ### The same reader on another file -/

/-- The reader at the same position of another file. -/
def Reader.on (b : List UInt8) (r : Reader) : Reader := { r with data := b }

/-- The state of the reading of a header on another file. -/
def HState.on (b : List UInt8) (s : HState) : HState := { s with rd := s.rd.on b }

/-- The state of the iterator on another file. -/
def Fits.on (b : List UInt8) (f : Fits) : Fits := { f with rd := f.rd.on b }

theorem readExact_on {b : List UInt8} {n : Nat} {r : Reader} (hl : r.data.length = b.length) :
    (∀ bs r', r.readExact n = (.ok bs, r') →
      (r.on b).readExact n = (.ok ((b.drop r.pos).take n), r'.on b)) ∧
    (∀ e r', r.readExact n = (.err e, r') → (r.on b).readExact n = (.err e, r'.on b)) := by
  have e : ((b.drop r.pos).take n).length = ((r.data.drop r.pos).take n).length := by
    rw [List.length_take, List.length_take, List.length_drop, List.length_drop, hl]
  unfold Reader.readExact
  dsimp only [Reader.on]
  rw [e]
  by_cases h : ((r.data.drop r.pos).take n).length = n
  · rw [if_pos h, if_pos h]
    constructor
    · intro bs r' h'
      cases h'
      rfl
    · intro _ _ h'
      cases h'
  · rw [if_neg h, if_neg h]
    constructor
    · intro _ _ h'
      cases h'
    · intro _ r' h'
      cases h'
      rw [hl]

theorem slice_same {a b : List UInt8} {q n : Nat} (h : ∀ i, q ≤ i → i < q + n → a[i]? = b[i]?) :
    (a.drop q).take n = (b.drop q).take n := by
  apply List.ext_getElem?
  intro i
  rw [List.getElem?_take, List.getElem?_take]
  split
  · rw [List.getElem?_drop, List.getElem?_drop]
    exact h _ (by omega) (by omega)
  · rfl

theorem consumeCardsN_on {b : List UInt8} {fuel : Nat} {s : HState} (hl : s.rd.data.length = b.length)
    (hb : ∀ i, s.rd.pos ≤ i → (∀ cards, (consumeCardsN fuel s).1 = .ok cards → i < s.rd.pos + 80 * cards.length) →
      s.rd.data[i]? = b[i]?) :
    consumeCardsN fuel (s.on b) = ((consumeCardsN fuel s).1, (consumeCardsN fuel s).2.on b) := by
  induction fuel generalizing s with
  | zero => rfl
  | succ fuel ih =>
    by_cases hlen : s.rd.pos + 80 ≤ s.rd.data.length
    · have h1 := consumeNextCard_le hlen
      have h2 := consumeNextCard_le (s := s.on b) (show s.rd.pos + 80 ≤ b.length by omega)
      have e : recordAt b s.rd.pos 0 = recordAt s.rd.data s.rd.pos 0 := by
        refine (slice_same ?_).symm
        intro i h3 h4
        refine hb i (by omega) ?_
        intro cards hc
        have := (consumeCardsN_ok (s' := (consumeCardsN (fuel + 1) s).2) (by rw [← hc])).1
        omega
      have h2 : consumeNextCard (s.on b) = (.ok (recordAt s.rd.data s.rd.pos 0),
          ({ rd := { s.rd with pos := s.rd.pos + 80 }, nread := s.nread + 80 } : HState).on b) := by
        rw [h2]
        show (Res.ok (recordAt b s.rd.pos 0), _) = _
        rw [e]
        rfl
      unfold consumeCardsN at hb ⊢
      rw [h1] at hb ⊢
      rw [h2]
      dsimp only at hb ⊢
      cases hr : recordCard (recordAt s.rd.data s.rd.pos 0) with
      | err e => rfl
      | panic => rfl
      | ok c =>
        rw [hr] at hb
        dsimp only at hb ⊢
        by_cases hc : c = .end_
        · rw [if_pos hc, if_pos hc]
        · rw [if_neg hc, if_neg hc]
          rw [if_neg hc] at hb
          rw [ih (s := { rd := { s.rd with pos := s.rd.pos + 80 }, nread := s.nread + 80 }) hl ?_]
          intro i hi hcards
          refine hb i (by dsimp only at hi; omega) ?_
          intro cards hcs
          dsimp only at hcs
          cases hx : (consumeCardsN fuel { rd := { s.rd with pos := s.rd.pos + 80 }, nread := s.nread + 80 }).1 with
          | err e => rw [hx] at hcs; cases hcs
          | panic => rw [hx] at hcs; cases hcs
          | ok cs =>
            rw [hx] at hcs
            cases hcs
            have := hcards cs hx
            dsimp only at this
            rw [List.length_cons]
            omega
    · unfold consumeCardsN
      rw [consumeNextCard_gt (s := s) (by omega), consumeNextCard_gt (s := s.on b) (show b.length < s.rd.pos + 80 by omega)]
      show _ = ((_ : Res (List Card)), HState.on b _)
      dsimp only [HState.on, Reader.on]
      rw [hl]

theorem consumeCards_on {b : List UInt8} {s : HState} (hl : s.rd.data.length = b.length)
    (hb : ∀ i, s.rd.pos ≤ i → (∀ cards, (consumeCards s).1 = .ok cards → i < s.rd.pos + 80 * cards.length) →
      s.rd.data[i]? = b[i]?) :
    consumeCards (s.on b) = ((consumeCards s).1, (consumeCards s).2.on b) := by
  have := consumeCardsN_on (fuel := s.rd.data.length + 1) hl hb
  unfold consumeCards
  rw [show (s.on b).rd.data.length = s.rd.data.length from hl.symm]
  exact this

theorem Hdu.new_on {X : Type} {parse : ValueMap → Res X} {cards : List Card} {b : List UInt8} {s : HState}
    (hl : s.rd.data.length = b.length) :
    Hdu.new parse cards (s.on b) = ((Hdu.new parse cards s).1, (Hdu.new parse cards s).2.on b) := by
  unfold Hdu.new
  cases Header.parse parse cards with
  | err e => rfl
  | panic => rfl
  | ok header =>
    dsimp only
    by_cases hn : s.nread % 2880 ≠ 0
    · rw [if_pos hn, if_pos (show (s.on b).nread % 2880 ≠ 0 from hn)]
      have h := readExact_on (n := 2880 - s.nread % 2880) hl
      cases hr : s.rd.readExact (2880 - s.nread % 2880) with
      | mk r rd =>
        cases r with
        | ok bs =>
          rw [show (s.on b).rd.readExact (2880 - (s.on b).nread % 2880) = _ from h.1 bs rd hr]
          rfl
        | err e =>
          rw [show (s.on b).rd.readExact (2880 - (s.on b).nread % 2880) = _ from h.2 e rd hr]
          rfl
        | panic =>
          exfalso
          unfold Reader.readExact at hr
          dsimp only at hr
          split at hr <;> cases hr
    · rw [if_neg hn, if_neg (show ¬ (s.on b).nread % 2880 ≠ 0 from hn)]
      rfl

theorem wrap_on {X : Type} {c : Hdu X → HDU} {b : List UInt8} {r r' : Res (Hdu X) × HState}
    (h : r' = (r.1, r.2.on b)) : wrap c r' = ((wrap c r).1, (wrap c r).2.on b) := by
  subst h
  rfl

theorem xtensionOf_on {p : Profile} {cards : List Card} {b : List UInt8} {s : HState}
    (hl : s.rd.data.length = b.length) :
    xtensionOf p cards (s.on b) = ((xtensionOf p cards s).1, (xtensionOf p cards s).2.on b) := by
  unfold xtensionOf
  split
  · exact wrap_on (Hdu.new_on hl)
  · exact wrap_on (Hdu.new_on hl)
  · exact wrap_on (Hdu.new_on hl)
  · rfl
  · rfl

theorem primaryOf_on {cards : List Card} {b : List UInt8} {s : HState} (hl : s.rd.data.length = b.length) :
    primaryOf cards (s.on b) = ((primaryOf cards s).1, (primaryOf cards s).2.on b) := by
  unfold primaryOf
  split
  · split
    · exact wrap_on (Hdu.new_on hl)
    · rfl
  · rfl
  · rfl

/-- Reading an extension: only the records are looked at. -/
theorem newXtension_on {p : Profile} {b : List UInt8} {s : HState} (hl : s.rd.data.length = b.length)
    (hb : ∀ i, s.rd.pos ≤ i → (∀ h, (HDU.newXtension p s).1 = .ok h → i < s.rd.pos + 80 * h.cards.length) →
      s.rd.data[i]? = b[i]?) :
    HDU.newXtension p (s.on b) = ((HDU.newXtension p s).1, (HDU.newXtension p s).2.on b) := by
  have hc : consumeCards (s.on b) = ((consumeCards s).1, (consumeCards s).2.on b) := by
    refine consumeCards_on hl fun i h1 h2 => hb i h1 ?_
    intro h hh
    unfold HDU.newXtension at hh
    cases he : consumeCards s with
    | mk r s' =>
      rw [he] at hh h2
      cases r with
      | err e => cases hh
      | panic => cases hh
      | ok cards =>
        have := (xtensionOf_ok (s' := (xtensionOf p cards s').2) (h := h) (by rw [← hh])).2.1
        rw [this]
        exact h2 cards rfl
  unfold HDU.newXtension
  rw [hc]
  cases he : consumeCards s with
  | mk r s' =>
    cases r with
    | err e => rfl
    | panic => rfl
    | ok cards =>
      refine xtensionOf_on ?_
      rw [← hl]
      have := (consumeCardsN_ok he).2.1
      rw [this]

/-- Reading a primary HDU: only the records are looked at. -/
theorem newPrimary_on {b : List UInt8} {rd : Reader} (hl : rd.data.length = b.length)
    (hb : ∀ i, rd.pos ≤ i → (∀ h, (HDU.newPrimary rd).1 = .ok h → i < rd.pos + 80 * h.cards.length) →
      rd.data[i]? = b[i]?) :
    HDU.newPrimary (rd.on b) = ((HDU.newPrimary rd).1, (HDU.newPrimary rd).2.on b) := by
  have hc : consumeCards (HState.on b { rd, nread := 0 }) =
      ((consumeCards { rd, nread := 0 }).1, (consumeCards { rd, nread := 0 }).2.on b) := by
    refine consumeCards_on hl fun i h1 h2 => hb i h1 ?_
    intro h hh
    unfold HDU.newPrimary at hh
    cases he : consumeCards { rd, nread := 0 } with
    | mk r s' =>
      rw [he] at hh h2
      cases r with
      | err e => cases hh
      | panic => cases hh
      | ok cards =>
        have := (primaryOf_ok (s' := (primaryOf cards s').2) (h := h) (by rw [← hh])).2.2.1
        rw [this]
        exact h2 cards rfl
  unfold HDU.newPrimary
  rw [show consumeCards { rd := rd.on b, nread := 0 } = _ from hc]
  cases he : consumeCards { rd, nread := 0 } with
  | mk r s' =>
    cases r with
    | err e => rfl
    | panic => rfl
    | ok cards =>
      refine primaryOf_on ?_
      rw [← hl]
      have := (consumeCardsN_ok he).2.1
      rw [this]

/-! ### One call -/

theorem record_on {p : Profile} {n : Option (Res HDU)} {f : Fits} {b : List UInt8} :
    Fits.record p n (f.on b) = ((Fits.record p n f).1, (Fits.record p n f).2.on b) := by
  unfold Fits.record
  cases n with
  | none => rfl
  | some r =>
    cases r with
    | err e => rfl
    | panic => rfl
    | ok h =>
      dsimp only
      cases h.dataSize p <;> rfl

theorem record_fst_ok {p : Profile} {n : Option (Res HDU)} {f : Fits} {h : HDU}
    (hh : (Fits.record p n f).1 = some (.ok h)) : n = some (.ok h) :=
  (Fits.record_ok (p := p) (n := n) (f := f) (f' := (Fits.record p n f).2) (by rw [← hh])).1

theorem consumeUntil_on {p : Profile} {f : Fits} {b : List UInt8} :
    (f.on b).consumeUntilNextHdu p = ((f.consumeUntilNextHdu p).1, (f.consumeUntilNextHdu p).2.on b) := by
  unfold Fits.consumeUntilNextHdu
  rw [show (f.on b).skipBytes p = f.skipBytes p from rfl]
  cases f.skipBytes p with
  | err e => rfl
  | panic => rfl
  | ok n =>
    dsimp only
    unfold Reader.seekRelative
    dsimp only [Fits.on, Reader.on]
    split <;> rfl

/-- A call on two files that have the same bytes from the start of the header on, up to the last record if the call
returns an HDU. -/
theorem next_on {p : Profile} {f : Fits} {T : Nat} {b : List UInt8} (hl : f.rd.data.length = b.length)
    (hT : f.errored = true ∨ (f.start = true ∧ f.rd.pos = T) ∨
      (f.start = false ∧ ∀ rd, f.consumeUntilNextHdu p = (.ok (), rd) → rd.pos = T))
    (hb : ∀ i, T ≤ i → (∀ h, (f.next p).1 = some (.ok h) → i < T + 80 * h.cards.length) → f.rd.data[i]? = b[i]?) :
    (f.on b).next p = ((f.next p).1, (f.next p).2.on b) := by
  unfold Fits.next at hb ⊢
  by_cases he : f.errored = true
  · rw [if_pos he, if_pos (show (f.on b).errored = true from he)]
  rw [if_neg he] at hb
  rw [if_neg he, if_neg (show ¬ (f.on b).errored = true from he)]
  by_cases hs : f.start = true
  · rcases hT with hT | ⟨-, hT⟩ | ⟨hT, -⟩
    · exact absurd hT he
    · rw [if_pos hs] at hb
      rw [if_pos hs, if_pos (show (f.on b).start = true from hs)]
      have h := newPrimary_on (rd := f.rd) hl fun i h1 h2 => hb i (by omega) fun h hh => by
        dsimp only at hh
        have := record_fst_ok hh
        have := h2 h (Option.some.inj this)
        omega
      dsimp only
      rw [show HDU.newPrimary (f.on b).rd = _ from h]
      exact record_on (f := { f with start := false, rd := (HDU.newPrimary f.rd).2.rd })
    · rw [hs] at hT; cases hT
  · rw [if_neg hs] at hb
    rw [if_neg hs, if_neg (show ¬ (f.on b).start = true from hs), consumeUntil_on]
    have hT : ∀ rd, f.consumeUntilNextHdu p = (.ok (), rd) → rd.pos = T := by
      rcases hT with hT | ⟨hT, -⟩ | ⟨-, hT⟩
      · exact absurd hT he
      · exact absurd hT hs
      · exact hT
    have hdat : (f.consumeUntilNextHdu p).2.data = f.rd.data := by
      unfold Fits.consumeUntilNextHdu
      cases f.skipBytes p with
      | err e => rfl
      | panic => rfl
      | ok n => exact Fits.seekRelative_data _ _
    cases hc : f.consumeUntilNextHdu p with
    | mk r rd =>
      rw [hc] at hb hdat
      cases r with
      | err e => exact record_on (f := { f with start := false, rd })
      | panic => exact record_on (f := { f with start := false, rd })
      | ok u =>
        dsimp only at hb ⊢ hdat
        have hpos := hT rd hc
        have h := newXtension_on (p := p) (b := b) (s := { rd, nread := 0 }) (by dsimp only; rw [hdat]; exact hl)
          fun i h1 h2 => by
            dsimp only at h1 h2 ⊢
            rw [hdat]
            refine hb i (by omega) fun h hh => ?_
            have hh := record_fst_ok hh
            have : (HDU.newXtension p { rd, nread := 0 }).1 = .ok h := by
              split at hh
              · split at hh
                · cases hh
                · exact Option.some.inj hh
              · exact Option.some.inj hh
            have := h2 h this
            omega
        rw [show HDU.newXtension p { rd := rd.on b, nread := 0 } = _ from h]
        exact record_on (f := { f with start := false, rd := (HDU.newXtension p { rd, nread := 0 }).2.rd })

/-! ### Histories -/

/-- Where the header after some HDUs starts. -/
def headerAfter (p : Profile) (hs : List HDU) : Nat :=
  match hs.getLast? with | some h => nextHeader p h | none => 0

theorem HduAt.bounds {p : Profile} {data : List UInt8} {q : Prop} {T : Nat} {h : HDU} (hh : HduAt p data q T h) :
    T + 80 * h.cards.length ≤ h.dataOffset ∧ h.dataOffset ≤ nextHeader p h ∧
    h.dataOffset = T + roundUp2880 (80 * h.cards.length) := by
  have h1 := hh.offset
  have := roundUp2880_ge (80 * h.cards.length)
  obtain ⟨n, hn⟩ := hh.size
  rw [nextHeader_of hn]
  omega

/-- The data units of the HDUs returned end before the next header. -/
theorem Placed.before {p : Profile} {data : List UInt8} {hs : List HDU} {T : Nat} (h : Placed p data hs T) :
    ∀ x ∈ hs, nextHeader p x ≤ T := by
  induction h with
  | nil => intro x hx; cases hx
  | snoc h1 h2 ih =>
    intro x hx
    have := h2.bounds
    rcases List.mem_append.1 hx with hx | hx
    · have := ih x hx
      omega
    · rw [List.mem_singleton.1 hx]
      omega

/-- Where the calls of the iterator look for a header. -/
theorem Inv.header {p : Profile} {data : List UInt8} {hs : List HDU} {f : Fits} (hi : Inv p data hs f)
    (hfit : SizesFit p hs) (hl : data.length < 2 ^ 63) :
    f.errored = true ∨ (f.start = true ∧ f.rd.pos = headerAfter p hs) ∨
      (f.start = false ∧ ∀ rd, f.consumeUntilNextHdu p = (.ok (), rd) → rd.pos = headerAfter p hs) := by
  rcases hi.state with he | ⟨rfl, rfl⟩ | ⟨hs', h, rfl, ha⟩
  · exact .inl he
  · exact .inr (.inl ⟨rfl, rfl⟩)
  · refine .inr (.inr ⟨ha.start, ?_⟩)
    intro rd hc
    have e : headerAfter p (hs' ++ [h]) = f.posStart + roundUp2880 f.numBytes := by
      unfold headerAfter
      rw [List.getLast?_append, List.getLast?_singleton]
      show nextHeader p h = _
      rw [nextHeader_of ha.size, ha.offset]
    have h3 : f.posStart + roundUp2880 f.numBytes < 2 ^ 63 := by
      have := hfit.last
      rw [nextHeader_of ha.size, ← ha.offset] at this
      exact this
    rw [e]
    rcases ha.pos with ⟨h1, h2⟩ | ⟨h1, h2⟩
    · rw [Fits.consumeUntilNextHdu_inside h1 h2 h3] at hc
      cases hc
      rfl
    · cases p with
      | wrapping =>
        rw [Fits.consumeUntilNextHdu_wrapping (by
          have := hfit.last
          omega) h3] at hc
        cases hc
        rfl
      | checked =>
        have hge : nextHeader .checked h = f.posStart + roundUp2880 f.numBytes := by
          rw [nextHeader_of ha.size, ha.offset]
        by_cases hin : f.rd.pos ≤ f.posStart + f.numBytes
        · rw [Fits.consumeUntilNextHdu_inside (by omega) hin h3] at hc
          cases hc
          rfl
        · exfalso
          unfold Fits.consumeUntilNextHdu Fits.skipBytes at hc
          rw [usub_ok (by omega)] at hc
          simp only [Res.bind_ok] at hc
          have : usub .checked f.numBytes (f.rd.pos - f.posStart) = .panic := by
            unfold usub
            rw [if_neg (by omega)]
          rw [this] at hc
          cases hc

theorem History.same {p : Profile} {a b : List UInt8} {hs : List HDU} {f : Fits} (h : History p a hs f)
    (hl : a.length < 2 ^ 63) : ∀ (rest : List HDU), (f.errored = true → rest = []) →
    (∀ r ∈ rest, 0 < r.cards.length ∧ headerAfter p hs + roundUp2880 (80 * r.cards.length) ≤ r.dataOffset) →
    SizesFit p (hs ++ rest) → Spec.SameHeaders p (hs ++ rest) a b → History p b hs (f.on b) := by
  have key : ∀ {hs : List HDU} {f : Fits} (rest : List HDU), History p a hs f → SizesFit p hs →
      Spec.SameHeaders p (hs ++ rest) a b →
      (∀ r ∈ rest, ∀ i < a.length, headerAfter p hs ≤ i →
        (∀ h, (f.next p).1 = some (.ok h) → i < headerAfter p hs + 80 * h.cards.length) → ¬ Spec.Unread p r i) →
      (f.on b).next p = ((f.next p).1, (f.next p).2.on b) := by
    intro hs f rest hist hfit hsame hrest
    have hi := hist.inv hfit hl
    obtain ⟨T, hT⟩ := hi.placed
    have hTe : T = headerAfter p hs := hT.unique
    refine next_on (by rw [hi.bytes]; exact hsame.size) (hi.header hfit hl) ?_
    intro i h1 h2
    rw [hi.bytes]
    by_cases hia : i < a.length
    · refine hsame.bytes i fun x hx => ?_
      rcases List.mem_append.1 hx with hx | hx
      · rintro ⟨h3, h4⟩
        have := hT.before x hx
        omega
      · exact hrest x hx i hia h1 h2
    · rw [List.getElem?_eq_none (by omega), List.getElem?_eq_none (by rw [← hsame.size]; omega)]
  induction h with
  | start =>
    intro rest _ _ _ _
    exact .start
  | @hdu hs f h f' k hh hn ih =>
    intro rest _ hrest hfit hsame
    rw [List.append_assoc, List.singleton_append] at hfit hsame
    have hfit1 : SizesFit p hs := fun x hx => hfit x (by simp [hx])
    have hfit2 : SizesFit p (hs ++ [h]) := fun x hx => hfit x (by
      rcases List.mem_append.1 hx with hx | hx
      · simp [hx]
      · simp [List.mem_singleton.1 hx])
    have hi := hh.inv hfit1 hl
    obtain ⟨T, hT⟩ := hi.placed
    have hTe : T = headerAfter p hs := hT.unique
    obtain ⟨T', hT'⟩ := ((History.hdu k hh hn).inv hfit2 hl).placed
    have hat : HduAt p a (hs = []) (headerAfter p hs) h := by
      have : ∀ {l : List HDU} {T' : Nat}, Placed p a l T' → l = hs ++ [h] → HduAt p a (hs = []) (headerAfter p hs) h := by
        intro l T' hp hl
        cases hp with
        | nil => simp at hl
        | snoc h1 h2 =>
          obtain ⟨e1, e2⟩ := List.append_inj' hl rfl
          cases e1
          cases e2
          have e : _ = headerAfter p hs := h1.unique
          rw [← e]
          exact h2
      exact this hT' rfl
    have hb := hat.bounds
    have hlast : headerAfter p (hs ++ [h]) = nextHeader p h := by
      unfold headerAfter
      rw [List.getLast?_append, List.getLast?_singleton]
      rfl
    rw [hlast] at hrest
    have hr2 : ∀ r ∈ h :: rest, 0 < r.cards.length ∧
        headerAfter p hs + roundUp2880 (80 * r.cards.length) ≤ r.dataOffset := by
      intro r hr
      rcases List.mem_cons.1 hr with rfl | hr
      · exact ⟨hat.header.nonempty, by omega⟩
      · have := hrest r hr
        exact ⟨this.1, by omega⟩
    have ih := ih (h :: rest) (by
      intro he
      rw [Fits.next_errored he] at hn
      cases hn) hr2 hfit hsame
    have hstep := key (h :: rest) hh hfit1 hsame (by
      intro r hr i _ h1 h2
      rw [hn] at h2
      have h2 := h2 h rfl
      rintro ⟨h3, h4⟩
      rcases List.mem_cons.1 hr with rfl | hr
      · omega
      · have := hrest r hr
        omega)
    rw [hn] at hstep
    exact History.hdu k ih hstep
  | @none hs f f' hh hn ih =>
    intro rest he hrest hfit hsame
    have hfit1 : SizesFit p hs := fun x hx => hfit x (by simp [hx])
    have ih := ih rest (by
      intro h
      apply he
      rw [Fits.next_errored h] at hn
      cases hn
      exact h) hrest hfit hsame
    refine History.none ih ?_
    have hi := hh.inv hfit1 hl
    rcases hi.next_none hfit1 hl hn with h | ⟨hs', x, rfl, ha, h1, h2⟩
    · cases he h
      have := key [] hh hfit1 hsame (by intro r hr; cases hr)
      rw [hn] at this
      exact this
    · -- fewer than 80 bytes are left: none of them is looked at
      have hst := key rest hh hfit1 hsame (by
        intro r hr i hi1 hi2 _
        have := hrest r hr
        have e : headerAfter p (hs' ++ [x]) = nextHeader p x := by
          unfold headerAfter
          rw [List.getLast?_append, List.getLast?_singleton]
          rfl
        rintro ⟨h3, h4⟩
        omega)
      rw [hn] at hst
      exact hst
  | @error hs f f' e hh hn ih =>
    intro rest he hrest hfit hsame
    have hfit1 : SizesFit p hs := fun x hx => hfit x (by simp [hx])
    cases he (Fits.next_err hn)
    have ih := ih [] (fun _ => rfl) (by intro r hr; cases hr) hfit hsame
    refine History.error (e := e) ih ?_
    have := key [] hh hfit1 hsame (by intro r hr; cases hr)
    rw [hn] at this
    exact this

/-- **C79.**  When the calls of the iterator, with reads of the data between them, return some HDUs on a file, they
return the same HDUs on every file of the same size that differs only in the data units of these HDUs and in the bytes
that fill their headers and data units. -/
theorem C79_same_headers {p : Profile} {a b : List UInt8} {hs : List HDU} {f : Fits} (h : History p a hs f)
    (hfit : SizesFit p hs) (hl : a.length < 2 ^ 63) (hsame : Spec.SameHeaders p hs a b) : History p b hs (f.on b) :=
  h.same hl [] (fun _ => rfl) (by intro r hr; cases hr) (by rw [List.append_nil]; exact hfit)
    (by rw [List.append_nil]; exact hsame)

/-- **C79**, the results of a sequence of calls, panics included, when all the HDUs returned are known. -/
theorem C79_next {p : Profile} {a b : List UInt8} {hs : List HDU} {f : Fits} (h : History p a hs f)
    (hfit : SizesFit p hs) (hl : a.length < 2 ^ 63) (hsame : Spec.SameHeaders p hs a b) :
    ((f.on b).next p).1 = (f.next p).1 ∧ ((f.on b).next p).2 = (f.next p).2.on b := by
  have hi := h.inv hfit hl
  obtain ⟨T, hT⟩ := hi.placed
  have hTe : T = headerAfter p hs := hT.unique
  have := next_on (p := p) (b := b) (by rw [hi.bytes]; exact hsame.size) (hi.header hfit hl) (by
    intro i h1 h2
    rw [hi.bytes]
    refine hsame.bytes i fun x hx => ?_
    rintro ⟨h3, h4⟩
    have := hT.before x hx
    omega)
  rw [this]
  exact ⟨rfl, rfl⟩

/-- Another byte in the data unit of the first HDU of the sample file and another one after the last record of the
header of the second one: the same two HDUs. -/
example (p : Profile) : ∃ f, History p ((sampleFile.set 2885 42).set 6500 42) [samplePrimaryHdu, sampleImageHdu] f := by
  obtain ⟨f, h⟩ := sample_history p 3 0
  refine ⟨_, C79_same_headers h (by cases p <;> (unfold SizesFit; decide)) (by decide +kernel)
    ⟨by rw [List.length_set, List.length_set], ?_⟩⟩
  intro i hi
  have h1 : i ≠ 2885 := by
    rintro rfl
    exact hi samplePrimaryHdu (by simp) (by unfold Unread; cases p <;> decide)
  have h2 : i ≠ 6500 := by
    rintro rfl
    exact hi sampleImageHdu (by simp) (by unfold Unread; cases p <;> decide)
  rw [List.getElem?_set_ne (Ne.symm h2), List.getElem?_set_ne (Ne.symm h1)]

end Fitsrs

import Verif.Lemmas.Walk
/-
Invariant of the histories of the HDU iterator.
-/

namespace Fitsrs
open Spec

/-- An HDU read at offset `pos`. -/
structure HduAt (p : Profile) (data : List UInt8) (first : Prop) (pos : Nat) (h : HDU) : Prop where
  header : HeaderAt data pos h.cards
  offset : h.dataOffset = pos + roundUp2880 (80 * h.cards.length)
  primary : first → PrimaryOk h.cards h
  kind : ¬ first → KindOk h.cards h
  size : ∃ n, h.dataSize p = .ok n

/-- The HDUs returned so far, and where the next header starts. -/
inductive Placed (p : Profile) (data : List UInt8) : List HDU → Nat → Prop
  | nil : Placed p data [] 0
  | snoc {hs T h} : Placed p data hs T → HduAt p data (hs = []) T h →
    Placed p data (hs ++ [h]) (nextHeader p h)

/-- State of the iterator after the HDU `h` has been returned. -/
structure After (p : Profile) (data : List UInt8) (h : HDU) (f : Fits) : Prop where
  start : f.start = false
  errored : f.errored = false
  size : h.dataSize p = .ok f.numBytes
  offset : f.posStart = h.dataOffset
  pos : (f.posStart ≤ f.rd.pos ∧ f.rd.pos ≤ f.posStart + f.numBytes) ∨
    (data.length < nextHeader p h + 80 ∧ f.rd.pos = max (nextHeader p h) data.length)

/-- Invariant. -/
structure Inv (p : Profile) (data : List UInt8) (hs : List HDU) (f : Fits) : Prop where
  bytes : f.rd.data = data
  placed : ∃ T, Placed p data hs T
  state : f.errored = true ∨ (f = Fits.fromReader ⟨data, 0⟩ ∧ hs = []) ∨
    ∃ hs' h, hs = hs' ++ [h] ∧ After p data h f

theorem Placed.unique {p : Profile} {data : List UInt8} {hs : List HDU} {T : Nat}
    (h : Placed p data hs T) : T = match hs.getLast? with | some h => nextHeader p h | none => 0 := by
  cases h <;> simp

theorem nextHeader_of {p : Profile} {h : HDU} {n : Nat} (hs : h.dataSize p = .ok n) :
    nextHeader p h = h.dataOffset + roundUp2880 n := by
  unfold nextHeader; rw [hs]

theorem SizesFit.left {p : Profile} {hs : List HDU} {h : HDU} (hf : SizesFit p (hs ++ [h])) :
    SizesFit p hs := fun x hx => hf x (by simp [hx])

theorem SizesFit.last {p : Profile} {hs : List HDU} {h : HDU} (hf : SizesFit p (hs ++ [h])) :
    nextHeader p h < 2 ^ 63 := hf h (by simp)

namespace Fits

/-- The reader keeps its bytes. -/
theorem consumeCardsN_data {fuel : Nat} {s s' : HState} {r : Res (List Card)}
    (h : consumeCardsN fuel s = (r, s')) : s'.rd.data = s.rd.data := by
  induction fuel generalizing s r with
  | zero => simp [consumeCardsN] at h; rw [h.2]
  | succ fuel ih =>
    unfold consumeCardsN at h
    by_cases hle : s.rd.pos + 80 ≤ s.rd.data.length
    · rw [consumeNextCard_le hle] at h
      simp only at h
      split at h
      · split at h
        · simp only [Prod.mk.injEq] at h; rw [← h.2]
        · cases hrec : consumeCardsN fuel { rd := { s.rd with pos := s.rd.pos + 80 }, nread := s.nread + 80 } with
          | mk r s2 =>
            rw [hrec] at h
            simp only [Prod.mk.injEq] at h
            obtain ⟨-, rfl⟩ := h
            rw [ih hrec]
      · simp only [Prod.mk.injEq] at h; rw [← h.2]
      · simp only [Prod.mk.injEq] at h; rw [← h.2]
    · rw [consumeNextCard_gt (by omega)] at h
      simp only [Prod.mk.injEq] at h; rw [← h.2]

theorem readExact_data (n : Nat) (r : Reader) : (r.readExact n).2.data = r.data := by
  unfold Reader.readExact
  dsimp only
  split <;> rfl

theorem new_data {X : Type} {parse : ValueMap → Res X} {cards : List Card} {s : HState} :
    (Hdu.new parse cards s).2.rd.data = s.rd.data := by
  unfold Hdu.new
  split
  · split
    · dsimp only
      have := readExact_data (2880 - s.nread % 2880) s.rd
      split <;> rename_i heq <;> rw [heq] at this <;> exact this
    · rfl
  · rfl
  · rfl

theorem newXtension_data {p : Profile} {s : HState} : (HDU.newXtension p s).2.rd.data = s.rd.data := by
  unfold HDU.newXtension
  split
  all_goals
    rename_i hc
    have := consumeCardsN_data hc
  · rw [← this]
    unfold xtensionOf
    split
    all_goals first | rfl | exact new_data
  · exact this
  · exact this

theorem newPrimary_data {rd : Reader} : (HDU.newPrimary rd).2.rd.data = rd.data := by
  unfold HDU.newPrimary
  split
  all_goals
    rename_i hc
    have := consumeCardsN_data hc
  · rw [← this]
    unfold primaryOf
    split
    · split
      · exact new_data
      · rfl
    · rfl
    · rfl
  · exact this
  · exact this

theorem record_rd {p : Profile} {n : Option (Res HDU)} {f : Fits} : (record p n f).2.rd = f.rd := by
  unfold record
  repeat' split
  all_goals rfl

theorem record_start {p : Profile} {n : Option (Res HDU)} {f : Fits} :
    (record p n f).2.start = f.start := by
  unfold record
  repeat' split
  all_goals rfl

theorem seekRelative_data (off : Int) (r : Reader) : (r.seekRelative off).2.data = r.data := by
  unfold Reader.seekRelative
  dsimp only
  split <;> rfl

theorem next_data {p : Profile} {f : Fits} : (f.next p).2.rd.data = f.rd.data := by
  unfold next
  split
  · rfl
  · split
    · rw [record_rd]; exact newPrimary_data
    · have hc : (f.consumeUntilNextHdu p).2.data = f.rd.data := by
        unfold consumeUntilNextHdu
        split
        · exact seekRelative_data _ _
        · rfl
        · rfl
      split <;> rename_i heq <;> rw [heq] at hc <;> rw [record_rd]
      · rw [newXtension_data]; exact hc
      · exact hc
      · exact hc

theorem record_err {p : Profile} {n : Option (Res HDU)} {f f' : Fits} {e : Err}
    (hh : record p n f = (some (.err e), f')) : n = some (.err e) ∧ f' = { f with errored := true } := by
  unfold record at hh
  split at hh
  · split at hh
    · simp at hh
    · rename_i he; exact absurd he HDU.dataSize_ne_err
    · simp at hh
  · simp only [Prod.mk.injEq, Option.some.injEq, Res.err.injEq] at hh
    obtain ⟨rfl, rfl⟩ := hh
    exact ⟨rfl, rfl⟩
  · simp at hh
  · simp at hh

theorem record_none {p : Profile} {n : Option (Res HDU)} {f f' : Fits}
    (hh : record p n f = (none, f')) : n = none ∧ f' = f := by
  unfold record at hh
  split at hh
  · split at hh <;> simp at hh
  · simp at hh
  · simp at hh
  · simp at hh; exact ⟨rfl, hh.symm⟩

theorem record_fst_none {p : Profile} {n : Option (Res HDU)} {f : Fits}
    (hh : (record p n f).1 = none) : n = none :=
  (record_none (p := p) (n := n) (f := f) (f' := (record p n f).2) (by rw [← hh])).1

theorem record_fst_err {p : Profile} {n : Option (Res HDU)} {f : Fits} {e : Err}
    (hh : (record p n f).1 = some (.err e)) : n = some (.err e) :=
  (record_err (p := p) (n := n) (f := f) (f' := (record p n f).2) (by rw [← hh])).1

/-- An error marks the iterator. -/
theorem next_err {p : Profile} {f f' : Fits} {e : Err} (h : f.next p = (some (.err e), f')) :
    f'.errored = true := by
  unfold next at h
  split at h
  · simp at h
  · split at h
    · dsimp only at h
      obtain ⟨-, rfl⟩ := record_err h; rfl
    · split at h <;> (try dsimp only at h) <;> obtain ⟨-, rfl⟩ := record_err h <;> rfl

theorem next_errored {p : Profile} {f : Fits} (h : f.errored = true) : f.next p = (none, f) := by
  unfold next; rw [if_pos h]

/-- The first call. -/
theorem next_start {p : Profile} {rd : Reader} :
    (fromReader rd).next p = record p (some (HDU.newPrimary rd).1)
      { start := false, posStart := 0, numBytes := 0, errored := false, rd := (HDU.newPrimary rd).2.rd } := by
  unfold next fromReader
  simp

theorem xtensionOf_nread {p : Profile} {cards : List Card} {s : HState} :
    s.nread ≤ (xtensionOf p cards s).2.nread := by
  have key : ∀ {X : Type} {parse : ValueMap → Res X}, s.nread ≤ (Hdu.new parse cards s).2.nread := by
    intro X parse
    unfold Hdu.new
    split
    · split
      · dsimp only
        split
        · simp only; omega
        · exact Nat.le_refl _
        · exact Nat.le_refl _
      · exact Nat.le_refl _
    · exact Nat.le_refl _
    · exact Nat.le_refl _
  unfold xtensionOf
  split
  all_goals first | exact key | exact Nat.le_refl _

/-- When no byte of a header could be read, fewer than 80 bytes remain. -/
theorem extensionAt_none {p : Profile} {data : List UInt8} {T : Nat}
    (h : (extensionAt p data T).1 = .err (.io .unexpectedEof)) (h0 : (extensionAt p data T).2.nread = 0) :
    data.length < T + 80 := by
  unfold extensionAt HDU.newXtension at h h0
  split at h <;> rename_i hc
  · rw [hc] at h0
    obtain ⟨h1, -, h3, -⟩ := consumeCardsN_ok hc
    dsimp only at h0
    rename_i cards s
    have := xtensionOf_nread (p := p) (cards := cards) (s := s)
    omega
  · rw [hc] at h0
    obtain ⟨-, k, h3, h4, -⟩ := consumeCardsN_err hc
    dsimp only at h0 h3 h4
    have : k = 0 := by omega
    subst this
    omega
  · simp at h

/-- A call of the iterator when the reader has been left at the end of the file. -/
theorem next_at_eof {p : Profile} {f : Fits} (hs : f.start = false) (he : f.errored = false)
    (h3 : f.posStart + roundUp2880 f.numBytes < 2 ^ 63) (hl : f.rd.data.length < 2 ^ 63)
    (h4 : f.rd.data.length < f.posStart + roundUp2880 f.numBytes + 80)
    (h5 : f.rd.pos = max (f.posStart + roundUp2880 f.numBytes) f.rd.data.length) :
    f.next p = (none, f) ∨ (p = .checked ∧ f.posStart + f.numBytes < f.rd.pos ∧ (f.next p).1 = some .panic) := by
  have hge := roundUp2880_ge f.numBytes
  by_cases hin : f.rd.pos ≤ f.posStart + f.numBytes
  · left
    rw [next_eof hs he (by omega) hin h3 h4, ← h5]
  · cases p with
    | checked =>
      right
      refine ⟨rfl, by omega, ?_⟩
      unfold next
      rw [if_neg (by simp [he]), if_neg (by simp [hs])]
      unfold consumeUntilNextHdu skipBytes
      rw [usub_ok (by omega)]
      simp only [Res.bind_ok]
      unfold usub
      rw [if_neg (by omega)]
      rfl
    | wrapping =>
      left
      rw [next_of_skip hs he (consumeUntilNextHdu_wrapping (by omega) h3), extensionAt_eof h4, ← h5]
      rfl

end Fits

/-- States in which the iterator has returned `None`. -/
theorem Inv.next_none {p : Profile} {data : List UInt8} {hs : List HDU} {f f' : Fits}
    (hi : Inv p data hs f) (hfit : SizesFit p hs) (hl : data.length < 2 ^ 63)
    (hn : f.next p = (none, f')) :
    f'.errored = true ∨ ∃ hs' h, hs = hs' ++ [h] ∧ After p data h f' ∧
      data.length < nextHeader p h + 80 ∧ f'.rd.pos = max (nextHeader p h) data.length := by
  obtain ⟨T, hT⟩ := hi.placed
  rcases hi.state with he | ⟨rfl, rfl⟩ | ⟨hs', h0, rfl, ha⟩
  · rw [Fits.next_errored he] at hn
    simp only [Prod.mk.injEq, true_and] at hn
    subst hn
    exact .inl he
  · rw [Fits.next_start] at hn
    obtain ⟨h1, -⟩ := Fits.record_none hn
    simp at h1
  · refine .inr ⟨hs', h0, rfl, ?_⟩
    have hlast := hfit.last
    have hnh := nextHeader_of ha.size
    rw [hnh, ← ha.offset] at hlast
    rcases ha.pos with ⟨hp1, hp2⟩ | ⟨hp1, hp2⟩
    · rw [Fits.next_inside ha.start ha.errored hp1 hp2 hlast] at hn
      obtain ⟨h1, rfl⟩ := Fits.record_none hn
      unfold Fits.extensionItem at h1
      split at h1
      · rename_i heq
        split at h1
        · rename_i hz
          have hlen : f.rd.data.length < f.posStart + roundUp2880 f.numBytes + 80 :=
            Fits.extensionAt_none (by rw [← heq]) hz
          have hfin : data.length < nextHeader p h0 + 80 ∧
              (Fits.extensionAt p f.rd.data (f.posStart + roundUp2880 f.numBytes)).2.rd.pos
                = max (nextHeader p h0) data.length := by
            rw [Fits.extensionAt_eof hlen, hnh, ← ha.offset, ← hi.bytes]
            exact ⟨hlen, rfl⟩
          exact ⟨⟨ha.start, ha.errored, ha.size, ha.offset, .inr hfin⟩, hfin⟩
        · simp at h1
      · simp at h1
    · have hp2' := hp2
      have hp1' := hp1
      rw [hnh, ← ha.offset, ← hi.bytes] at hp2'
      rw [hnh, ← ha.offset, ← hi.bytes] at hp1'
      rcases Fits.next_at_eof ha.start ha.errored hlast (by rw [hi.bytes]; exact hl) hp1' hp2' with h | ⟨-, -, h⟩
      · rw [h] at hn
        simp only [Prod.mk.injEq, true_and] at hn
        subst hn
        exact ⟨ha, hp1, hp2⟩
      · rw [hn] at h; simp at h

/-- The invariant holds along every history. -/
theorem History.inv {p : Profile} {data : List UInt8} {hs : List HDU} {f : Fits}
    (h : History p data hs f) (hfit : SizesFit p hs) (hl : data.length < 2 ^ 63) : Inv p data hs f := by
  induction h with
  | start => exact ⟨rfl, ⟨0, .nil⟩, .inr (.inl ⟨rfl, rfl⟩)⟩
  | @hdu hs f h f' k hh hn ih =>
    have hi := ih hfit.left
    obtain ⟨T, hT⟩ := hi.placed
    have hdat : f'.rd.data = data := by
      have := Fits.next_data (p := p) (f := f)
      rw [hn] at this
      rw [this, hi.bytes]
    rcases hi.state with he | ⟨rfl, rfl⟩ | ⟨hs', h0, rfl, ha⟩
    · rw [Fits.next_errored he] at hn
      simp at hn
    · rw [Fits.next_start] at hn
      obtain ⟨h1, sz, hsz, rfl⟩ := Fits.record_ok hn
      simp only [Option.some.injEq] at h1
      cases hp : HDU.newPrimary ⟨data, 0⟩ with
      | mk r s =>
        rw [hp] at h1
        simp only at h1
        subst h1
        obtain ⟨g1, g2, g3, g4, g5⟩ := newPrimary_ok hp
        refine ⟨by rw [hp] at hdat; exact hdat, ⟨_, .snoc hT ?_⟩, .inr (.inr ⟨[], h, rfl, ?_⟩)⟩
        · have hT0 : T = 0 := by have := hT.unique; simpa using this
          subst hT0
          exact ⟨g1, g4, fun _ => ⟨g2, g3⟩, fun hc => absurd rfl hc, sz, hsz⟩
        · refine ⟨rfl, rfl, hsz, rfl, .inl ?_⟩
          simp only [readData]; omega
    · have hlast := hfit.left.last
      have hTT : T = nextHeader p h0 := by have := hT.unique; simpa using this
      have hnh := nextHeader_of ha.size
      rw [hnh, ← ha.offset] at hlast
      rcases ha.pos with ⟨hp1, hp2⟩ | ⟨hp1, hp2⟩
      · rw [Fits.next_inside ha.start ha.errored hp1 hp2 hlast, ha.offset, ← hnh, ← hTT] at hn
        obtain ⟨h1, sz, hsz, rfl⟩ := Fits.record_ok hn
        cases hp : Fits.extensionAt p f.rd.data T with
        | mk r s =>
          rw [hp] at h1
          unfold Fits.extensionItem at h1
          have hr : r = .ok h := by
            split at h1
            · split at h1 <;> simp_all
            · simpa using h1
          subst hr
          obtain ⟨g1, g2, g3, g4⟩ := newXtension_ok rfl hp
          rw [hi.bytes] at g1
          refine ⟨by rw [hp] at hdat; exact hdat, ⟨_, .snoc hT ?_⟩, .inr (.inr ⟨_, h, rfl, ?_⟩)⟩
          · exact ⟨g1, g3, fun hc => by simp at hc, fun _ => g2, sz, hsz⟩
          · refine ⟨ha.start, ha.errored, hsz, rfl, .inl ?_⟩
            simp only [readData]; omega
      · rw [hnh, ← ha.offset, ← hi.bytes] at hp2
        rw [hnh, ← ha.offset, ← hi.bytes] at hp1
        rcases Fits.next_at_eof ha.start ha.errored hlast (by rw [hi.bytes]; exact hl) hp1 hp2 with h | ⟨-, -, h⟩
        · rw [h] at hn; simp at hn
        · rw [hn] at h; simp at h
  | @none hs f f' hh hn ih =>
    have hi := ih hfit
    have hdat : f'.rd.data = data := by
      have := Fits.next_data (p := p) (f := f)
      rw [hn] at this
      rw [this, hi.bytes]
    refine ⟨hdat, hi.placed, ?_⟩
    rcases hi.next_none hfit hl hn with h | ⟨hs', h, rfl, ha, -⟩
    · exact .inl h
    · exact .inr (.inr ⟨hs', h, rfl, ha⟩)
  | @error hs f f' e hh hn ih =>
    have hi := ih hfit
    have hdat : f'.rd.data = data := by
      have := Fits.next_data (p := p) (f := f)
      rw [hn] at this
      rw [this, hi.bytes]
    exact ⟨hdat, hi.placed, .inl (Fits.next_err hn)⟩

/-- The call following the return of an HDU. -/
theorem History.next_after {p : Profile} {data : List UInt8} {hs : List HDU} {f f' : Fits} {h : HDU}
    (hist : History p data hs f) (hn : f.next p = (some (.ok h), f'))
    (hfit : SizesFit p (hs ++ [h])) (hl : data.length < 2 ^ 63) (k : Nat) :
    (readData k f').next p = Fits.record p
      (Fits.extensionItem (Fits.extensionAt p data (nextHeader p h)))
      { f' with rd := (Fits.extensionAt p data (nextHeader p h)).2.rd } := by
  have hi := (History.hdu k hist hn).inv hfit hl
  rcases hi.state with he | ⟨-, h0⟩ | ⟨hs', h0, heq, ha⟩
  · exfalso
    have : f'.errored = false := by
      obtain ⟨g1, g2⟩ : f.errored = false ∧ f'.errored = f.errored := by
        unfold Fits.next at hn
        by_cases hf : f.errored = true
        · rw [if_pos hf] at hn; simp at hn
        · refine ⟨by simpa using hf, ?_⟩
          rw [if_neg hf] at hn
          split at hn
          · dsimp only at hn
            obtain ⟨-, sz, -, rfl⟩ := Fits.record_ok hn; rfl
          · split at hn <;> (try dsimp only at hn) <;>
              obtain ⟨-, sz, -, rfl⟩ := Fits.record_ok hn <;> rfl
      rw [g2, g1]
    simp only [readData] at he
    rw [this] at he; simp at he
  · simp at h0
  · obtain ⟨rfl, rfl⟩ : hs = hs' ∧ h = h0 := by simpa using heq
    have hlast := hfit.last
    have hnh := nextHeader_of ha.size
    rw [hnh, ← ha.offset] at hlast
    rw [Fits.next_inside ha.start ha.errored (by simp only [readData]; omega)
      (by simp only [readData]; omega) hlast, hnh, ← ha.offset, ← hi.bytes]
    rfl

theorem Placed.get {p : Profile} {data : List UInt8} {hs : List HDU} {T : Nat}
    (hp : Placed p data hs T) (i : Nat) (h : HDU) (hi : hs[i]? = some h) :
    HduAt p data (i = 0) (headerStart p hs i) h := by
  induction hp with
  | nil => simp at hi
  | @snoc hs T x hp hx ih =>
    have hget : ∀ j < hs.length, headerStart p (hs ++ [x]) j = headerStart p hs j := by
      intro j hj
      cases j with
      | zero => rfl
      | succ j =>
        simp only [headerStart]
        rw [List.getElem?_append_left (by omega)]
    by_cases hlt : i < hs.length
    · rw [List.getElem?_append_left hlt] at hi
      rw [hget i hlt]
      exact ih hi
    · have hlen : i = hs.length := by
        have := (List.getElem?_eq_some_iff.1 hi).1
        simp at this; omega
      subst hlen
      have hxh : x = h := by simpa using hi
      subst hxh
      have hT : headerStart p (hs ++ [x]) hs.length = T := by
        cases hp with
        | nil => rfl
        | @snoc hs' T' y hp' hy =>
          simp only [List.length_append, List.length_singleton, headerStart]
          rw [List.getElem?_append_left (by simp)]
          simp
      rw [hT]
      refine ⟨hx.header, hx.offset, ?_, ?_, hx.size⟩
      · intro h; exact hx.primary (List.eq_nil_of_length_eq_zero h)
      · intro h; exact hx.kind (fun hc => h (by simp [hc]))

end Fitsrs

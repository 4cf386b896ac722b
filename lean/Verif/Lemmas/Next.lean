import Verif.Lemmas.Fits
import Verif.Spec.History
/-
Helper lemmas on one call of the HDU iterator.
-/

namespace Fitsrs
open Spec

theorem roundUp2880_ge (n : Nat) : n ≤ roundUp2880 n := by unfold roundUp2880; omega
theorem roundUp2880_lt (n : Nat) : roundUp2880 n < n + 2880 := by unfold roundUp2880; omega
theorem roundUp2880_mod (n : Nat) : roundUp2880 n % 2880 = 0 := by unfold roundUp2880; omega
theorem roundUp2880_of_mod {n : Nat} (h : n % 2880 = 0) : roundUp2880 n = n := by
  unfold roundUp2880; omega
theorem roundUp2880_of_not_mod {n : Nat} (h : n % 2880 ≠ 0) :
    roundUp2880 n = n + (2880 - n % 2880) := by
  unfold roundUp2880; omega
theorem roundUp2880_unique {n m : Nat} (h1 : n ≤ m) (h2 : m < n + 2880) (h3 : m % 2880 = 0) :
    m = roundUp2880 n := by
  unfold roundUp2880; omega

/-- Where the data unit of a returned HDU starts. -/
theorem Hdu.new_ok {X : Type} {parse : ValueMap → Res X} {cards : List Card} {s s' : HState}
    {h : Hdu X} (hh : Hdu.new parse cards s = (.ok h, s')) :
    Header.parse parse cards = .ok h.header ∧
    h.dataOffset = s.rd.pos + (roundUp2880 s.nread - s.nread) ∧
    s'.rd = { s.rd with pos := h.dataOffset } ∧
    s'.nread = roundUp2880 s.nread := by
  unfold Hdu.new at hh
  split at hh
  · rename_i hd hp
    split at hh
    · rename_i hm
      dsimp only at hh
      split at hh
      · rename_i b rd hr
        simp only [Prod.mk.injEq, Res.ok.injEq] at hh
        obtain ⟨rfl, rfl⟩ := hh
        obtain ⟨-, -, rfl⟩ := Reader.readExact_ok_iff.1 hr
        have := roundUp2880_of_not_mod hm
        refine ⟨hp, ?_, rfl, ?_⟩
        · simp only; omega
        · simp only; omega
      · simp at hh
      · simp at hh
    · rename_i hm
      simp only [Prod.mk.injEq, Res.ok.injEq] at hh
      obtain ⟨rfl, rfl⟩ := hh
      have := roundUp2880_of_mod (n := s.nread) (by omega)
      exact ⟨hp, by simp only; omega, rfl, by omega⟩
  · simp at hh
  · simp at hh

theorem Hdu.new_complete {X : Type} {parse : ValueMap → Res X} {cards : List Card} {s : HState}
    {hd : Header X} (hp : Header.parse parse cards = .ok hd)
    (hlen : s.rd.pos + (roundUp2880 s.nread - s.nread) ≤ s.rd.data.length) :
    Hdu.new parse cards s =
      (.ok { header := hd, dataOffset := s.rd.pos + (roundUp2880 s.nread - s.nread) },
       { rd := { s.rd with pos := s.rd.pos + (roundUp2880 s.nread - s.nread) }
         nread := roundUp2880 s.nread }) := by
  unfold Hdu.new
  rw [hp]
  simp only
  split
  · rename_i hm
    have := roundUp2880_of_not_mod hm
    rw [Reader.readExact_of_le (by omega)]
    simp only [Prod.mk.injEq, Res.ok.injEq, Hdu.mk.injEq, HState.mk.injEq, Reader.mk.injEq, true_and]
    omega
  · rename_i hm
    have := roundUp2880_of_mod (n := s.nread) (by omega)
    rw [this]
    simp

theorem Hdu.new_err_ne_eof {X : Type} {parse : ValueMap → Res X} {cards : List Card} {s s' : HState}
    (hp : ∀ m, parse m ≠ .err (.io .unexpectedEof)) :
    Hdu.new parse cards s ≠ (.err (.io .unexpectedEof), s') := by
  intro hh
  unfold Hdu.new at hh
  split at hh
  · split at hh
    · dsimp only at hh
      split at hh <;> simp at hh
    · simp at hh
  · rename_i e he
    simp only [Prod.mk.injEq, Res.err.injEq] at hh
    obtain ⟨rfl, -⟩ := hh
    unfold Header.parse at he
    rcases Res.bind_eq_err.1 he with he | ⟨m, hm, he⟩
    · unfold processCards at he
      have : ∀ (cs : List Card) m kw, processLoop m kw cs ≠ .err (.io .unexpectedEof) := by
        intro cs
        induction cs with
        | nil => intro m kw; simp [processLoop]
        | cons c cs ih =>
          intro m kw
          unfold processLoop
          repeat' split
          all_goals first
            | exact ih _ _
            | (intro h; cases h; done)
            | skip
          rename_i v _ _ _ e hv
          intro h
          cases h
          unfold Value.append at hv
          split at hv
          · rw [Res.map_eq_err] at hv
            unfold appendString at hv
            repeat' split at hv
            all_goals simp at hv
            all_goals (split at hv <;> simp at hv)
          · simp at hv
      exact this _ _ _ he
    · rcases Res.bind_eq_err.1 he with he | ⟨x, hx, he⟩
      · exact hp _ he
      · simp at he
  · simp at hh

namespace Fits

/-- Relative seeking by a wrapped distance. -/
theorem seekRelative_asI64 {r : Reader} {n T : Nat} (hpos : r.pos < 2 ^ 63) (hT : T < 2 ^ 63)
    (hn : n < 2 ^ 64) (h : r.pos + n = T ∨ r.pos + n = T + 2 ^ 64) :
    r.seekRelative (asI64 n) = (.ok (), { r with pos := T }) := by
  have h64 : (two64 : Int) = 2 ^ 64 := rfl
  have key : (r.pos : Int) + asI64 n = T := by
    unfold asI64
    rw [h64]
    rcases h with h | h
    · rw [if_pos (by omega)]; omega
    · rw [if_neg (by omega)]; omega
  unfold Reader.seekRelative
  simp only [key]
  rw [if_pos (by omega)]
  simp

theorem usub_wrap {a b : Nat} (h : a < b) : usub .wrapping a b = .ok (a + 2 ^ 64 - b) := by
  unfold usub
  rw [if_neg (Nat.not_le.2 h)]

theorem uadd_wrap {a b : Nat} (h : 2 ^ 64 ≤ a + b) (h2 : a + b < 2 ^ 65) :
    uadd .wrapping a b = .ok (a + b - 2 ^ 64) := by
  have h64 : two64 = 2 ^ 64 := rfl
  unfold uadd
  rw [if_neg (Nat.not_lt.2 h)]
  have : (a + b) % two64 = a + b - 2 ^ 64 := by rw [h64]; omega
  rw [← this]

/-- The skipped distance leads to the end of the data unit rounded up to 2880, when the reader is
inside the data unit. -/
theorem consumeUntilNextHdu_inside {p : Profile} {f : Fits}
    (h1 : f.posStart ≤ f.rd.pos) (h2 : f.rd.pos ≤ f.posStart + f.numBytes)
    (h3 : f.posStart + roundUp2880 f.numBytes < 2 ^ 63) :
    f.consumeUntilNextHdu p =
      (.ok (), { f.rd with pos := f.posStart + roundUp2880 f.numBytes }) := by
  have h64 : two64 = 2 ^ 64 := rfl
  have hge := roundUp2880_ge f.numBytes
  unfold consumeUntilNextHdu skipBytes
  rw [usub_ok h1]
  simp only [Res.bind_ok]
  rw [usub_ok (by omega)]
  simp only [Res.bind_ok]
  by_cases hm : f.numBytes % 2880 = 0
  · rw [if_pos hm]
    have := roundUp2880_of_mod hm
    exact seekRelative_asI64 (by omega) h3 (by omega) (by omega)
  · rw [if_neg hm]
    have := roundUp2880_of_not_mod hm
    rw [uadd_ok (by omega)]
    exact seekRelative_asI64 (by omega) h3 (by omega) (by omega)

/-- Without overflow checks the same holds wherever the reader is. -/
theorem consumeUntilNextHdu_wrapping {f : Fits} (hpos : f.rd.pos < 2 ^ 63)
    (h3 : f.posStart + roundUp2880 f.numBytes < 2 ^ 63) :
    f.consumeUntilNextHdu .wrapping =
      (.ok (), { f.rd with pos := f.posStart + roundUp2880 f.numBytes }) := by
  have h64 : two64 = 2 ^ 64 := rfl
  have hge := roundUp2880_ge f.numBytes
  unfold consumeUntilNextHdu skipBytes
  -- distance from the start of the data unit, possibly wrapped
  obtain ⟨d, hd, hdl, hd'⟩ : ∃ d, usub .wrapping f.rd.pos f.posStart = .ok d ∧ d < 2 ^ 64 ∧
      (d + f.posStart = f.rd.pos ∨ d + f.posStart = f.rd.pos + 2 ^ 64) := by
    by_cases h : f.posStart ≤ f.rd.pos
    · exact ⟨_, usub_ok h, by omega, by omega⟩
    · exact ⟨_, usub_wrap (by omega), by omega, by omega⟩
  rw [hd]
  simp only [Res.bind_ok]
  obtain ⟨x, hx, hxl, hx'⟩ : ∃ x, usub .wrapping f.numBytes d = .ok x ∧ x < 2 ^ 64 ∧
      (x + d = f.numBytes ∨ x + d = f.numBytes + 2 ^ 64) := by
    by_cases h : d ≤ f.numBytes
    · exact ⟨_, usub_ok h, by omega, by omega⟩
    · exact ⟨_, usub_wrap (by omega), by omega, by omega⟩
  rw [hx]
  simp only [Res.bind_ok]
  by_cases hm : f.numBytes % 2880 = 0
  · rw [if_pos hm]
    have := roundUp2880_of_mod hm
    exact seekRelative_asI64 hpos h3 hxl (by omega)
  · rw [if_neg hm]
    have := roundUp2880_of_not_mod hm
    have hy : 2880 - f.numBytes % 2880 ≤ 2880 := by omega
    generalize 2880 - f.numBytes % 2880 = y at *
    by_cases hxy : x + y < 2 ^ 64
    · rw [uadd_ok hxy]
      exact seekRelative_asI64 hpos h3 hxy (by omega)
    · rw [uadd_wrap (by omega) (by omega)]
      exact seekRelative_asI64 hpos h3 (by omega) (by omega)

/-- The outcome of reading an extension HDU at position `T` of the data. -/
def extensionAt (p : Profile) (data : List UInt8) (T : Nat) : Res HDU × HState :=
  HDU.newXtension p { rd := ⟨data, T⟩, nread := 0 }

/-- The item returned by the iterator after the outcome `r` of reading an extension. -/
def extensionItem (r : Res HDU × HState) : Option (Res HDU) :=
  match r.1 with
  | .err (.io .unexpectedEof) => if r.2.nread = 0 then none else some r.1
  | _ => some r.1

theorem next_of_skip {p : Profile} {f : Fits} {T : Nat} (hs : f.start = false) (he : f.errored = false)
    (hc : f.consumeUntilNextHdu p = (.ok (), { f.rd with pos := T })) :
    f.next p = record p (extensionItem (extensionAt p f.rd.data T))
      { f with rd := (extensionAt p f.rd.data T).2.rd } := by
  unfold next
  rw [if_neg (by simp [he]), if_neg (by simp [hs]), hc]
  simp only [extensionItem, extensionAt]
  cases f
  simp only at hs
  subst hs
  rfl

/-- A call of the iterator after an HDU has been returned and any part of its data has been read. -/
theorem next_inside {p : Profile} {f : Fits} (hs : f.start = false) (he : f.errored = false)
    (h1 : f.posStart ≤ f.rd.pos) (h2 : f.rd.pos ≤ f.posStart + f.numBytes)
    (h3 : f.posStart + roundUp2880 f.numBytes < 2 ^ 63) :
    f.next p = record p
      (extensionItem (extensionAt p f.rd.data (f.posStart + roundUp2880 f.numBytes)))
      { f with rd := (extensionAt p f.rd.data (f.posStart + roundUp2880 f.numBytes)).2.rd } :=
  next_of_skip hs he (consumeUntilNextHdu_inside h1 h2 h3)

/-- Reading an extension where fewer than 80 bytes remain. -/
theorem extensionAt_eof {p : Profile} {data : List UInt8} {T : Nat} (h : data.length < T + 80) :
    extensionAt p data T =
      (.err (.io .unexpectedEof), { rd := ⟨data, max T data.length⟩, nread := 0 }) := by
  unfold extensionAt HDU.newXtension consumeCards consumeCardsN
  rw [consumeNextCard_gt (by simpa using h)]

/-- The iterator ends when fewer than 80 bytes remain. -/
theorem next_eof {p : Profile} {f : Fits} (hs : f.start = false) (he : f.errored = false)
    (h1 : f.posStart ≤ f.rd.pos) (h2 : f.rd.pos ≤ f.posStart + f.numBytes)
    (h3 : f.posStart + roundUp2880 f.numBytes < 2 ^ 63)
    (h4 : f.rd.data.length < f.posStart + roundUp2880 f.numBytes + 80) :
    f.next p = (none, { f with rd := ⟨f.rd.data,
      max (f.posStart + roundUp2880 f.numBytes) f.rd.data.length⟩ }) := by
  rw [next_inside hs he h1 h2 h3, extensionAt_eof h4]
  rfl

end Fits

/-! ### Results of reading a primary or an extension HDU -/

theorem wrap_ok {X : Type} {c : Hdu X → HDU} {r : Res (Hdu X) × HState} {h : HDU} {s : HState} :
    wrap c r = (.ok h, s) ↔ ∃ x, r = (.ok x, s) ∧ c x = h := by
  unfold wrap
  obtain ⟨r, s'⟩ := r
  cases r <;> simp [Res.map]
  · constructor
    · rintro ⟨rfl, rfl⟩; exact ⟨_, ⟨rfl, rfl⟩, rfl⟩
    · rintro ⟨x, ⟨rfl, rfl⟩, rfl⟩; exact ⟨rfl, rfl⟩

theorem wrap_err {X : Type} {c : Hdu X → HDU} {r : Res (Hdu X) × HState} {e : Err} {s : HState} :
    wrap c r = (.err e, s) ↔ r = (.err e, s) := by
  unfold wrap
  obtain ⟨r, s'⟩ := r
  cases r <;> simp [Res.map]

theorem wrap_panic {X : Type} {c : Hdu X → HDU} {r : Res (Hdu X) × HState} {s : HState} :
    wrap c r = (.panic, s) ↔ r = (.panic, s) := by
  unfold wrap
  obtain ⟨r, s'⟩ := r
  cases r <;> simp [Res.map]

theorem xtensionOf_ok {p : Profile} {cards : List Card} {s s' : HState} {h : HDU}
    (hh : xtensionOf p cards s = (.ok h, s')) :
    KindOk cards h ∧ h.cards = cards ∧
    h.dataOffset = s.rd.pos + (roundUp2880 s.nread - s.nread) ∧
    s'.rd = { s.rd with pos := h.dataOffset } ∧ s'.nread = roundUp2880 s.nread := by
  unfold xtensionOf at hh
  have hcards : ∀ {X : Type} {parse : ValueMap → Res X} {hd : Header X} {cards : List Card},
      Header.parse parse cards = .ok hd → hd.cards = cards := by
    intro X parse hd cards hp
    unfold Header.parse at hp
    obtain ⟨m, -, hp⟩ := Res.bind_eq_ok.1 hp
    obtain ⟨x, -, hp⟩ := Res.bind_eq_ok.1 hp
    simp at hp; subst hp; rfl
  split at hh
  all_goals first
    | (obtain ⟨x, hx, rfl⟩ := wrap_ok.1 hh
       obtain ⟨h1, h2, h3, h4⟩ := Hdu.new_ok hx
       refine ⟨?_, hcards h1, h2, h3, h4⟩
       constructor)
    | (simp at hh)

theorem primaryOf_ok {cards : List Card} {s s' : HState} {h : HDU}
    (hh : primaryOf cards s = (.ok h, s')) :
    (∃ c cs, cards = .value "SIMPLE".toList (.logical true c) :: cs) ∧
    (∃ x, h = .primary x) ∧ h.cards = cards ∧
    h.dataOffset = s.rd.pos + (roundUp2880 s.nread - s.nread) ∧
    s'.rd = { s.rd with pos := h.dataOffset } ∧ s'.nread = roundUp2880 s.nread := by
  unfold primaryOf at hh
  have hcards : ∀ {X : Type} {parse : ValueMap → Res X} {hd : Header X} {cards : List Card},
      Header.parse parse cards = .ok hd → hd.cards = cards := by
    intro X parse hd cards hp
    unfold Header.parse at hp
    obtain ⟨m, -, hp⟩ := Res.bind_eq_ok.1 hp
    obtain ⟨x, -, hp⟩ := Res.bind_eq_ok.1 hp
    simp at hp; subst hp; rfl
  split at hh
  · split at hh
    · rename_i hn
      obtain ⟨x, hx, rfl⟩ := wrap_ok.1 hh
      obtain ⟨h1, h2, h3, h4⟩ := Hdu.new_ok hx
      exact ⟨⟨_, _, by rw [hn]⟩, ⟨_, rfl⟩, hcards h1, h2, h3, h4⟩
    · simp at hh
  · simp at hh
  · simp at hh

theorem newXtension_ok {p : Profile} {s s' : HState} {h : HDU} (hn : s.nread = 0)
    (hh : HDU.newXtension p s = (.ok h, s')) :
    HeaderAt s.rd.data s.rd.pos h.cards ∧ KindOk h.cards h ∧
    h.dataOffset = s.rd.pos + roundUp2880 (80 * h.cards.length) ∧
    s'.rd = { s.rd with pos := h.dataOffset } := by
  unfold HDU.newXtension at hh
  split at hh
  · rename_i cards s1 hc
    obtain ⟨h1, h2, h3, h4, h5, h6⟩ := consumeCardsN_ok hc
    obtain ⟨h7, h8, h9, h10, h11⟩ := xtensionOf_ok hh
    subst h8
    refine ⟨⟨h1, h4, h5, h6⟩, h7, ?_, ?_⟩
    · rw [h9, h2, h3, hn]
      have := roundUp2880_ge (80 * h.cards.length)
      simp only [Nat.zero_add]; omega
    · rw [h10, h2]
  · simp at hh
  · simp at hh

theorem newPrimary_ok {rd : Reader} {s' : HState} {h : HDU}
    (hh : HDU.newPrimary rd = (.ok h, s')) :
    HeaderAt rd.data rd.pos h.cards ∧
    (∃ c cs, h.cards = .value "SIMPLE".toList (.logical true c) :: cs) ∧ (∃ x, h = .primary x) ∧
    h.dataOffset = rd.pos + roundUp2880 (80 * h.cards.length) ∧
    s'.rd = { rd with pos := h.dataOffset } := by
  unfold HDU.newPrimary at hh
  split at hh
  · rename_i cards s1 hc
    obtain ⟨h1, h2, h3, h4, h5, h6⟩ := consumeCardsN_ok hc
    obtain ⟨h7, h7', h8, h9, h10, h11⟩ := primaryOf_ok hh
    subst h8
    refine ⟨⟨h1, h4, h5, h6⟩, h7, h7', ?_, ?_⟩
    · rw [h9, h2, h3]
      have := roundUp2880_ge (80 * h.cards.length)
      simp only [Nat.zero_add]; omega
    · rw [h10, h2]
  · simp at hh
  · simp at hh

namespace Fits

/-- Returning an HDU sets the extent of the current data unit. -/
theorem record_ok {p : Profile} {n : Option (Res HDU)} {f f' : Fits} {h : HDU}
    (hh : record p n f = (some (.ok h), f')) :
    n = some (.ok h) ∧ ∃ sz, h.dataSize p = .ok sz ∧
      f' = { f with numBytes := sz, posStart := h.dataOffset } := by
  unfold record at hh
  split at hh
  · split at hh
    · rename_i h' sz hsz
      simp only [Prod.mk.injEq, Option.some.injEq, Res.ok.injEq] at hh
      obtain ⟨rfl, rfl⟩ := hh
      exact ⟨rfl, sz, hsz, rfl⟩
    · simp at hh
    · simp at hh
  · simp at hh
  · simp at hh
  · simp at hh

end Fits

theorem HDU.dataSize_ne_err {p : Profile} {h : HDU} {e : Err} : h.dataSize p ≠ .err e := by
  have hu : ∀ (l : List Nat) (a : Nat), uprod p l a ≠ .err e := by
    intro l
    induction l with
    | nil => intro a; simp [uprod]
    | cons n l ih =>
      intro a hc
      unfold uprod at hc
      rcases Res.bind_eq_err.1 hc with hc | ⟨x, -, hc⟩
      · exact umul_not_err hc
      · exact ih _ hc
  have hi : ∀ (x : Image), x.numBytes p ≠ .err e := by
    intro x hc
    unfold Image.numBytes at hc
    rcases Res.bind_eq_err.1 hc with hc | ⟨x, -, hc⟩
    · unfold Image.numPixels at hc
      split at hc
      · simp at hc
      · exact hu _ _ hc
    · exact umul_not_err hc
  cases h with
  | primary h => exact hi _
  | image h => exact hi _
  | binTable h =>
    intro hc
    simp only [HDU.dataSize, BinTable.numBytes] at hc
    rcases Res.bind_eq_err.1 hc with hc | ⟨x, -, hc⟩
    · exact umul_not_err hc
    · exact uadd_not_err hc
  | asciiTable h => exact umul_not_err

end Fitsrs

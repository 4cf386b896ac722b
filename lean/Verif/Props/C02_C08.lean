import Verif.Lemmas.NoEof
import Verif.Spec.Samples
/-
C02-C08: histories of the HDU iterator.
-/

namespace Fitsrs
open Spec

/-! ### Histories of the sample files, used in the examples -/

/-- Iterator over `data` after the primary HDU of the sample file has been returned. -/
def sampleAfterPrimary (data : List UInt8) : Fits :=
  { start := false, posStart := 2880, numBytes := 10, errored := false, rd := ⟨data, 2880⟩ }

/-- The sample file cut after its first HDU. -/
def sampleOne : List UInt8 := samplePrimarySegment.bytes

/-- The first HDU followed by one record of a header without `END`. -/
def sampleCut : List UInt8 := sampleOne ++ rec80 "XTENSION= 'IMAGE   '"

set_option maxRecDepth 20000 in
theorem sample_first (p : Profile) (data : List UInt8)
    (h : data = sampleFile ∨ data = sampleOne ∨ data = sampleCut) :
    (Fits.fromReader ⟨data, 0⟩).next p = (some (.ok samplePrimaryHdu), sampleAfterPrimary data) := by
  rcases h with rfl | rfl | rfl <;> cases p <;> decide +kernel

set_option maxRecDepth 20000 in
theorem sample_fit (p : Profile) :
    SizesFit p [samplePrimaryHdu] ∧ SizesFit p [samplePrimaryHdu, sampleImageHdu] := by
  cases p <;> unfold SizesFit <;> decide +kernel

theorem sample_nextHeader (p : Profile) : nextHeader p samplePrimaryHdu = 5760 := by
  cases p <;> decide +kernel

theorem sample_read (p : Profile) (data : List UInt8) (k : Nat) :
    (readData k (sampleAfterPrimary data)).next p = (sampleAfterPrimary data).next p := by
  rw [Fits.next_inside rfl rfl (by simp [readData, sampleAfterPrimary])
    (by simp only [readData, sampleAfterPrimary]; omega) (by simp [readData, sampleAfterPrimary, roundUp2880]),
    Fits.next_inside rfl rfl (by simp [sampleAfterPrimary])
    (by simp only [sampleAfterPrimary]; omega) (by simp [sampleAfterPrimary, roundUp2880])]
  rfl

set_option maxRecDepth 20000 in
theorem sample_second (p : Profile) (k : Nat) :
    (readData k (sampleAfterPrimary sampleFile)).next p = (some (.ok sampleImageHdu),
      { start := false, posStart := 8640, numBytes := 12, errored := false, rd := ⟨sampleFile, 8640⟩ }) := by
  rw [sample_read]
  cases p <;> decide +kernel

/-- Both HDUs of the sample file have been returned. -/
theorem sample_history (p : Profile) (k k' : Nat) : ∃ f,
    History p sampleFile [samplePrimaryHdu, sampleImageHdu] f :=
  ⟨_, .hdu k' (.hdu (hs := []) k .start (sample_first p _ (.inl rfl))) (sample_second p k)⟩

/-! ### C02 -/

/-- **C02.** After an HDU has been returned, the next call of the iterator does not depend on how many
bytes of the data unit have been read in between: result and state are the same. -/
theorem C02_independent {p : Profile} {data : List UInt8} {hs : List HDU} {f f' : Fits} {h : HDU}
    (hist : History p data hs f) (hn : f.next p = (some (.ok h), f'))
    (hfit : SizesFit p (hs ++ [h])) (hl : data.length < 2 ^ 63) (k k' : Nat) :
    (readData k f').next p = (readData k' f').next p := by
  rw [hist.next_after hn hfit hl k, hist.next_after hn hfit hl k']

example (p : Profile) (k k' : Nat) :
    (readData k (sampleAfterPrimary sampleFile)).next p = (readData k' (sampleAfterPrimary sampleFile)).next p :=
  C02_independent .start (sample_first p _ (.inl rfl)) (sample_fit p).1 (by decide +kernel) k k'

/-- **C02**, panics: such a call panics only if reading the header found at the end of the data unit
panics (see C09, C26) or the size it announces overflows 64 bits. -/
theorem C02_no_panic {p : Profile} {data : List UInt8} {hs : List HDU} {f f' : Fits} {h : HDU}
    (hist : History p data hs f) (hn : f.next p = (some (.ok h), f'))
    (hfit : SizesFit p (hs ++ [h])) (hl : data.length < 2 ^ 63) (k : Nat)
    (hp : ((readData k f').next p).1 = some .panic) :
    (HDU.newXtension p { rd := ⟨data, nextHeader p h⟩, nread := 0 }).1 = .panic ∨
    ∃ h', (HDU.newXtension p { rd := ⟨data, nextHeader p h⟩, nread := 0 }).1 = .ok h' ∧
      h'.dataSize p = .panic := by
  rw [hist.next_after hn hfit hl k] at hp
  change (Fits.extensionAt p data (nextHeader p h)).1 = _ ∨
    ∃ h', (Fits.extensionAt p data (nextHeader p h)).1 = _ ∧ _
  generalize Fits.extensionAt p data (nextHeader p h) = r at hp
  unfold Fits.extensionItem at hp
  split at hp
  · rename_i heq
    split at hp <;> simp [Fits.record, heq] at hp
  · unfold Fits.record at hp
    split at hp
    · rename_i h' heq
      simp only [Option.some.injEq] at heq
      split at hp
      · simp at hp
      · simp at hp
      · rename_i hsz; exact .inr ⟨h', heq, hsz⟩
    · simp at hp
    · rename_i heq
      simp only [Option.some.injEq] at heq
      exact .inl heq
    · simp at hp

/-- The call after the first HDU of the sample file does not panic. -/
example (p : Profile) (k : Nat) : ((readData k (sampleAfterPrimary sampleFile)).next p).1 ≠ some .panic := by
  rw [sample_second]; simp

/-! ### C03 -/

/-- **C03.** After an error, every later call returns `None` and changes nothing. -/
theorem C03_error_is_final {p : Profile} {f f' : Fits} {e : Err} (h : f.next p = (some (.err e), f')) :
    f'.next p = (none, f') ∧ ∀ n, calls p n f' = List.replicate n none := by
  have h1 := Fits.next_errored (p := p) (Fits.next_err h)
  refine ⟨h1, fun n => ?_⟩
  induction n with
  | zero => rfl
  | succ n ih => simp only [calls, h1, List.replicate_succ, ih]

set_option maxRecDepth 20000 in
/-- The iterator fails on the file cut within its second header. -/
example (p : Profile) : ∃ f', (sampleAfterPrimary sampleCut).next p = (some (.err (.io .unexpectedEof)), f') := by
  cases p <;>
  exact ⟨{ start := false, posStart := 2880, numBytes := 10, errored := true, rd := ⟨sampleCut, 5840⟩ },
    by decide +kernel⟩

/-! ### C04 -/

/-- **C04.** After an HDU, the iterator returns `None` exactly when fewer than 80 bytes remain from the
start of the next HDU. -/
theorem C04_none_iff {p : Profile} {data : List UInt8} {hs : List HDU} {f f' : Fits} {h : HDU}
    (hist : History p data hs f) (hn : f.next p = (some (.ok h), f'))
    (hfit : SizesFit p (hs ++ [h])) (hl : data.length < 2 ^ 63) (k : Nat) :
    ((readData k f').next p).1 = none ↔ data.length < nextHeader p h + 80 := by
  rw [hist.next_after hn hfit hl k]
  constructor
  · intro hh
    have h1 := Fits.record_fst_none hh
    unfold Fits.extensionItem at h1
    split at h1
    · rename_i heq
      split at h1
      · rename_i h0; exact Fits.extensionAt_none heq h0
      · simp at h1
    · simp at h1
  · intro hh
    rw [Fits.extensionAt_eof hh]
    rfl

/-- **C04.** After an HDU, if at least one more record is there, the iterator reports an unexpected end of
file exactly when none of the complete records that remain is an `END` record.  (`hpan`: none of these
records makes the card parser panic, see C09.) -/
theorem C04_eof_iff {p : Profile} {data : List UInt8} {hs : List HDU} {f f' : Fits} {h : HDU}
    (hist : History p data hs f) (hn : f.next p = (some (.ok h), f'))
    (hfit : SizesFit p (hs ++ [h])) (hl : data.length < 2 ^ 63) (k : Nat)
    (hpan : ∀ i, nextHeader p h + 80 * (i + 1) ≤ data.length →
      recordCard (recordAt data (nextHeader p h) i) ≠ .panic) :
    ((readData k f').next p).1 = some (.err (.io .unexpectedEof)) ↔
      nextHeader p h + 80 ≤ data.length ∧
      ∀ i, nextHeader p h + 80 * (i + 1) ≤ data.length →
        ¬ IsEndRecord (recordAt data (nextHeader p h) i) := by
  rw [hist.next_after hn hfit hl k]
  generalize nextHeader p h = T at *
  constructor
  · intro hh
    have h1 := Fits.record_fst_err hh
    unfold Fits.extensionItem at h1
    split at h1
    · rename_i heq
      split at h1
      · simp at h1
      · rename_i h0
        unfold Fits.extensionAt HDU.newXtension at heq h0
        split at heq
        · exact absurd heq xtensionOf_ne_eof
        · rename_i hc
          rw [hc] at h0
          obtain ⟨-, j, h2, h3, h4, -, h5⟩ := consumeCardsN_err hc
          simp only at h0 h2 h3 h4 h5
          have hj : 0 < j := by omega
          have := h4 hj
          exact ⟨by omega, fun i hi => h5 i (by omega)⟩
        · simp at heq
    · rename_i hne
      simp only [Option.some.injEq] at h1
      exact absurd h1 hne
  · rintro ⟨h1, h2⟩
    have hitem : Fits.extensionItem (Fits.extensionAt p data T) = some (.err (.io .unexpectedEof)) := by
      unfold Fits.extensionItem Fits.extensionAt HDU.newXtension
      cases hc : consumeCards { rd := ⟨data, T⟩, nread := 0 } with
      | mk r s =>
        cases r with
        | ok cards =>
          exfalso
          obtain ⟨g1, -, -, g4, g5, g6⟩ := consumeCardsN_ok hc
          simp only at g4 g5
          have hlast := (g6 (cards.length - 1) (by omega)).2 (by omega)
          have hrec := g5 (cards.length - 1) (by omega)
          rw [hlast, recordCard_end_iff] at hrec
          exact h2 _ (by omega) hrec
        | err e =>
          obtain ⟨rfl, j, h3, h4, -⟩ := consumeCardsN_err hc
          simp only at h3 h4
          simp only
          rw [if_neg (by omega)]
        | panic =>
          exfalso
          obtain ⟨j, h3, h4, -⟩ := consumeCards_panic hc
          exact hpan j h3 h4
    rw [hitem]
    rfl

set_option maxRecDepth 20000 in
example (p : Profile) (k : Nat) : ((readData k (sampleAfterPrimary sampleOne)).next p).1 = none :=
  (C04_none_iff .start (sample_first p _ (.inr (.inl rfl))) (sample_fit p).1 (by decide +kernel) k).2
    (by rw [sample_nextHeader]; decide +kernel)

set_option maxRecDepth 20000 in
example (p : Profile) (k : Nat) :
    ((readData k (sampleAfterPrimary sampleCut)).next p).1 = some (.err (.io .unexpectedEof)) := by
  have hlen : sampleCut.length = 5840 := by decide +kernel
  have h0 : recordCard (recordAt sampleCut 5760 0) = .ok (.xtension .image none) := by decide +kernel
  refine (C04_eof_iff .start (sample_first p _ (.inr (.inr rfl))) (sample_fit p).1 (by decide +kernel) k ?_).2
    ⟨?_, ?_⟩
  all_goals rw [sample_nextHeader, hlen]
  · intro i hi
    have : i = 0 := by omega
    subst this
    rw [h0]; simp
  · decide
  · intro i hi
    have : i = 0 := by omega
    subst this
    rw [← recordCard_end_iff, h0]; simp

/-! ### C05 -/

/-- Full statement of C05 for an overflow profile: after `None`, every further call returns `None`. -/
def C05_statement (p : Profile) : Prop :=
  ∀ (data : List UInt8) (hs : List HDU) (f f' : Fits), History p data hs f → SizesFit p hs →
    data.length < 2 ^ 63 → f.next p = (none, f') → ∀ n, calls p n f' = List.replicate n none

/-- **C05**, without overflow checks. -/
theorem C05_release : C05_statement .wrapping := by
  intro data hs f f' hist hfit hl hn n
  have hnext : f'.next .wrapping = (none, f') := by
    have hi := hist.inv hfit hl
    have hi' := (History.none hist hn).inv hfit hl
    rcases hi.next_none hfit hl hn with he | ⟨hs', h, rfl, ha, h1, h2⟩
    · exact Fits.next_errored he
    · have hlast := hfit.last
      rw [nextHeader_of ha.size, ← ha.offset] at hlast
      rw [nextHeader_of ha.size, ← ha.offset, ← hi'.bytes] at h1 h2
      rcases Fits.next_at_eof (p := .wrapping) ha.start ha.errored hlast (by rw [hi'.bytes]; exact hl) h1 h2
        with h | ⟨h, -⟩
      · exact h
      · simp at h
  induction n with
  | zero => rfl
  | succ n ih => simp only [calls, hnext, List.replicate_succ, ih]



/-- **C05**, with overflow checks, what holds: once `None` has been returned after the HDU `h`, the next
call returns `None` if the file ends at the end of the data unit and this is a multiple of 2880, and panics
otherwise. -/
theorem C05_debug_partial {data : List UInt8} {hs : List HDU} {f f' : Fits} {h : HDU}
    (hist : History .checked data (hs ++ [h]) f) (hfit : SizesFit .checked (hs ++ [h]))
    (hl : data.length < 2 ^ 63) (hn : f.next .checked = (none, f')) (he : f'.errored = false)
    {n : Nat} (hsz : h.dataSize .checked = .ok n) :
    (f'.next .checked).1 =
      if max (nextHeader .checked h) data.length ≤ h.dataOffset + n then none else some .panic := by
  have hi := hist.inv hfit hl
  have hi' := (History.none hist hn).inv hfit hl
  rcases hi.next_none hfit hl hn with he' | ⟨hs', h', heq, ha, h1, h2⟩
  · rw [he'] at he; simp at he
  · obtain ⟨rfl, rfl⟩ : hs = hs' ∧ h = h' := by simpa using heq
    have hlast := hfit.last
    have hn' : f'.numBytes = n := by
      have := ha.size; rw [hsz] at this; simpa using this.symm
    rw [← h2]
    rw [nextHeader_of ha.size, ← ha.offset] at hlast
    rw [nextHeader_of ha.size, ← ha.offset, ← hi'.bytes] at h1 h2
    have hge := roundUp2880_ge f'.numBytes
    by_cases hle : f'.rd.pos ≤ h.dataOffset + n
    · rw [if_pos hle]
      rw [Fits.next_eof ha.start ha.errored (by omega) (by rw [ha.offset, hn']; exact hle) hlast h1]
    · rw [if_neg hle]
      rcases Fits.next_at_eof (p := .checked) ha.start ha.errored hlast (by rw [hi'.bytes]; exact hl) h1 h2
        with h | ⟨-, -, h⟩
      · exfalso
        -- the call would not have panicked
        unfold Fits.next at h
        rw [if_neg (by simp [ha.errored]), if_neg (by simp [ha.start])] at h
        unfold Fits.consumeUntilNextHdu Fits.skipBytes at h
        rw [usub_ok (by omega)] at h
        simp only [Res.bind_ok] at h
        unfold usub at h
        rw [if_neg (by rw [← ha.offset, ← hn'] at hle; omega)] at h
        simp [Fits.record] at h
      · exact h

set_option maxRecDepth 20000 in
/-- **C05 is false with overflow checks**: on a file made of one HDU with ten bytes of data, filled to a
multiple of 2880 bytes, the call after `None` panics (subtraction overflow). -/
theorem C05_debug_fails : ¬ C05_statement .checked := by
  intro h
  have hist : History .checked sampleOne [samplePrimaryHdu] (readData 0 (sampleAfterPrimary sampleOne)) :=
    .hdu (hs := []) 0 .start (sample_first .checked _ (.inr (.inl rfl)))
  have hn : (readData 0 (sampleAfterPrimary sampleOne)).next .checked =
      (none, { start := false, posStart := 2880, numBytes := 10, errored := false
               rd := ⟨sampleOne, 5760⟩ }) := by decide +kernel
  have := h _ _ _ _ hist (sample_fit .checked).1 (by decide +kernel) hn 1
  revert this
  decide +kernel

set_option maxRecDepth 20000 in
/-- The hypotheses of `C05_debug_partial` on the same file: here the second call panics. -/
example : ∃ f f', History .checked sampleOne ([] ++ [samplePrimaryHdu]) f ∧
    f.next .checked = (none, f') ∧ f'.errored = false ∧ (f'.next .checked).1 = some .panic := by
  refine ⟨readData 0 (sampleAfterPrimary sampleOne),
    { start := false, posStart := 2880, numBytes := 10, errored := false, rd := ⟨sampleOne, 5760⟩ },
    .hdu (hs := []) 0 .start (sample_first .checked _ (.inr (.inl rfl))), by decide +kernel, rfl,
    by decide +kernel⟩

/-! ### C06 -/

/-- **C06.** In every history, the `i`-th HDU returned has its header at the end of the previous data unit
rounded up to 2880 bytes, its data unit starts at the end of the header rounded up to 2880 bytes, and that
offset is a multiple of 2880. -/
theorem C06_alignment {p : Profile} {data : List UInt8} {hs : List HDU} {f : Fits}
    (hist : History p data hs f) (hfit : SizesFit p hs) (hl : data.length < 2 ^ 63)
    (i : Nat) (h : HDU) (hi : hs[i]? = some h) :
    h.dataOffset = headerStart p hs i + roundUp2880 (80 * h.cards.length) ∧
    headerStart p hs i % 2880 = 0 ∧ h.dataOffset % 2880 = 0 := by
  obtain ⟨T, hp⟩ := (hist.inv hfit hl).placed
  have hoff : ∀ i h, hs[i]? = some h → h.dataOffset = headerStart p hs i + roundUp2880 (80 * h.cards.length) :=
    fun i h hi => (hp.get i h hi).offset
  have hmod : ∀ i, headerStart p hs i % 2880 = 0 := by
    intro i
    induction i with
    | zero => rfl
    | succ i ih =>
      simp only [headerStart]
      split
      · rename_i h hi
        obtain ⟨n, hn⟩ := (hp.get i h hi).size
        rw [nextHeader_of hn, hoff i h hi]
        have h1 := roundUp2880_mod n
        have h2 := roundUp2880_mod (80 * h.cards.length)
        omega
      · rfl
  refine ⟨hoff i h hi, hmod i, ?_⟩
  have h2 := roundUp2880_mod (80 * h.cards.length)
  have := hmod i
  rw [hoff i h hi]
  omega

example (p : Profile) : samplePrimaryHdu.dataOffset % 2880 = 0 ∧ sampleImageHdu.dataOffset % 2880 = 0 := by
  obtain ⟨f, hist⟩ := sample_history p 3 5
  exact ⟨(C06_alignment hist (sample_fit p).2 (by decide +kernel) 0 _ rfl).2.2,
    (C06_alignment hist (sample_fit p).2 (by decide +kernel) 1 _ rfl).2.2⟩

/-- **C06.** The data units of the HDUs returned are disjoint and in increasing order: each one ends before
the next one starts. -/
theorem C06_disjoint {p : Profile} {data : List UInt8} {hs : List HDU} {f : Fits}
    (hist : History p data hs f) (hfit : SizesFit p hs) (hl : data.length < 2 ^ 63)
    (i j : Nat) (hij : i < j) (h h' : HDU) (hi : hs[i]? = some h) (hj : hs[j]? = some h') :
    ∃ n, h.dataSize p = .ok n ∧ h.dataOffset + n < h'.dataOffset := by
  obtain ⟨T, hp⟩ := (hist.inv hfit hl).placed
  obtain ⟨n, hn⟩ := (hp.get i h hi).size
  refine ⟨n, hn, ?_⟩
  have hstep : ∀ d h', hs[i + 1 + d]? = some h' →
      h.dataOffset + n < h'.dataOffset := by
    intro d
    induction d with
    | zero =>
      intro h' hj
      have hx := hp.get (i + 1) h' hj
      rw [hx.offset]
      simp only [headerStart, hi, nextHeader_of hn]
      have := roundUp2880_ge n
      have := roundUp2880_ge (80 * h'.cards.length)
      have := hx.header.nonempty
      omega
    | succ d ih =>
      intro h' hj
      have hlt := (List.getElem?_eq_some_iff.1 hj).1
      have hprev : hs[i + 1 + d]? = some hs[i + 1 + d] := List.getElem?_eq_getElem (by omega)
      have h1 := ih _ hprev
      obtain ⟨m, hm⟩ := (hp.get _ _ hprev).size
      have hx := hp.get (i + 1 + d + 1) h' hj
      rw [hx.offset]
      simp only [headerStart, hprev, nextHeader_of hm]
      omega
  obtain ⟨d, rfl⟩ : ∃ d, j = i + 1 + d := ⟨j - i - 1, by omega⟩
  exact hstep d h' hj

example (p : Profile) : ∃ n, samplePrimaryHdu.dataSize p = .ok n ∧
    samplePrimaryHdu.dataOffset + n < sampleImageHdu.dataOffset := by
  obtain ⟨f, hist⟩ := sample_history p 3 5
  exact C06_disjoint hist (sample_fit p).2 (by decide +kernel) 0 1 (by decide) _ _ rfl rfl

/-! ### C08 -/

/-- **C08.** The cards of the `i`-th HDU returned correspond one to one, in order, to the 80-byte records
that follow each other from the start of its header to the first `END` record; a record that cannot be
parsed is kept as an undefined card holding its text. -/
theorem C08_every_record_kept {p : Profile} {data : List UInt8} {hs : List HDU} {f : Fits}
    (hist : History p data hs f) (hfit : SizesFit p hs) (hl : data.length < 2 ^ 63)
    (i : Nat) (h : HDU) (hi : hs[i]? = some h) :
    headerStart p hs i + 80 * h.cards.length ≤ data.length ∧
    (∀ j (hj : j < h.cards.length),
      Card.tryFrom (recordAt data (headerStart p hs i) j) = .ok h.cards[j] ∨
      (∃ e, Card.tryFrom (recordAt data (headerStart p hs i) j) = .err e) ∧
        h.cards[j] = .undefined (utf8Lossy (recordAt data (headerStart p hs i) j))) ∧
    ∀ j < h.cards.length, IsEndRecord (recordAt data (headerStart p hs i) j) ↔ j + 1 = h.cards.length := by
  obtain ⟨T, hp⟩ := (hist.inv hfit hl).placed
  have hx := (hp.get i h hi).header
  refine ⟨hx.inFile, fun j hj => ?_, fun j hj => ?_⟩
  · have hc := hx.card j hj
    unfold recordCard at hc
    split at hc
    · rename_i c hcard
      simp only [Res.ok.injEq] at hc
      exact .inl (by rw [hcard, hc])
    · rename_i e hcard
      simp only [Res.ok.injEq] at hc
      exact .inr ⟨⟨e, hcard⟩, hc.symm⟩
    · simp at hc
  · rw [← recordCard_end_iff, hx.card j hj]
    simp only [Res.ok.injEq]
    exact hx.endLast j hj

example (p : Profile) (j : Nat) (hj : j < sampleImageHdu.cards.length) :
    IsEndRecord (recordAt sampleFile 5760 j) ↔ j = 7 := by
  obtain ⟨f, hist⟩ := sample_history p 3 5
  have := (C08_every_record_kept hist (sample_fit p).2 (by decide +kernel) 1 _ rfl).2.2 j hj
  have hstart : headerStart p [samplePrimaryHdu, sampleImageHdu] 1 = 5760 := by
    simp [headerStart, sample_nextHeader]
  rw [hstart] at this
  rw [this]
  have : sampleImageHdu.cards.length = 8 := rfl
  omega

end Fitsrs

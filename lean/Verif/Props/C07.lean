import Verif.Lemmas.First
import Verif.Props.C02_C08
/-
C07: what is accepted as a primary header and as an extension header.
-/

namespace Fitsrs
open Spec

/-- The names of the extensions, by kind. -/
def Spec.extensionNames : HDU → List Str
  | .primary _ => []
  | .image _ => ["IMAGE".toList, "IUEIMAGE".toList]
  | .asciiTable _ => ["TABLE".toList]
  | .binTable _ => ["BINTABLE".toList]

/-! ### Records -/

/-- A record read as `SIMPLE` with logical value true. -/
theorem simple_bytes {r : List UInt8} {c : Option Str}
    (h : recordCard r = .ok (.value "SIMPLE".toList (.logical true c))) : SimpleTrue r := by
  have h : Card.tryFrom r = .ok (.value "SIMPLE".toList (.logical true c)) := by
    unfold recordCard at h
    split at h
    · simp only [Res.ok.injEq] at h; rw [← h]; assumption
    · simp at h
    · simp at h
  unfold Card.tryFrom at h
  split at h
  · simp at h
  · rename_i kw hkw
    have hv : kw = "SIMPLE".toList ∧ (r.drop 8).take 2 = [0x3D, 0x20] ∧
        parseValue (r.drop 10) = .ok (.logical true c) := by
      by_cases e0 : kw = []
      · rw [if_pos e0] at h
        unfold parseEmptyKeywordCard at h
        dsimp only at h
        split at h <;> simp at h
      rw [if_neg e0] at h
      by_cases e1 : kw = "COMMENT".toList
      · rw [if_pos e1] at h; simp at h
      rw [if_neg e1] at h
      by_cases e2 : kw = "HISTORY".toList
      · rw [if_pos e2] at h; simp at h
      rw [if_neg e2] at h
      by_cases e3 : kw = "CONTINUE".toList
      · rw [if_pos e3] at h
        unfold parseContinuation at h
        obtain ⟨x, -, h⟩ := Res.bind_eq_ok.1 h
        obtain ⟨y, -, h⟩ := Res.map_eq_ok.1 h
        simp at h
      rw [if_neg e3] at h
      by_cases e4 : kw = "XTENSION".toList
      · rw [if_pos e4] at h
        unfold parseExtension at h
        obtain ⟨⟨v, c⟩, -, h⟩ := Res.bind_eq_ok.1 h
        dsimp only at h
        split at h
        · split at h
          · simp at h
          · obtain ⟨y, -, h⟩ := Res.map_eq_ok.1 h
            simp at h
        · simp at h
      rw [if_neg e4] at h
      by_cases e5 : kw = "HIERARCH".toList
      · rw [if_pos e5] at h
        unfold parseHierarch at h
        dsimp only at h
        split at h
        · split at h
          · simp at h
          · obtain ⟨y, -, h⟩ := Res.map_eq_ok.1 h
            simp at h
        · simp at h
      rw [if_neg e5] at h
      by_cases e6 : kw = "END".toList
      · rw [if_pos e6] at h; simp at h
      rw [if_neg e6] at h
      split at h
      · obtain ⟨y, hy, h⟩ := Res.map_eq_ok.1 h
        injection h with h1 h2
        subst h1 h2
        exact ⟨rfl, by assumption, hy⟩
      · simp at h
    obtain ⟨rfl, h2, h3⟩ := hv
    refine ⟨(keywordIs_iff (by unfold Printable; decide) (by decide)).2 hkw, h2, ?_⟩
    unfold parseValue at h3
    obtain ⟨⟨v, c'⟩, hs, h3⟩ := Res.bind_eq_ok.1 h3
    dsimp only at h3
    cases v with
    | nil => simp at h3
    | cons ch v =>
      dsimp only at h3
      by_cases hq : ch = '\''
      · rw [if_pos hq] at h3
        obtain ⟨y, -, h3⟩ := Res.map_eq_ok.1 h3
        simp at h3
      rw [if_neg hq] at h3
      have hT : ch = 'T' := by
        apply Classical.byContradiction
        intro hT
        rw [if_neg hT] at h3
        by_cases hF : ch = 'F'
        · rw [if_pos hF] at h3; simp at h3
        rw [if_neg hF] at h3
        by_cases hP : ch = '('
        · rw [if_pos hP] at h3; simp at h3
        rw [if_neg hP] at h3
        split at h3
        · simp only [Res.ok.injEq] at h3
          unfold parseNumber at h3
          split at h3
          · simp at h3
          · split at h3
            · simp at h3
            · split at h3
              · simp at h3
              · dsimp only at h3
                split at h3 <;> simp at h3
        · simp at h3
      subst hT
      obtain ⟨-, -, bs, w, r', hb, -, -⟩ := split_first hs
      obtain ⟨a, b, e, ha, -⟩ := trimBy_spec (p := isAsciiWs) (r.drop 10)
      have : trimBy isAsciiWs (r.drop 10) = 0x54 :: bs := hb
      rw [this] at e
      exact ⟨a, bs ++ b, by rw [e]; simp, fun x hx => (isAsciiWs_iff x).1 (ha x hx)⟩

theorem fromStr_names {s : Str} {x : XtensionType} (h : XtensionType.fromStr s = .ok x) :
    (x = .image ∧ (s = "IMAGE".toList ∨ s = "IUEIMAGE".toList)) ∨
    (x = .asciiTable ∧ s = "TABLE".toList) ∨ (x = .binTable ∧ s = "BINTABLE".toList) := by
  unfold XtensionType.fromStr at h
  split at h
  · rename_i h1
    exact .inl ⟨(Res.ok.inj h).symm, h1⟩
  · split at h
    · rename_i h1; exact .inr (.inl ⟨(Res.ok.inj h).symm, h1⟩)
    · split at h
      · rename_i h1; exact .inr (.inr ⟨(Res.ok.inj h).symm, h1⟩)
      · simp at h

/-- A record read as an extension card. -/
theorem xtension_bytes {r : List UInt8} {x : XtensionType} {c : Option Str}
    (h : recordCard r = .ok (.xtension x c)) : ∃ name, XtensionIs r name ∧ XtensionType.fromStr name = .ok x := by
  have h : Card.tryFrom r = .ok (.xtension x c) := by
    unfold recordCard at h
    split at h
    · simp only [Res.ok.injEq] at h; rw [← h]; assumption
    · simp at h
    · simp at h
  unfold Card.tryFrom at h
  split at h
  · simp at h
  · rename_i kw hkw
    have hv : kw = "XTENSION".toList ∧ parseExtension r = .ok (.xtension x c) := by
      by_cases e4 : kw = "XTENSION".toList
      · subst e4
        exact ⟨rfl, h⟩
      exfalso
      by_cases e0 : kw = []
      · rw [if_pos e0] at h
        unfold parseEmptyKeywordCard at h
        dsimp only at h
        split at h <;> simp at h
      rw [if_neg e0] at h
      by_cases e1 : kw = "COMMENT".toList
      · rw [if_pos e1] at h; simp at h
      rw [if_neg e1] at h
      by_cases e2 : kw = "HISTORY".toList
      · rw [if_pos e2] at h; simp at h
      rw [if_neg e2] at h
      by_cases e3 : kw = "CONTINUE".toList
      · rw [if_pos e3] at h
        unfold parseContinuation at h
        obtain ⟨x, -, h⟩ := Res.bind_eq_ok.1 h
        obtain ⟨y, -, h⟩ := Res.map_eq_ok.1 h
        simp at h
      rw [if_neg e3, if_neg e4] at h
      by_cases e5 : kw = "HIERARCH".toList
      · rw [if_pos e5] at h
        unfold parseHierarch at h
        dsimp only at h
        split at h
        · split at h
          · simp at h
          · obtain ⟨y, -, h⟩ := Res.map_eq_ok.1 h
            simp at h
        · simp at h
      rw [if_neg e5] at h
      by_cases e6 : kw = "END".toList
      · rw [if_pos e6] at h; simp at h
      rw [if_neg e6] at h
      split at h
      · obtain ⟨y, hy, h⟩ := Res.map_eq_ok.1 h
        simp at h
      · simp at h
    obtain ⟨rfl, h2⟩ := hv
    unfold parseExtension at h2
    obtain ⟨⟨v, c'⟩, hs, h2⟩ := Res.bind_eq_ok.1 h2
    dsimp only at h2
    by_cases hq : v.head? = some '\'' ∧ v.getLast? = some '\''
    · rw [if_pos hq] at h2
      by_cases h1 : v.length = 1
      · rw [if_pos h1] at h2; simp at h2
      rw [if_neg h1] at h2
      obtain ⟨y, hy, h2⟩ := Res.map_eq_ok.1 h2
      simp only [Card.xtension.injEq] at h2
      obtain ⟨rfl, -⟩ := h2
      obtain ⟨m, rfl⟩ : ∃ m, v = '\'' :: (m ++ ['\'']) := by
        obtain ⟨h3, h4⟩ := hq
        match v, h1 with
        | ch :: t, h1 =>
          simp only [List.head?_cons, Option.some.injEq] at h3
          subst h3
          have ht : t ≠ [] := by rintro rfl; simp at h1
          refine ⟨t.dropLast, ?_⟩
          have h5 : t.getLast? = some '\'' := by
            rw [List.getLast?_cons] at h4
            cases hl : t.getLast? with
            | none => simp at hl; exact absurd hl ht
            | some z => rw [hl] at h4; simpa using h4
          rw [List.getLast?_eq_some_getLast ht] at h5
          have := List.dropLast_concat_getLast ht
          rw [Option.some.inj h5] at this
          rw [this]
        | [], _ => simp at h3
      have hdl : (('\'' :: (m ++ ['\''])).drop 1).dropLast = m := by simp
      rw [hdl] at hy
      refine ⟨_, ⟨(keywordIs_iff (by unfold Printable; decide) (by decide)).2 hkw, ?_⟩, hy⟩
      -- the name is ASCII and has no quote
      have hname : ∀ d ∈ trimAsciiStr m, d ≠ '\'' ∧ d.toNat < 0x80 := by
        have : ∀ n ∈ ["IMAGE".toList, "IUEIMAGE".toList, "TABLE".toList, "BINTABLE".toList],
            ∀ d ∈ n, d ≠ '\'' ∧ d.toNat < 0x80 := by decide
        rcases fromStr_names hy with ⟨-, h | h⟩ | ⟨-, h⟩ | ⟨-, h⟩
        all_goals rw [h]; exact this _ (by simp)
      obtain ⟨w1, w2, em, hw1, hw2⟩ := trimBy_spec (p := isAsciiWsChar) m
      have em : m = w1 ++ trimAsciiStr m ++ w2 := em
      have hwc : ∀ d, isAsciiWsChar d = true → d ≠ '\'' ∧ d.toNat < 0x80 ∧ isBlank (UInt8.ofNat d.toNat) := by
        intro d hd
        simp only [isAsciiWsChar, Bool.or_eq_true, beq_iff_eq] at hd
        unfold isBlank
        rcases hd with (((rfl | rfl) | rfl) | rfl) | rfl <;> decide
      have hm : ∀ d ∈ m, d ≠ '\'' ∧ d.toNat < 0x80 := by
        intro d hd
        rw [em] at hd
        rcases List.mem_append.1 hd with hd | hd
        · rcases List.mem_append.1 hd with hd | hd
          · exact ⟨(hwc d (hw1 d hd)).1, (hwc d (hw1 d hd)).2.1⟩
          · exact hname d hd
        · exact ⟨(hwc d (hw2 d hd)).1, (hwc d (hw2 d hd)).2.1⟩
      obtain ⟨-, -, bs, w, r', hb, hw, hl⟩ := split_first hs
      -- the characters pushed after the first quote start with the name and a quote
      have hw' : ∃ t, w = m ++ '\'' :: t := by
        obtain ⟨b', h3, -⟩ := trimEndBy_spec (p := isWs) ('\'' :: w)
        have h4 : trimStr ('\'' :: w) = trimEndBy isWs ('\'' :: w) := by
          unfold trimStr trimBy
          rw [dropWhile_of_head (by intro x hx; simp at hx; rw [← hx]; decide)]
        rw [← h4, hw] at h3
        simp only [List.cons_append, List.cons.injEq, true_and, List.append_assoc] at h3
        exact ⟨b', h3⟩
      obtain ⟨t, rfl⟩ := hw'
      rw [splitLoop_quote] at hl
      obtain ⟨⟨w', r''⟩, hl, e⟩ := Res.map_eq_ok.1 hl
      simp only [Prod.mk.injEq, List.cons.injEq, true_and] at e
      obtain ⟨rfl, -⟩ := e
      obtain ⟨s', hs'⟩ := splitLoop_inside hl hm
      have hs'' : utf8Lossy bs = (m ++ ['\'']) ++ s' := by rw [hs']; simp
      obtain ⟨bs', hbs, -⟩ := utf8Lossy_prefix hs'' (by
        intro d hd
        rcases List.mem_append.1 hd with hd | hd
        · exact (hm d hd).2
        · simp at hd; subst hd; decide)
      obtain ⟨a, b, e, ha, hbb⟩ := trimBy_spec (p := isAsciiWs) (r.drop 10)
      have htr : trimBy isAsciiWs (r.drop 10) = 0x27 :: bs := hb
      rw [htr, hbs] at e
      refine ⟨a, toBytes w1, toBytes w2, bs' ++ b, ?_, fun x hx => (isAsciiWs_iff x).1 (ha x hx), ?_, ?_⟩
      · rw [e]
        conv => lhs; rw [em]
        simp only [toBytes_append, List.append_assoc, List.cons_append]
        rfl
      · intro x hx
        obtain ⟨d, hd, rfl⟩ := List.mem_map.1 hx
        exact (hwc d (hw1 d hd)).2.2
      · intro x hx
        obtain ⟨d, hd, rfl⟩ := List.mem_map.1 hx
        exact (hwc d (hw2 d hd)).2.2
    · rw [if_neg hq] at h2; simp at h2

/-! ### C07 -/

/-- **C07, first header.** The first HDU returned, in every history, is a primary HDU whose first record is
`SIMPLE` with a value starting with `T`. -/
theorem C07_primary_accepted {p : Profile} {data : List UInt8} {hs : List HDU} {f : Fits}
    (hist : History p data hs f) (hfit : SizesFit p hs) (hl : data.length < 2 ^ 63)
    (h : HDU) (hi : hs[0]? = some h) :
    (∃ x, h = .primary x) ∧ SimpleTrue (recordAt data 0 0) := by
  obtain ⟨T, hp⟩ := (hist.inv hfit hl).placed
  have hx := hp.get 0 h hi
  obtain ⟨⟨c, cs, hc⟩, hk⟩ := hx.primary rfl
  refine ⟨hk, simple_bytes (c := c) ?_⟩
  have h0 : recordCard (recordAt data 0 0) = _ := hx.header.card 0 hx.header.nonempty
  rw [h0]
  simp [hc]

example : SimpleTrue (recordAt sampleFile 0 0) := by
  obtain ⟨f, hist⟩ := sample_history .checked 3 5
  exact (C07_primary_accepted hist (sample_fit _).2 (by decide +kernel) _ rfl).2

/-- **C07, other headers.** Every later HDU returned is an extension whose first record is `XTENSION` with one
of the names of its kind. -/
theorem C07_extension_accepted {p : Profile} {data : List UInt8} {hs : List HDU} {f : Fits}
    (hist : History p data hs f) (hfit : SizesFit p hs) (hl : data.length < 2 ^ 63)
    (i : Nat) (h : HDU) (hi : hs[i + 1]? = some h) :
    ∃ name ∈ extensionNames h, XtensionIs (recordAt data (headerStart p hs (i + 1)) 0) name := by
  obtain ⟨T, hp⟩ := (hist.inv hfit hl).placed
  have hx := hp.get (i + 1) h hi
  have hk := hx.kind (by simp)
  have h0 := hx.header.card 0 hx.header.nonempty
  have key : ∀ x c cs, h.cards = .xtension x c :: cs →
      ∃ name, XtensionIs (recordAt data (headerStart p hs (i + 1)) 0) name ∧
        XtensionType.fromStr name = .ok x := by
    intro x c cs hc
    apply xtension_bytes (c := c)
    rw [h0]; simp [hc]
  generalize hcs : h.cards = cs at hk
  cases hk with
  | @image c cs hh =>
    obtain ⟨name, h1, h2⟩ := key _ _ _ hcs
    rcases fromStr_names h2 with ⟨-, h⟩ | ⟨h, -⟩ | ⟨h, -⟩
    · exact ⟨name, by simpa [extensionNames] using h, h1⟩
    · simp at h
    · simp at h
  | @binTable c cs hh =>
    obtain ⟨name, h1, h2⟩ := key _ _ _ hcs
    rcases fromStr_names h2 with ⟨h, -⟩ | ⟨h, -⟩ | ⟨-, h⟩
    · simp at h
    · simp at h
    · exact ⟨name, by simpa [extensionNames] using h, h1⟩
  | @asciiTable c cs hh =>
    obtain ⟨name, h1, h2⟩ := key _ _ _ hcs
    rcases fromStr_names h2 with ⟨h, -⟩ | ⟨-, h⟩ | ⟨h, -⟩
    · simp at h
    · exact ⟨name, by simpa [extensionNames] using h, h1⟩
    · simp at h

example : ∃ name ∈ ["IMAGE".toList, "IUEIMAGE".toList], XtensionIs (recordAt sampleFile 5760 0) name := by
  obtain ⟨f, hist⟩ := sample_history .checked 3 5
  have h := C07_extension_accepted hist (sample_fit _).2 (by decide +kernel) 0 sampleImageHdu rfl
  have e : headerStart .checked [samplePrimaryHdu, sampleImageHdu] (0 + 1) = 5760 := by
    simp [headerStart, sample_nextHeader]
  rw [e] at h
  exact h

/-- **C07, rejection of the first header.** If the records up to the first `END` can be read and the first one
is not `SIMPLE` with a value starting with `T`, the first call returns an error. -/
theorem C07_primary_rejected (p : Profile) (data : List UInt8) (cards : List Card)
    (hh : HeaderAt data 0 cards) (hn : ¬ SimpleTrue (recordAt data 0 0)) :
    ∃ e f', (Fits.fromReader ⟨data, 0⟩).next p = (some (.err e), f') := by
  rw [Fits.next_start]
  suffices H : ∃ e s, HDU.newPrimary ⟨data, 0⟩ = (.err e, s) by
    obtain ⟨e, s, h⟩ := H
    rw [h]
    exact ⟨e, _, rfl⟩
  have hc : consumeCards { rd := ⟨data, 0⟩, nread := 0 } = _ :=
    consumeCards_complete (k := cards.length - 1) (cards := cards) (s := { rd := ⟨data, 0⟩, nread := 0 })
    (by have := hh.nonempty; have := hh.inFile; dsimp only; rw [show cards.length - 1 + 1 = cards.length by omega]; exact this)
    (by have := hh.nonempty; omega) hh.card hh.endLast
  unfold HDU.newPrimary
  rw [hc]
  dsimp only
  unfold primaryOf
  split
  · rename_i _ name c cs
    split
    · rename_i hname
      exfalso
      apply hn
      apply simple_bytes (c := c)
      rw [hh.card 0 hh.nonempty, ← hname]
      rfl
    · exact ⟨_, _, rfl⟩
  · exact ⟨_, _, rfl⟩
  · exact absurd hh.nonempty (by simp)

/-- A header that starts with another keyword. -/
def sampleNotFits : List UInt8 := rec80 "SIMPLER =                    T" ++ rec80 "END"

example (p : Profile) : ∃ e f', (Fits.fromReader ⟨sampleNotFits, 0⟩).next p = (some (.err e), f') := by
  refine C07_primary_rejected p _ [.value "SIMPLER".toList (.logical true none), .end_]
    ⟨by decide, by decide +kernel, ?_, ?_⟩ ?_
  · intro i hi
    match i, hi with
    | 0, _ => exact (by decide +kernel : recordCard (recordAt sampleNotFits 0 0) = .ok (.value "SIMPLER".toList (.logical true none)))
    | 1, _ => exact (by decide +kernel : recordCard (recordAt sampleNotFits 0 1) = .ok .end_)
  · intro i hi
    match i, hi with
    | 0, _ => simp
    | 1, _ => simp
  · rintro ⟨h, -⟩
    rw [keywordIs_iff (by unfold Printable; decide) (by decide)] at h
    exact absurd h (by decide +kernel)

/-- **C07, rejection of another header.** After an HDU has been returned, if the records of the next header can
be read and the first one is not `XTENSION` with one of the four names, the next call returns an error. -/
theorem C07_extension_rejected {p : Profile} {data : List UInt8} {hs : List HDU} {f f' : Fits} {h : HDU}
    (hist : History p data hs f) (hn : f.next p = (some (.ok h), f'))
    (hfit : SizesFit p (hs ++ [h])) (hl : data.length < 2 ^ 63) (k : Nat) (cards : List Card)
    (hh : HeaderAt data (nextHeader p h) cards)
    (hx : ∀ name ∈ ["IMAGE".toList, "IUEIMAGE".toList, "TABLE".toList, "BINTABLE".toList],
      ¬ XtensionIs (recordAt data (nextHeader p h) 0) name) :
    ∃ e f'', (readData k f').next p = (some (.err e), f'') := by
  rw [hist.next_after hn hfit hl k]
  suffices H : ∃ e s, Fits.extensionAt p data (nextHeader p h) = (.err e, s) ∧ 0 < s.nread by
    obtain ⟨e, s, h, h0⟩ := H
    rw [h]
    refine ⟨e, { f' with rd := s.rd, errored := true }, ?_⟩
    unfold Fits.extensionItem
    dsimp only
    split
    · rename_i he
      rw [if_neg (by omega)]
      rfl
    · rfl
  have hc : consumeCards { rd := ⟨data, nextHeader p h⟩, nread := 0 } = _ :=
    consumeCards_complete (k := cards.length - 1) (cards := cards)
      (s := { rd := ⟨data, nextHeader p h⟩, nread := 0 })
    (by have := hh.nonempty; have := hh.inFile; dsimp only; rw [show cards.length - 1 + 1 = cards.length by omega]; exact this)
    (by have := hh.nonempty; omega) hh.card hh.endLast
  have hno : ∀ x c cs, cards ≠ .xtension x c :: cs := by
    rintro x c cs rfl
    have h0 := hh.card 0 hh.nonempty
    obtain ⟨name, h1, h2⟩ := xtension_bytes (x := x) (c := c) (by rw [h0]; rfl)
    refine hx name ?_ h1
    rcases fromStr_names h2 with ⟨-, h | h⟩ | ⟨-, h⟩ | ⟨-, h⟩ <;> simp [h]
  unfold Fits.extensionAt HDU.newXtension
  rw [hc]
  dsimp only
  unfold xtensionOf
  split
  · exact absurd rfl (hno _ _ _)
  · exact absurd rfl (hno _ _ _)
  · exact absurd rfl (hno _ _ _)
  · exact ⟨_, _, rfl, by dsimp only; omega⟩
  · exact absurd hh.nonempty (by simp)

/-- The header of the extension replaced by one without `XTENSION`. -/
def sampleNoXtension : List UInt8 := samplePrimarySegment.bytes ++ (rec80 "BITPIX  =  8" ++ rec80 "END")

set_option maxRecDepth 20000 in
example (p : Profile) (k : Nat) : ∃ e f'',
    (readData k (sampleAfterPrimary sampleNoXtension)).next p = (some (.err e), f'') := by
  have h0 := sample_nextHeader p
  refine C07_extension_rejected (data := sampleNoXtension) .start (f' := sampleAfterPrimary sampleNoXtension)
    (h := samplePrimaryHdu) (by cases p <;> decide +kernel)
    (by simp [SizesFit, h0]) (by decide +kernel) k [.value "BITPIX".toList (.integer 8 none), .end_] ?_ ?_
  · rw [h0]
    refine ⟨by decide, by decide +kernel, ?_, ?_⟩
    · intro i hi
      match i, hi with
      | 0, _ => exact (by decide +kernel : recordCard (recordAt sampleNoXtension 5760 0) = .ok (.value "BITPIX".toList (.integer 8 none)))
      | 1, _ => exact (by decide +kernel : recordCard (recordAt sampleNoXtension 5760 1) = .ok .end_)
    · intro i hi
      match i, hi with
      | 0, _ => simp
      | 1, _ => simp
  · rintro name - ⟨h, -⟩
    rw [h0, keywordIs_iff (by unfold Printable; decide) (by decide)] at h
    exact absurd h (by decide +kernel)

/-- **C07, records.** What the well-formed first records of headers are read as; a name that is not one of the
four makes the record unreadable. -/
theorem C07_records (lead pad inner : Nat) (comment : Option Str) (hc : ∀ t, comment = some t → Printable t) :
    (∀ name, Printable name → ' ' ∉ name →
      Card.tryFrom (xtensionRecord name inner lead pad comment) =
        (XtensionType.fromStr name).map fun x => .xtension x (commentOf comment)) ∧
    XtensionType.fromStr "IMAGE".toList = .ok .image ∧ XtensionType.fromStr "IUEIMAGE".toList = .ok .image ∧
    XtensionType.fromStr "TABLE".toList = .ok .asciiTable ∧
    XtensionType.fromStr "BINTABLE".toList = .ok .binTable ∧
    ∀ name ∉ ["IMAGE".toList, "IUEIMAGE".toList, "TABLE".toList, "BINTABLE".toList],
      ∃ e, XtensionType.fromStr name = .err e := by
  refine ⟨?_, by decide, by decide, by decide, by decide, ?_⟩
  · intro name hn hb
    have hp : Printable (name ++ blank inner) := hn.append (printable_blank _)
    have e : xtensionRecord name inner lead pad comment =
        toBytes (keywordField "XTENSION".toList) ++
          ([0x3D, 0x20] ++ toBytes (field lead (quoted (name ++ blank inner)) pad comment)) := by
      unfold xtensionRecord
      rw [toBytes_append]; rfl
    have ht : Card.tryFrom (xtensionRecord name inner lead pad comment) =
        parseExtension (xtensionRecord name inner lead pad comment) := by
      unfold Card.tryFrom
      conv => lhs; rw [e, keyword_read (by unfold Printable; decide) (by decide) (by decide), ← e]
      rfl
    have hd : (xtensionRecord name inner lead pad comment).drop 10 =
        toBytes (field lead (quoted (name ++ blank inner)) pad comment) := by
      unfold xtensionRecord
      rw [toBytes_append]; rfl
    have hl : ('\'' :: (name ++ blank inner ++ ['\''])).getLast? = some '\'' := by
      rw [← List.cons_append, List.getLast?_concat]
    have hdl : (('\'' :: (name ++ blank inner ++ ['\''])).drop 1).dropLast = name ++ blank inner := by
      simp only [List.drop_succ_cons, List.drop_zero, List.dropLast_concat]
    have htr : trimAsciiStr (name ++ blank inner) = name := by
      have h1 : trimAsciiStr (name ++ blank inner) = strip (name ++ blank inner) :=
        trimBy_congr fun c hc => isAsciiWsChar_printable (hp c hc)
      rw [h1]
      apply strip_append_blank
      · intro h; exact hb (List.mem_of_mem_head? h)
      · intro h; exact hb (List.mem_of_getLast? h)
    rw [ht]
    unfold parseExtension
    rw [hd, split_quoted hp hc]
    show (if _ ∧ _ then if _ then _ else _ else _ : Res Card) = _
    rw [if_pos ⟨rfl, hl⟩, if_neg (by simp), hdl, htr]
  · intro name hn
    refine ⟨.notSupportedXtensionType, ?_⟩
    simp only [List.mem_cons, List.not_mem_nil, or_false, not_or] at hn
    unfold XtensionType.fromStr
    obtain ⟨h1, h2, h3, h4⟩ := hn
    rw [if_neg (not_or.2 ⟨h1, h2⟩), if_neg h3, if_neg h4]

example : Card.tryFrom (xtensionRecord "BINTABLE".toList 0 0 11 (some " table".toList)) =
    .ok (.xtension .binTable (some " table".toList)) := by
  rw [(C07_records 0 11 0 (some " table".toList) (by rintro t ⟨rfl⟩; unfold Printable; decide)).1 _
    (by unfold Printable; decide) (by decide)]
  rfl
example : ∃ e, Card.tryFrom (xtensionRecord "FOREIGN".toList 1 0 0 none) = .err e := by
  have h := C07_records 0 0 1 none (by simp)
  rw [h.1 _ (by unfold Printable; decide) (by decide)]
  obtain ⟨e, he⟩ := h.2.2.2.2.2 "FOREIGN".toList (by decide)
  exact ⟨e, by rw [he]; rfl⟩

end Fitsrs

import Verif.Props.C47_C51
import Verif.Lemmas.Writer
/-
C51, exactly: the stream accepts a file if the iterator accepts it once the first keyword is replaced by `SIMPLE`.
-/

namespace Fitsrs
open Spec Fut

/-- The file with its first eight bytes replaced by the keyword `SIMPLE`. -/
def Spec.asSimple (data : List UInt8) : List UInt8 := [0x53, 0x49, 0x4D, 0x50, 0x4C, 0x45, 0x20, 0x20] ++ data.drop 8

/-- The first record of a file holds a true logical value, under any keyword. -/
def Spec.FirstTrue (data : List UInt8) : Prop :=
  ∃ name c, recordCard (recordAt data 0 0) = .ok (.value name (.logical true c))

/-! ### The first record -/

theorem tryFrom_value {buf : List UInt8} {name : Str} {v : Value} (h : Card.tryFrom buf = .ok (.value name v)) :
    (buf.drop 8).take 2 = [0x3D, 0x20] ∧ parseValue (buf.drop 10) = .ok v := by
  unfold Card.tryFrom at h
  split at h
  · cases h
  · split at h
    · unfold parseEmptyKeywordCard at h
      dsimp only at h
      split at h <;> cases h
    · split at h
      · cases h
      · split at h
        · cases h
        · split at h
          · obtain ⟨⟨a, b⟩, -, h2⟩ := Res.bind_eq_ok.1 h
            dsimp only at h2
            obtain ⟨s, -, h3⟩ := Res.map_eq_ok.1 h2
            cases h3
          · split at h
            · obtain ⟨⟨a, b⟩, -, h2⟩ := Res.bind_eq_ok.1 h
              dsimp only at h2
              split at h2
              · split at h2
                · cases h2
                · obtain ⟨s, -, h3⟩ := Res.map_eq_ok.1 h2
                  cases h3
              · cases h2
            · split at h
              · unfold parseHierarch at h
                dsimp only at h
                split at h
                · split at h
                  · cases h
                  · obtain ⟨s, -, h3⟩ := Res.map_eq_ok.1 h
                    cases h3
                · cases h
              · split at h
                · cases h
                · split at h
                  · rename_i he
                    obtain ⟨s, h2, h3⟩ := Res.map_eq_ok.1 h
                    cases h3
                    exact ⟨he, h2⟩
                  · cases h

theorem tryFrom_simple {buf : List UInt8} {v : Value} (h1 : (buf.drop 8).take 2 = [0x3D, 0x20])
    (h2 : parseValue (buf.drop 10) = .ok v) : Card.tryFrom (asSimple buf) = .ok (.value "SIMPLE".toList v) := by
  have e1 : utf8Strict (trimAscii ((asSimple buf).take 8)) = some "SIMPLE".toList := by
    have : (asSimple buf).take 8 = [0x53, 0x49, 0x4D, 0x50, 0x4C, 0x45, 0x20, 0x20] := rfl
    rw [this]
    decide +kernel
  have e2 : (asSimple buf).drop 8 = buf.drop 8 := rfl
  have e3 : (asSimple buf).drop 10 = buf.drop 10 := by
    rw [show (10 : Nat) = 8 + 2 from rfl, ← List.drop_drop, e2, List.drop_drop]
  unfold Card.tryFrom
  rw [e1]
  dsimp only
  rw [if_neg (by decide), if_neg (by decide), if_neg (by decide), if_neg (by decide), if_neg (by decide), if_neg (by decide),
    if_neg (by decide), e2, if_pos h1, e3, h2]
  rfl

theorem recordCard_simple {buf : List UInt8} {name : Str} {b : Bool} {c : Option Str}
    (h : recordCard buf = .ok (.value name (.logical b c))) :
    recordCard (asSimple buf) = .ok (.value "SIMPLE".toList (.logical b c)) := by
  unfold recordCard at h
  split at h
  · rename_i c' hc
    cases h
    obtain ⟨h1, h2⟩ := tryFrom_value hc
    exact recordCard_of (tryFrom_simple h1 h2)
  · cases h
  · cases h

theorem asSimple_length {data : List UInt8} (h : 8 ≤ data.length) : (asSimple data).length = data.length := by
  unfold asSimple
  rw [List.length_append, List.length_drop]
  show 8 + _ = _
  omega

theorem asSimple_drop {data : List UInt8} {n : Nat} (h : 8 ≤ n) : (asSimple data).drop n = data.drop n := by
  obtain ⟨k, rfl⟩ : ∃ k, n = 8 + k := ⟨n - 8, by omega⟩
  rw [← List.drop_drop, ← List.drop_drop]
  rfl

theorem asSimple_first (data : List UInt8) : recordAt (asSimple data) 0 0 = asSimple (recordAt data 0 0) := by
  unfold recordAt
  rw [Nat.mul_zero, Nat.add_zero, List.drop_zero, List.drop_zero]
  unfold asSimple
  rw [List.take_append, List.take_of_length_le (by decide), List.drop_take]
  rfl

theorem asSimple_record {data : List UInt8} {i : Nat} (h : 0 < i) : recordAt (asSimple data) 0 i = recordAt data 0 i := by
  unfold recordAt
  rw [asSimple_drop (by omega)]

/-- Two files that differ in the keyword of their first record only. -/
structure Renamed (data data' : List UInt8) (name' : Str) (c : Option Str) : Prop where
  length : data'.length = data.length
  first : recordCard (recordAt data' 0 0) = .ok (.value name' (.logical true c))
  rest : ∀ i, 0 < i → recordAt data' 0 i = recordAt data 0 i

theorem consumeCards_renamed {data data' : List UInt8} {name name' : Str} {c : Option Str} {cs : List Card} {s : HState}
    (hd : Renamed data data' name' c)
    (h : consumeCards { rd := ⟨data, 0⟩, nread := 0 } = (.ok (.value name (.logical true c) :: cs), s)) :
    consumeCards { rd := ⟨data', 0⟩, nread := 0 } = (.ok (.value name' (.logical true c) :: cs),
      { s with rd := ⟨data', s.rd.pos⟩ }) := by
  obtain ⟨h0, h1, h2, h3, h4, h5⟩ := consumeCardsN_ok h
  dsimp only [List.length_cons] at h0 h1 h2 h3 h4 h5
  have hl := hd.length
  have := consumeCardsN_complete (fuel := data'.length + 1) (k := cs.length)
    (s := { rd := ⟨data', 0⟩, nread := 0 }) (cards := .value name' (.logical true c) :: cs)
    (by omega) (by dsimp only; omega) rfl (by
      intro i hi
      cases i with
      | zero => exact hd.first
      | succ i =>
        dsimp only
        rw [hd.rest _ (Nat.succ_pos _)]
        exact h4 (i + 1) hi) (by
      intro i hi
      cases i with
      | zero =>
        have := h5 0 (by omega)
        constructor
        · intro e; cases e
        · intro e
          have e' := this.2 e
          cases e'
      | succ i => exact h5 (i + 1) hi)
  unfold consumeCards
  refine this.trans ?_
  dsimp only
  rw [h1]
  dsimp only
  obtain ⟨rd, nr⟩ := s
  dsimp only at h2 ⊢
  rw [h2]

/-! ### The keywords -/

/-- No value, or a logical one. -/
def Dull (o : Option Value) : Prop := o = none ∨ ∃ b c, o = some (.logical b c)

/-- The maps agree on values that are not logical. -/
def Alike (m m' : ValueMap) : Prop := ∀ k, m.get k = m'.get k ∨ Dull (m.get k) ∧ Dull (m'.get k)

theorem get_insert (m : ValueMap) (k : Str) (v : Value) (k' : Str) :
    (m.insert k v).get k' = if k = k' then some v else m.get k' := by
  induction m with
  | nil => rfl
  | cons e m ih =>
    obtain ⟨a, b⟩ := e
    by_cases h : a = k
    · subst h
      unfold ValueMap.insert
      rw [if_pos rfl]
      unfold ValueMap.get
      by_cases h2 : a = k'
      · rw [if_pos h2, if_pos h2]
      · rw [if_neg h2, if_neg h2, if_neg h2]
    · unfold ValueMap.insert
      rw [if_neg h]
      unfold ValueMap.get
      rw [ih]
      by_cases h2 : a = k'
      · subst h2
        rw [if_pos rfl, if_pos rfl, if_neg (fun e => h e.symm)]
      · rw [if_neg h2, if_neg h2]

theorem Alike.insert {m m' : ValueMap} (h : Alike m m') (k : Str) (v : Value) : Alike (m.insert k v) (m'.insert k v) := by
  intro k'
  rw [get_insert, get_insert]
  by_cases e : k = k'
  · rw [if_pos e, if_pos e]; exact .inl rfl
  · rw [if_neg e, if_neg e]; exact h k'

/-- A continuation of a value that is not a string panics. -/
theorem dull_append {o : Option Value} (h : Dull o) {f : Value → Res ValueMap} {s c : Option Str} :
    (match (motive := Option Value → Res ValueMap) o with
      | some v => match v.append s c with
        | .ok v' => f v'
        | .err e => .err e
        | .panic => .panic
      | none => .panic) = .panic := by
  rcases h with rfl | ⟨b, d, rfl⟩ <;> rfl

theorem processLoop_alike (cs : List Card) {m m' : ValueMap} (h : Alike m m') (kw : Option Str) :
    (∃ w w', processLoop m kw cs = .ok w ∧ processLoop m' kw cs = .ok w' ∧ Alike w w') ∨
      (processLoop m kw cs = processLoop m' kw cs ∧ ∀ w, processLoop m kw cs ≠ .ok w) := by
  induction cs generalizing m m' kw with
  | nil => exact .inr ⟨rfl, fun w e => by cases e⟩
  | cons c cs ih =>
    cases c with
    | value name v => exact ih (h.insert name v) _
    | hierarch name v => exact ih (h.insert name v) _
    | xtension x cm => exact ih (h.insert _ _) _
    | comment t => exact ih h kw
    | history t => exact ih h kw
    | space => exact ih h kw
    | undefined t => exact ih h kw
    | end_ =>
      cases cs with
      | nil => exact .inl ⟨m, m', rfl, rfl, h⟩
      | cons d ds => exact .inr ⟨rfl, fun w e => by cases e⟩
    | continuation s cm =>
      cases kw with
      | none => exact ih h none
      | some name =>
        show (∃ w w', (match m.get name with
            | some v => match v.append s cm with
              | .ok v' => processLoop (m.insert name v') (if v'.continued then some name else none) cs
              | .err e => .err e
              | .panic => .panic
            | none => .panic) = .ok w ∧ (match m'.get name with
            | some v => match v.append s cm with
              | .ok v' => processLoop (m'.insert name v') (if v'.continued then some name else none) cs
              | .err e => .err e
              | .panic => .panic
            | none => .panic) = .ok w' ∧ Alike w w') ∨ ((match m.get name with
            | some v => match v.append s cm with
              | .ok v' => processLoop (m.insert name v') (if v'.continued then some name else none) cs
              | .err e => .err e
              | .panic => .panic
            | none => .panic) = (match m'.get name with
            | some v => match v.append s cm with
              | .ok v' => processLoop (m'.insert name v') (if v'.continued then some name else none) cs
              | .err e => .err e
              | .panic => .panic
            | none => .panic) ∧ ∀ w, (match m.get name with
            | some v => match v.append s cm with
              | .ok v' => processLoop (m.insert name v') (if v'.continued then some name else none) cs
              | .err e => .err e
              | .panic => .panic
            | none => .panic) ≠ .ok w)
        rcases h name with e | ⟨e1, e2⟩
        · rw [← e]
          cases m.get name with
          | none => exact .inr ⟨rfl, fun w e => by cases e⟩
          | some v =>
            dsimp only
            cases v.append s cm with
            | ok v' => exact ih (h.insert name v') _
            | err e => exact .inr ⟨rfl, fun w e => by cases e⟩
            | panic => exact .inr ⟨rfl, fun w e => by cases e⟩
        · refine .inr ⟨(dull_append e1).trans (dull_append e2).symm, fun w e => ?_⟩
          have e' := (dull_append e1).symm.trans e
          cases e'

theorem Alike.getI64 {m m' : ValueMap} (h : Alike m m') (k : Str) : m.getI64 k = m'.getI64 k := by
  unfold ValueMap.getI64
  rcases h k with e | ⟨e1, e2⟩
  · rw [e]
  · rcases e1 with e1 | ⟨b, c, e1⟩ <;> rcases e2 with e2 | ⟨b', c', e2⟩ <;> rw [e1, e2]

theorem Alike.axes {m m' : ValueMap} (h : Alike m m') (i k : Nat) : collectAxes m i k = collectAxes m' i k := by
  induction k generalizing i with
  | zero => rfl
  | succ k ih =>
    unfold collectAxes ValueMap.getU64
    rw [h.getI64, ih]

theorem Alike.image {m m' : ValueMap} (h : Alike m m') : Image.parse m = Image.parse m' := by
  unfold Image.parse ValueMap.getBitpix ValueMap.getInt ValueMap.getU64
  rw [h.getI64, h.getI64]
  simp only [h.axes]

theorem header_renamed {name name' : Str} {c : Option Str} {cs : List Card} :
    (∃ h, Header.parse Image.parse (.value name (.logical true c) :: cs) = .ok h ∧
      ∃ h', Header.parse Image.parse (.value name' (.logical true c) :: cs) = .ok h' ∧ h'.xtension = h.xtension) ∨
    ((∀ h, Header.parse Image.parse (.value name (.logical true c) :: cs) ≠ .ok h) ∧
      ∀ h, Header.parse Image.parse (.value name' (.logical true c) :: cs) ≠ .ok h) := by
  have ha : Alike [(name, .logical true c)] [(name', .logical true c)] := by
    intro k
    unfold ValueMap.get
    by_cases h1 : name = k <;> by_cases h2 : name' = k
    · rw [if_pos h1, if_pos h2]; exact .inl rfl
    · rw [if_pos h1, if_neg h2]; exact .inr ⟨.inr ⟨_, _, rfl⟩, .inl rfl⟩
    · rw [if_neg h1, if_pos h2]; exact .inr ⟨.inl rfl, .inr ⟨_, _, rfl⟩⟩
    · rw [if_neg h1, if_neg h2]; exact .inl rfl
  unfold Header.parse processCards
  rcases processLoop_alike cs ha none with ⟨w, w', h1, h2, h3⟩ | ⟨h1, h2⟩
  · have e1 : processLoop [] none (.value name (.logical true c) :: cs) = .ok w := h1
    have e2 : processLoop [] none (.value name' (.logical true c) :: cs) = .ok w' := h2
    rw [e1, e2, Res.bind_ok, Res.bind_ok, h3.image]
    cases Image.parse w' with
    | ok x => exact .inl ⟨_, rfl, _, rfl, rfl⟩
    | err e => exact .inr ⟨fun h e => (by cases e), fun h e => (by cases e)⟩
    | panic => exact .inr ⟨fun h e => (by cases e), fun h e => (by cases e)⟩
  · have e1 : processLoop [] none (.value name (.logical true c) :: cs) = processLoop [(name, .logical true c)] none cs := rfl
    have e2 : processLoop [] none (.value name' (.logical true c) :: cs) =
      processLoop [(name', .logical true c)] none cs := rfl
    rw [e1, e2, ← h1]
    cases hp : processLoop [(name, .logical true c)] none cs with
    | ok w => exact absurd hp (h2 w)
    | err e => exact .inr ⟨fun h e => (by cases e), fun h e => (by cases e)⟩
    | panic => exact .inr ⟨fun h e => (by cases e), fun h e => (by cases e)⟩

/-! ### Acceptance -/

/-- The header of a file can be read as that of an image, whatever the keyword of its first card. -/
def AnyPrimary (p : Profile) (data : List UInt8) (name : Str) (c : Option Str) : Prop :=
  ∃ cs s h s' sz, consumeCards { rd := ⟨data, 0⟩, nread := 0 } = (.ok (.value name (.logical true c) :: cs), s) ∧
    Hdu.new Image.parse (.value name (.logical true c) :: cs) s = (.ok h, s') ∧ h.header.xtension.numBytes p = .ok sz

theorem acceptsSync_iff {p : Profile} {data : List UInt8} :
    AcceptsSync p data ↔ ∃ c, AnyPrimary p data "SIMPLE".toList c := by
  have hx : (Fits.fromReader ⟨data, 0⟩).next p = Fits.record p (some (HDU.newPrimary ⟨data, 0⟩).1)
      { start := false, posStart := 0, numBytes := 0, errored := false, rd := (HDU.newPrimary ⟨data, 0⟩).2.rd } := rfl
  unfold AcceptsSync
  rw [hx]
  clear hx
  constructor
  · rintro ⟨h, hs⟩
    obtain ⟨h1, sz, hsz, -⟩ := Fits.record_ok (show Fits.record p _ _ = (some (.ok h), _) from Prod.ext hs rfl)
    have h1 : (HDU.newPrimary ⟨data, 0⟩).1 = .ok h := by simpa using h1
    unfold HDU.newPrimary at h1
    cases hc : consumeCards { rd := ⟨data, 0⟩, nread := 0 } with
    | mk x s =>
      rw [hc] at h1
      cases x with
      | err e => cases h1
      | panic => cases h1
      | ok cards =>
        dsimp only at h1
        unfold primaryOf at h1
        split at h1
        · rename_i name c cs
          split at h1
          · rename_i hn
            subst hn
            cases hw : Hdu.new Image.parse (.value "SIMPLE".toList (.logical true c) :: cs) s with
            | mk y s' =>
              rw [hw] at h1
              unfold wrap at h1
              cases y with
              | err e => cases h1
              | panic => cases h1
              | ok h' =>
                cases h1
                exact ⟨c, cs, s, h', s', sz, hc, hw, hsz⟩
          · cases h1
        · cases h1
        · cases h1
  · rintro ⟨c, cs, s, h, s', sz, h1, h2, h3⟩
    refine ⟨.primary h, ?_⟩
    have e : (HDU.newPrimary ⟨data, 0⟩).1 = .ok (.primary h) := by
      unfold HDU.newPrimary
      rw [h1]
      dsimp only
      unfold primaryOf
      dsimp only
      rw [if_pos rfl, h2]
      rfl
    rw [e]
    have hd : (HDU.primary h).dataSize p = .ok sz := h3
    unfold Fits.record
    dsimp only
    rw [hd]

theorem anyPrimary_new {data data' : List UInt8} {name name' : Str} {c : Option Str} {cs : List Card} {s s' : HState} {h : Hdu Image}
    {p : Profile} {sz : Nat}
    (hd : Renamed data data' name' c)
    (h1 : consumeCards { rd := ⟨data, 0⟩, nread := 0 } = (.ok (.value name (.logical true c) :: cs), s))
    (h2 : Hdu.new Image.parse (.value name (.logical true c) :: cs) s = (.ok h, s'))
    (h3 : h.header.xtension.numBytes p = .ok sz) : AnyPrimary p data' name' c := by
  have hc := consumeCards_renamed hd h1
  obtain ⟨g1, g2, g3, g4⟩ := cards_nread rfl h1
  dsimp only at g1 g2 g3 g4
  have hl := hd.length
  have hcd := header_renamed (name := name) (name' := name') (c := c) (cs := cs)
  unfold Hdu.new at h2
  rcases hcd with ⟨x, e1, x', e2, e3⟩ | ⟨e1, -⟩
  · rw [e1] at h2
    dsimp only at h2
    refine ⟨cs, { s with rd := ⟨data', s.rd.pos⟩ }, ?_⟩
    by_cases hm : s.nread % 2880 = 0
    · rw [if_neg (by simp [hm])] at h2
      cases h2
      refine ⟨{ header := x', dataOffset := s.rd.pos }, { s with rd := ⟨data', s.rd.pos⟩ }, sz, hc, ?_, ?_⟩
      · unfold Hdu.new
        rw [e2]
        dsimp only
        rw [if_neg (by simp [hm])]
      · dsimp only at h3 ⊢
        rw [e3]
        exact h3
    · rw [if_pos hm] at h2
      unfold Reader.readExact at h2
      dsimp only at h2
      by_cases hr : ((s.rd.data.drop s.rd.pos).take (2880 - s.nread % 2880)).length = 2880 - s.nread % 2880
      · rw [if_pos hr] at h2
        cases h2
        refine ⟨{ header := x', dataOffset := s.rd.pos + (2880 - s.nread % 2880) },
          { rd := ⟨data', s.rd.pos + (2880 - s.nread % 2880)⟩, nread := s.nread + (2880 - s.nread % 2880) }, sz, hc, ?_, ?_⟩
        · unfold Hdu.new
          rw [e2]
          dsimp only
          rw [if_pos hm]
          unfold Reader.readExact
          dsimp only
          rw [if_pos]
          rw [List.length_take, List.length_drop] at hr ⊢
          rw [hl, ← g1]
          exact hr
        · dsimp only at h3 ⊢
          rw [e3]
          exact h3
      · rw [if_neg hr] at h2
        cases h2
  · cases hp : Header.parse Image.parse (.value name (.logical true c) :: cs) with
    | ok x => exact absurd hp (e1 x)
    | err e => rw [hp] at h2; cases h2
    | panic => rw [hp] at h2; cases h2

theorem acceptsAsync_iff {p : Profile} {r : AReader} (hr : Spec.Ready r.events) :
    AcceptsAsync p r ↔ ∃ name c, AnyPrimary p r.bytes name c := by
  have hy : (AFits.fromReader r).pollNext p = match (AHdu.newPrimary (r.bytes.length + 1)).poll r with
      | (.pending _, rd) => (.pending, { AFits.fromReader r with rd })
      | (.ready x, rd) => AFits.record p (some x) { AFits.fromReader r with rd } := rfl
  have hsees : Sees r (r.bytes.length + 2881) (r.bytes.drop 0) := ⟨rfl, .of_ready hr _⟩
  unfold AcceptsAsync
  rw [hy]
  clear hy
  unfold AHdu.newPrimary
  cases hc : consumeCards { rd := ⟨r.bytes, 0⟩, nread := 0 } with
  | mk x s =>
    have hbad := consumeCardsA_bad (fuel := r.bytes.length + 1) (nread := 0) (fuelA := r.bytes.length + 1)
      (s := { rd := ⟨r.bytes, 0⟩, nread := 0 }) hsees (by dsimp only; omega) (by omega) (by dsimp only; omega) (by omega)
      (by dsimp only; omega)
    have hno : (∀ cards, x ≠ .ok cards) → ¬ ∃ name c, AnyPrimary p r.bytes name c := by
      rintro hx ⟨name, c, cs, s1, h, s', sz, h1, -⟩
      rw [hc] at h1
      exact hx _ (Prod.mk.inj h1).1
    cases x with
    | err e =>
      obtain ⟨r', h1⟩ := hbad.1 e s hc
      rw [poll_andThen_err h1]
      exact ⟨fun ⟨h, hh⟩ => (by cases hh), fun hh => absurd hh (hno fun cards e => by cases e)⟩
    | panic =>
      obtain ⟨r', h1⟩ := hbad.2 s hc
      rw [poll_andThen_panic h1]
      exact ⟨fun ⟨h, hh⟩ => (by cases hh), fun hh => absurd hh (hno fun cards e => by cases e)⟩
    | ok cards =>
      obtain ⟨g1, g2, g3, g4⟩ := cards_nread rfl hc
      dsimp only at g1 g2 g3 g4
      obtain ⟨r1, e1, e2⟩ := consumeCardsA_ok (nread := 0) (fuelA := r.bytes.length + 1) hc hsees (by omega) (by omega)
      dsimp only at e2
      rw [← g1, ← g2] at e2
      rw [poll_andThen_ok e1, ← g3]
      dsimp only
      have hno' : (∀ name c cs, cards ≠ .value name (.logical true c) :: cs) → ¬ ∃ name c, AnyPrimary p r.bytes name c := by
        rintro hx ⟨name, c, cs, s1, h, s', sz, h1, -⟩
        rw [hc] at h1
        exact hx name c cs (Res.ok.inj (Prod.mk.inj h1).1)
      by_cases hcards : ∃ name c cs, cards = .value name (.logical true c) :: cs
      · obtain ⟨name, c, cs, rfl⟩ := hcards
        have hpa : ∀ n, primaryOfA (.value name (.logical true c) :: cs) n =
            (AHdu.new Image.parse (.value name (.logical true c) :: cs) n).andThen id fun h => done (.ok (.primary h)) :=
          fun n => rfl
        rw [hpa]
        have hno2 : (∀ h sz, (Hdu.new Image.parse (.value name (.logical true c) :: cs) s).1 = .ok h →
            h.header.xtension.numBytes p ≠ .ok sz) → ¬ ∃ name c, AnyPrimary p r.bytes name c := by
          rintro hx ⟨name', c', cs', s1, h, s', sz, h1, h2, h3⟩
          rw [hc] at h1
          have h4 := Prod.mk.inj h1
          have h5 := List.cons.inj (Res.ok.inj h4.1)
          obtain ⟨h6, rfl⟩ := h5
          cases h6
          obtain ⟨-, rfl⟩ := h4
          exact hx h sz (by rw [h2]) h3
        have hb := new_async_bad (parse := Image.parse) (cards := .value name (.logical true c) :: cs) e2
          (by rw [g1, g2]; omega)
        cases hw : Hdu.new Image.parse (.value name (.logical true c) :: cs) s with
        | mk y s' =>
          rw [hw] at hno2
          cases y with
          | err e =>
            obtain ⟨e', r2, f1⟩ := hb.1 e s' hw
            rw [poll_andThen_err f1]
            exact ⟨fun ⟨h, hh⟩ => (by cases hh), fun hh => absurd hh (hno2 fun h sz e => by cases e)⟩
          | panic =>
            obtain ⟨r2, f1⟩ := hb.2 s' hw
            rw [poll_andThen_panic f1]
            exact ⟨fun ⟨h, hh⟩ => (by cases hh), fun hh => absurd hh (hno2 fun h sz e => by cases e)⟩
          | ok h =>
            obtain ⟨k1, k2, -, -⟩ := Hdu.new_ok hw
            have hge := roundUp2880_lt s.nread
            obtain ⟨r2, f1, -⟩ := new_async_ok hw e2 (by rw [k2]; have := congrArg List.length g1; omega)
            rw [poll_andThen_ok f1]
            have hpoll : (done (.ok (AHdu.primary h.header)) : Fut (Res AHdu)).poll r2 = (.ready (.ok (.primary h.header)), r2) := rfl
            rw [hpoll]
            dsimp only
            have hsz : (AHdu.primary h.header).dataSize p = h.header.xtension.numBytes p := rfl
            unfold AFits.record
            dsimp only
            rw [hsz]
            cases hz : h.header.xtension.numBytes p with
            | ok sz => exact ⟨fun _ => ⟨name, c, cs, s, h, s', sz, hc, hw, hz⟩, fun _ => ⟨_, rfl⟩⟩
            | err e =>
              refine ⟨fun ⟨h, hh⟩ => (by cases hh), fun hh => absurd hh (hno2 fun h' sz e => ?_)⟩
              cases e
              rw [hz]
              exact fun e => by cases e
            | panic =>
              refine ⟨fun ⟨h, hh⟩ => (by cases hh), fun hh => absurd hh (hno2 fun h' sz e => ?_)⟩
              cases e
              rw [hz]
              exact fun e => by cases e
      · have hbadp : ∀ n, (∃ e, primaryOfA cards n = done (.err e)) ∨ primaryOfA cards n = done .panic := by
          intro n
          unfold primaryOfA
          split
          · rename_i name c cs
            exact absurd ⟨name, c, cs, rfl⟩ hcards
          · exact .inl ⟨_, rfl⟩
          · exact .inr rfl
        refine ⟨?_, fun hh => absurd hh (hno' fun name c cs e => hcards ⟨name, c, cs, e⟩)⟩
        rintro ⟨h, hh⟩
        rcases hbadp s.nread with ⟨e, he⟩ | he
        · rw [he] at hh
          cases hh
        · rw [he] at hh
          cases hh

/-- **C51, exactly.** On a source that is always ready, the stream accepts the files that hold a true logical value in their
first record, under any keyword, and that the iterator would accept if that keyword were `SIMPLE`. -/
theorem C51_exact {p : Profile} {r : AReader} (hr : Spec.Ready r.events) :
    AcceptsAsync p r ↔ FirstTrue r.bytes ∧ AcceptsSync p (asSimple r.bytes) := by
  rw [acceptsAsync_iff hr, acceptsSync_iff]
  constructor
  · rintro ⟨name, c, cs, s, h, s', sz, h1, h2, h3⟩
    obtain ⟨-, -, -, g1, g2, -⟩ := consumeCardsN_ok h1
    have hf := g2 0 (Nat.succ_pos _)
    refine ⟨⟨name, c, hf⟩, c, anyPrimary_new ⟨asSimple_length ?_, ?_, fun i hi => asSimple_record hi⟩ h1 h2 h3⟩
    · dsimp only [List.length_cons] at g1
      omega
    · rw [asSimple_first]
      exact recordCard_simple hf
  · rintro ⟨⟨name, c, hf⟩, c', cs, s, h, s', sz, h1, h2, h3⟩
    obtain ⟨-, -, -, g1, g2, -⟩ := consumeCardsN_ok h1
    have hf' := g2 0 (Nat.succ_pos _)
    dsimp only at hf'
    rw [asSimple_first, recordCard_simple hf] at hf'
    have hcc : c = c' := by
      cases hf'
      rfl
    subst hcc
    refine ⟨name, c, anyPrimary_new ⟨(asSimple_length ?_).symm, hf, fun i hi => (asSimple_record hi).symm⟩ h1 h2 h3⟩
    dsimp only [List.length_cons] at g1
    unfold asSimple at g1
    rw [List.length_append, List.length_drop] at g1
    dsimp only [List.length_cons, List.length_nil] at g1
    omega

/-- A file that does not begin with `SIMPLE` is accepted by the stream exactly because it would be accepted by the iterator under
that keyword; one that holds a false logical value is refused. -/
example : AcceptsSync .checked (asSimple notSimpleFile) ∧ FirstTrue notSimpleFile ∧
    ¬ FirstTrue (notSimpleFile.set 29 70) := by
  have h : AcceptsAsync .checked ⟨notSimpleFile, []⟩ := by
    have : (match ((AFits.fromReader ⟨notSimpleFile, []⟩).pollNext .checked).1 with
      | .ready (some (.ok _)) => true
      | _ => false) = true := by decide +kernel
    unfold AcceptsAsync
    generalize ((AFits.fromReader ⟨notSimpleFile, []⟩).pollNext .checked).1 = x at this ⊢
    split at this
    · exact ⟨_, rfl⟩
    · cases this
  have h' := (C51_exact (by decide)).1 h
  have hb : (AReader.mk notSimpleFile []).bytes = notSimpleFile := List.append_nil _
  rw [hb] at h'
  refine ⟨h'.2, h'.1, ?_⟩
  rintro ⟨name, c, hc⟩
  have : (match recordCard (recordAt (notSimpleFile.set 29 70) 0 0) with
    | .ok (.value _ (.logical true _)) => true
    | _ => false) = false := by decide +kernel
  rw [hc] at this
  cases this

end Fitsrs

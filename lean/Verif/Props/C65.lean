import Verif.Model.Deserialize
import Verif.Props.C17_C21
/-
C65 structs filled from headers.
-/

namespace Fitsrs
open Spec

/-- Every field of the struct is what `look` gives for it. -/
def Spec.Each (look : (f : SField) → Res f.type) : (fs : List SField) → Struct fs → Prop
  | [], _ => True
  | f :: fs, (x, s) => look f = .ok x ∧ Each look fs s

/-- The value of the field if the header has the value `v` for its keyword. -/
def Spec.fieldValue (f : SField) : Option Value → Res f.type
  | some v => f.de v
  | none => f.missing

/-- The same, blank values being treated like missing ones. -/
def Spec.blankAsMissing (f : SField) : Option Value → Res f.type
  | some v => if v = .undefined then f.missing else f.de v
  | none => f.missing

/-- **C65, in full.** The fields are those of the last records with their keywords; keywords without a value are treated like
missing keywords. -/
def C65_statement : Prop :=
  ∀ (fs : List SField) (X : Type) (parse : ValueMap → Res X) (cards : List Card) (h : Header X) (t : Struct fs),
    (fs.map SField.name).Nodup → (∀ f ∈ fs, (∀ x, f.de .undefined ≠ .ok x) ∨ f.de .undefined = f.missing) →
    Header.parse parse cards = .ok h →
    (Struct.deserialize fs h.values = .ok t ↔
      Each (fun f => blankAsMissing f (lastValue (entries cards) f.name)) fs t)

/-! ### The state while the map is visited -/

/-- What has been seen of the fields, if `get` is the map of the entries visited. -/
def Upto (get : Str → Option Value) : (fs : List SField) → Filled fs → Prop
  | [], _ => True
  | f :: fs, (o, r) =>
    (match get f.name with
      | none => o = none
      | some v => ∃ x, f.de v = .ok x ∧ o = some x) ∧ Upto get fs r

theorem Upto.start {get : Str → Option Value} (h : ∀ k, get k = none) (fs : List SField) :
    Upto get fs (Filled.start fs) := by
  induction fs with
  | nil => trivial
  | cons f fs ih =>
    refine ⟨?_, ih⟩
    rw [h]

theorem Upto.unique {get : Str → Option Value} {fs : List SField} {s s' : Filled fs} (h : Upto get fs s)
    (h' : Upto get fs s') : s = s' := by
  induction fs with
  | nil => rfl
  | cons f fs ih =>
    obtain ⟨o, r⟩ := s
    obtain ⟨o', r'⟩ := s'
    obtain ⟨h1, h2⟩ := h
    obtain ⟨h1', h2'⟩ := h'
    rw [ih h2 h2']
    cases hg : get f.name with
    | none =>
      rw [hg] at h1 h1'
      rw [h1, h1']
    | some v =>
      rw [hg] at h1 h1'
      obtain ⟨x, hx, rfl⟩ := h1
      obtain ⟨x', hx', rfl⟩ := h1'
      rw [hx] at hx'
      cases hx'
      rfl

theorem Upto.congr {get get' : Str → Option Value} {fs : List SField} {s : Filled fs}
    (hg : ∀ f ∈ fs, get f.name = get' f.name) (h : Upto get fs s) : Upto get' fs s := by
  induction fs with
  | nil => trivial
  | cons f fs ih =>
    obtain ⟨o, r⟩ := s
    obtain ⟨h1, h2⟩ := h
    rw [hg f (by simp)] at h1
    exact ⟨h1, ih (fun g hgm => hg g (List.mem_cons_of_mem _ hgm)) h2⟩

theorem entry_cons (k : Str) (v : Value) (f : SField) (fs : List SField) (o : Option f.type) (r : Filled fs) :
    Filled.entry k v (f :: fs) (o, r) = if f.name = k then f.read v o >>= fun o' => .ok (o', r)
      else Filled.entry k v fs r >>= fun r' => .ok (o, r') := rfl

/-- The map with one more entry. -/
def withEntry (get : Str → Option Value) (k : Str) (v : Value) (k' : Str) : Option Value :=
  if k' = k then some v else get k'

theorem Upto.entry {get : Str → Option Value} {fs : List SField} {s s' : Filled fs} {k : Str} {v : Value}
    (hn : (fs.map SField.name).Nodup) (h : Upto get fs s) (he : Filled.entry k v fs s = .ok s') :
    Upto (withEntry get k v) fs s' := by
  induction fs with
  | nil => trivial
  | cons f fs ih =>
    obtain ⟨o, r⟩ := s
    obtain ⟨h1, h2⟩ := h
    have hn1 : f.name ∉ fs.map SField.name := (List.nodup_cons.1 hn).1
    have hn2 := (List.nodup_cons.1 hn).2
    rw [entry_cons] at he
    by_cases hk : f.name = k
    · rw [if_pos hk] at he
      obtain ⟨o', ho, he'⟩ := Res.bind_eq_ok.1 he
      cases he'
      cases o with
      | some _ => cases ho
      | none =>
        obtain ⟨x, hx, rfl⟩ := Res.map_eq_ok.1 ho
        refine ⟨?_, Upto.congr (fun g hg => ?_) h2⟩
        · unfold withEntry
          rw [if_pos hk]
          exact ⟨x, hx, rfl⟩
        · unfold withEntry
          rw [if_neg]
          intro h
          exact hn1 (by rw [hk, ← h]; exact List.mem_map_of_mem hg)
    · rw [if_neg hk] at he
      obtain ⟨r', hr, he'⟩ := Res.bind_eq_ok.1 he
      cases he'
      refine ⟨?_, ih hn2 h2 hr⟩
      unfold withEntry
      rw [if_neg hk]
      exact h1

theorem Upto.entry_ok {get : Str → Option Value} {fs : List SField} {s : Filled fs} {k : Str} {v : Value}
    (h : Upto get fs s) (hk : get k = none) (hv : ∀ f ∈ fs, f.name = k → ∃ x, f.de v = .ok x) :
    ∃ s', Filled.entry k v fs s = .ok s' := by
  induction fs with
  | nil => exact ⟨_, rfl⟩
  | cons f fs ih =>
    obtain ⟨o, r⟩ := s
    obtain ⟨h1, h2⟩ := h
    rw [entry_cons]
    by_cases hf : f.name = k
    · rw [if_pos hf]
      rw [hf, hk] at h1
      dsimp only at h1
      subst h1
      obtain ⟨x, hx⟩ := hv f (by simp) hf
      have : f.read v none = .ok (some x) := by
        unfold SField.read
        dsimp only
        rw [hx]
        rfl
      rw [this]
      exact ⟨_, rfl⟩
    · rw [if_neg hf]
      obtain ⟨s', hs⟩ := ih h2 (fun g hg => hv g (List.mem_cons_of_mem _ hg))
      rw [hs]
      exact ⟨_, rfl⟩

theorem Upto.de {get : Str → Option Value} {fs : List SField} {s : Filled fs} (h : Upto get fs s) {f : SField}
    (hf : f ∈ fs) {v : Value} (hv : get f.name = some v) : ∃ x, f.de v = .ok x := by
  induction fs with
  | nil => cases hf
  | cons g fs ih =>
    obtain ⟨o, r⟩ := s
    obtain ⟨h1, h2⟩ := h
    rcases List.mem_cons.1 hf with rfl | hf
    · rw [hv] at h1
      obtain ⟨x, hx, -⟩ := h1
      exact ⟨x, hx⟩
    · exact ih h2 hf

/-- The map with more entries. -/
def withEntries (get : Str → Option Value) : List (Str × Value) → Str → Option Value
  | [] => get
  | (k, v) :: m => withEntries (withEntry get k v) m

theorem withEntries_of_not_mem {get : Str → Option Value} {m : List (Str × Value)} {k : Str}
    (h : k ∉ m.map Prod.fst) : withEntries get m k = get k := by
  induction m generalizing get with
  | nil => rfl
  | cons e m ih =>
    obtain ⟨k', v⟩ := e
    simp only [List.map_cons, List.mem_cons, not_or] at h
    show withEntries _ m k = _
    rw [ih h.2]
    unfold withEntry
    rw [if_neg h.1]

theorem withEntries_get {m : ValueMap} (h : (m.map Prod.fst).Nodup) (get : Str → Option Value) (k : Str) :
    withEntries get m k = (m.get k).or (get k) := by
  induction m generalizing get with
  | nil => rfl
  | cons e m ih =>
    obtain ⟨k', v⟩ := e
    have h1 : k' ∉ m.map Prod.fst := (List.nodup_cons.1 h).1
    show withEntries (withEntry get k' v) m k = _
    unfold ValueMap.get
    by_cases hk : k' = k
    · subst hk
      rw [if_pos rfl, withEntries_of_not_mem h1]
      unfold withEntry
      rw [if_pos rfl]
      rfl
    · rw [if_neg hk, ih (List.nodup_cons.1 h).2]
      unfold withEntry
      rw [if_neg (Ne.symm hk)]

theorem entries_iff {fs : List SField} (hn : (fs.map SField.name).Nodup) {m : List (Str × Value)}
    (hm : (m.map Prod.fst).Nodup) {get : Str → Option Value} (hg : ∀ k ∈ m.map Prod.fst, get k = none)
    {s s' : Filled fs} (h : Upto get fs s) : Filled.entries m s = .ok s' ↔ Upto (withEntries get m) fs s' := by
  induction m generalizing get s with
  | nil =>
    constructor
    · intro he
      cases he
      exact h
    · intro h'
      rw [Upto.unique h h']
      rfl
  | cons e m ih =>
    obtain ⟨k, v⟩ := e
    have hm1 : k ∉ m.map Prod.fst := (List.nodup_cons.1 hm).1
    have hm2 := (List.nodup_cons.1 hm).2
    have hg' : ∀ k' ∈ m.map Prod.fst, withEntry get k v k' = none := by
      intro k' hk'
      unfold withEntry
      rw [if_neg (show ¬ k' = k from fun h => hm1 (by rw [← h]; exact hk'))]
      exact hg k' (List.mem_cons_of_mem _ hk')
    have hgk : get k = none := hg k (by simp)
    constructor
    · intro he
      obtain ⟨s1, h1, h2⟩ := Res.bind_eq_ok.1 he
      exact (ih hm2 hg' (Upto.entry hn h h1)).1 h2
    · intro h'
      obtain ⟨s1, h1⟩ := Upto.entry_ok (v := v) h hgk (fun f hf hk => by
        refine Upto.de h' hf (v := v) ?_
        show withEntries (withEntry get k v) m f.name = _
        rw [hk, withEntries_of_not_mem hm1]
        unfold withEntry
        rw [if_pos rfl])
      exact Res.bind_eq_ok.2 ⟨s1, h1, (ih hm2 hg' (Upto.entry hn h h1)).2 h'⟩

theorem bind_pair {α β : Type} (a : Res α) (b : Res β) (x : α) (t : β) :
    (a >>= fun x => b >>= fun s => .ok (x, s)) = .ok (x, t) ↔ a = .ok x ∧ b = .ok t := by
  cases a <;> cases b <;> simp

theorem finish_iff {get : Str → Option Value} {fs : List SField} {s : Filled fs} {t : Struct fs} (h : Upto get fs s) :
    Filled.finish fs s = .ok t ↔ Each (fun f => fieldValue f (get f.name)) fs t := by
  induction fs with
  | nil => exact ⟨fun _ => trivial, fun _ => rfl⟩
  | cons f fs ih =>
    obtain ⟨o, r⟩ := s
    obtain ⟨x, t⟩ := t
    obtain ⟨h1, h2⟩ := h
    have e : f.orMissing o = fieldValue f (get f.name) := by
      cases hg : get f.name with
      | none =>
        rw [hg] at h1
        dsimp only at h1
        rw [h1]
        rfl
      | some v =>
        rw [hg] at h1
        obtain ⟨x, hx, rfl⟩ := h1
        exact hx.symm
    refine (bind_pair (f.orMissing o) (Filled.finish fs r) x t).trans ?_
    rw [e, ih h2]
    exact Iff.rfl

theorem Upto.exists {get : Str → Option Value} {fs : List SField} {t : Struct fs}
    (h : Each (fun f => fieldValue f (get f.name)) fs t) : ∃ s, Upto get fs s := by
  induction fs with
  | nil => exact ⟨(), trivial⟩
  | cons f fs ih =>
    obtain ⟨x, t⟩ := t
    obtain ⟨h1, h2⟩ := h
    obtain ⟨s, hs⟩ := ih h2
    cases hg : get f.name with
    | none =>
      refine ⟨(none, s), ?_, hs⟩
      rw [hg]
    | some v =>
      refine ⟨(some x, s), ?_, hs⟩
      rw [hg]
      dsimp only at h1
      rw [hg] at h1
      exact ⟨x, h1, rfl⟩

/-- A struct is filled field by field, from the values of the map. -/
theorem deserialize_iff {fs : List SField} (hn : (fs.map SField.name).Nodup) {m : ValueMap}
    (hm : (m.map Prod.fst).Nodup) (t : Struct fs) :
    Struct.deserialize fs m = .ok t ↔ Each (fun f => fieldValue f (m.get f.name)) fs t := by
  have h0 := Upto.start (get := fun _ => none) (fun _ => rfl) fs
  have hget : withEntries (fun _ => none) m = m.get := by
    funext k
    rw [withEntries_get hm]
    cases m.get k <;> rfl
  have hi := fun s' => entries_iff hn hm (get := fun _ => none) (fun _ _ => rfl) h0 (s' := s')
  rw [hget] at hi
  unfold Struct.deserialize
  rw [Res.bind_eq_ok]
  constructor
  · rintro ⟨s, h1, h2⟩
    exact (finish_iff ((hi s).1 h1)).1 h2
  · intro h
    obtain ⟨s, hs⟩ := Upto.exists h
    exact ⟨s, (hi s).2 hs, (finish_iff hs).2 h⟩

/-! ### The claims -/

theorem Each.congr {look look' : (f : SField) → Res f.type} {fs : List SField} {t : Struct fs}
    (h : ∀ f ∈ fs, ∀ x, look f = .ok x ↔ look' f = .ok x) : Each look fs t ↔ Each look' fs t := by
  induction fs with
  | nil => exact Iff.rfl
  | cons f fs ih =>
    obtain ⟨x, t⟩ := t
    show (_ ∧ _) ↔ (_ ∧ _)
    rw [h f (by simp) x, ih (fun g hg => h g (List.mem_cons_of_mem _ hg))]

/-- **C65, fields.** A struct is read from a header exactly if all its fields can be read, and each field is what its type makes
of the last record with its keyword; if there is none, what the struct prescribes for missing fields.  The order of the records and
all the other records do not matter. -/
theorem C65_fields (fs : List SField) {X : Type} (parse : ValueMap → Res X) (cards : List Card) (h : Header X)
    (t : Struct fs) (hn : (fs.map SField.name).Nodup) (hp : Header.parse parse cards = .ok h) :
    Struct.deserialize fs h.values = .ok t ↔ Each (fun f => fieldValue f (lastValue (entries cards) f.name)) fs t := by
  rw [deserialize_iff hn (C17_keywords parse cards h hp).2.1]
  exact Each.congr (fun f _ x => by rw [C17_lookup parse cards h hp])

/-- **C65, the same as get_parsed.** If missing fields are treated as `get_parsed` does, as for all types without
`#[serde(default)]`, then the struct has the same fields as if each of them had been asked for by `get_parsed`. -/
theorem C65_parsed (fs : List SField) {X : Type} (parse : ValueMap → Res X) (cards : List Card) (h : Header X)
    (t : Struct fs) (hn : (fs.map SField.name).Nodup) (hp : Header.parse parse cards = .ok h)
    (hf : ∀ f ∈ fs, ∀ x, f.missing = .ok x ↔ f.de .undefined = .ok x) :
    Struct.deserialize fs h.values = .ok t ↔ Each (fun f => h.values.getParsed f.de f.name) fs t := by
  rw [deserialize_iff hn (C17_keywords parse cards h hp).2.1]
  refine Each.congr (fun f hm x => ?_)
  unfold ValueMap.getParsed
  cases h.values.get f.name with
  | some v => exact Iff.rfl
  | none => exact hf f hm x

/-- **C65, partial** (full statement: `C65_statement`): blank values are treated like missing ones, for fields without
`#[serde(default)]`. -/
theorem C65_partial (fs : List SField) {X : Type} (parse : ValueMap → Res X) (cards : List Card) (h : Header X)
    (t : Struct fs) (hn : (fs.map SField.name).Nodup)
    (hf : ∀ f ∈ fs, ∀ x, f.missing = .ok x ↔ f.de .undefined = .ok x) (hp : Header.parse parse cards = .ok h) :
    Struct.deserialize fs h.values = .ok t ↔
      Each (fun f => blankAsMissing f (lastValue (entries cards) f.name)) fs t := by
  rw [C65_fields fs parse cards h t hn hp]
  refine Each.congr (fun f hm x => ?_)
  cases lastValue (entries cards) f.name with
  | none => exact Iff.rfl
  | some v =>
    show f.de v = _ ↔ (if v = .undefined then f.missing else f.de v) = _
    split
    · rename_i hv
      rw [hv]
      exact (hf f hm x).symm
    · exact Iff.rfl

/-- The condition of `C65_parsed` and `C65_partial` holds for fields of the usual types. -/
theorem plain_missing (name : Str) :
    (∀ lo hi x, (SField.plain name (deserializeAny (intVisitor lo hi))).missing = .ok x ↔
      (SField.plain name (deserializeAny (intVisitor lo hi))).de .undefined = .ok x) ∧
    (∀ x, (SField.plain name (deserializeAny f64Visitor)).missing = .ok x ↔
      (SField.plain name (deserializeAny f64Visitor)).de .undefined = .ok x) ∧
    (∀ x, (SField.plain name (deserializeAny boolVisitor)).missing = .ok x ↔
      (SField.plain name (deserializeAny boolVisitor)).de .undefined = .ok x) ∧
    (∀ x, (SField.plain name (deserializeAny stringVisitor)).missing = .ok x ↔
      (SField.plain name (deserializeAny stringVisitor)).de .undefined = .ok x) ∧
    ∀ {α : Type} (de : Value → Res α) x, (SField.option name de).missing = .ok x ↔
      (SField.option name de).de .undefined = .ok x :=
  ⟨fun _ _ _ => Iff.rfl, fun _ => Iff.rfl, fun _ => Iff.rfl, fun _ => Iff.rfl, fun _ _ => Iff.rfl⟩

/-- **C65, typed access.** `get_parsed` at the usual types is what C21 says. -/
theorem C65_get_parsed (m : ValueMap) (k : Str) :
    (∀ lo hi, m.getParsed (deserializeAny (intVisitor lo hi)) k = m.getInt lo hi k) ∧
    m.getParsed (deserializeAny f64Visitor) k = m.getF64 k ∧ m.getParsed (deserializeAny boolVisitor) k = m.getBool k ∧
    m.getParsed (deserializeAny stringVisitor) k = m.getString k ∧
    ∀ {α : Type} (de : Value → Res α), m.getParsed (deserializeOption de) k = m.getOpt (ValueMap.getParsed de) k := by
  refine ⟨fun lo hi => ?_, ?_, ?_, ?_, fun de => ?_⟩
  · unfold ValueMap.getParsed ValueMap.getInt ValueMap.getI64
    cases m.get k with
    | none => rfl
    | some v => cases v <;> rfl
  · unfold ValueMap.getParsed ValueMap.getF64
    cases m.get k with
    | none => rfl
    | some v => cases v <;> rfl
  · unfold ValueMap.getParsed ValueMap.getBool
    cases m.get k with
    | none => rfl
    | some v => cases v <;> rfl
  · unfold ValueMap.getParsed ValueMap.getString
    cases m.get k with
    | none => rfl
    | some v => cases v <;> rfl
  · unfold ValueMap.getParsed ValueMap.getOpt
    cases hk : m.get k with
    | none => rfl
    | some v => cases v <;> simp [deserializeOption, Option.getD, hk]

/-- **C21, reals.** A real number is given for real values, as they are written, for integers, exactly, and for nothing else. -/
theorem C21_real (m : ValueMap) (k : Str) :
    (∀ x c, m.get k = some (.float x c) → m.getF64 k = .ok x) ∧
    (∀ n c, m.get k = some (.integer n c) →
      ∃ neg mant, m.getF64 k = .ok (.fin neg mant 0) ∧ signed (some neg) mant = n) ∧
    ((∀ x c, m.get k ≠ some (.float x c)) → (∀ n c, m.get k ≠ some (.integer n c)) → m.getF64 k = .err .dynamic) := by
  unfold ValueMap.getF64
  refine ⟨fun x c h => by rw [h], fun n c h => ?_, fun h1 h2 => ?_⟩
  · rw [h]
    refine ⟨_, _, rfl, ?_⟩
    unfold signed isNeg
    by_cases hn : n < 0
    · simp [hn]; omega
    · simp [hn]; omega
  · cases hv : m.get k with
    | none => rfl
    | some v =>
      cases v with
      | float x c => exact absurd hv (h1 x c)
      | integer n c => exact absurd hv (h2 n c)
      | _ => rfl

/-- An integer `BZERO`. -/
example : ValueMap.getF64 [("BZERO".toList, .integer (-32768) none)] "BZERO".toList = .ok (.fin true 32768 0) := by
  obtain ⟨neg, mant, h1, h2⟩ := (C21_real [("BZERO".toList, .integer (-32768) none)] "BZERO".toList).2.1 (-32768) none
    (by decide +kernel)
  rw [h1]
  unfold signed isNeg at h2
  cases neg <;> simp at h2 <;> congr <;> omega

/-- **C65, the scale of images.** The scale that the decoder of images uses is the struct filled from the header. -/
theorem C65_scale {X : Type} (parse : ValueMap → Res X) (cards : List Card) (h : Header X)
    (hp : Header.parse parse cards = .ok h) (s : Scale) :
    Struct.deserialize scaleFields h.values = .ok (s.bzero, s.bscale, ()) ↔ Scale.ofMap h.values = .ok s := by
  refine (deserialize_iff (fs := scaleFields) (by decide) (C17_keywords parse cards h hp).2.1 _).trans ?_
  have e : ∀ k d, fieldValue (SField.default k (deserializeAny f64Visitor) d) (h.values.get k) =
      scaleField h.values k d := by
    intro k d
    unfold scaleField ValueMap.getF64
    cases h.values.get k with
    | none => rfl
    | some v => cases v <;> rfl
  have e1 := e "BZERO".toList (.fin false 0 0)
  have e2 := e "BSCALE".toList (.fin false 1 0)
  unfold Scale.ofMap
  constructor
  · rintro ⟨h1, h2, -⟩
    have h1' : scaleField h.values "BZERO".toList (.fin false 0 0) = .ok s.bzero := e1.symm.trans h1
    have h2' : scaleField h.values "BSCALE".toList (.fin false 1 0) = .ok s.bscale := e2.symm.trans h2
    rw [h1', Res.bind_ok, h2', Res.bind_ok]
  · intro h
    obtain ⟨x, hx, h'⟩ := Res.bind_eq_ok.1 h
    obtain ⟨y, hy, h''⟩ := Res.bind_eq_ok.1 h'
    cases h''
    exact ⟨e1.trans hx, e2.trans hy, trivial⟩

/-- A header with a blank BZERO. -/
def blankScale : List Card :=
  [.value "BSCALE".toList (.integer 2 none), .value "BZERO".toList .undefined, .end_]

/-- **C65 fails**: a blank value of a field with a default is an error. -/
theorem C65_fails : ¬ C65_statement := by
  intro h
  have := (h scaleFields Unit (fun _ => .ok ()) blankScale
    ⟨blankScale, [("BSCALE".toList, .integer 2 none), ("BZERO".toList, .undefined)], ()⟩
    (.fin false 0 0, .fin false 2 0, ()) (by decide)
    (by
      intro f hf
      refine .inl (fun x hx => ?_)
      rcases List.mem_cons.1 hf with rfl | hf
      · cases hx
      · obtain rfl := List.mem_singleton.1 hf
        cases hx) (by decide)).2 ⟨rfl, rfl, trivial⟩
  cases this

/-- A struct with fields of several types, read from a header with a keyword given twice. -/
example : ∃ h : Header Unit, Header.parse (fun _ => .ok ()) [.value "A".toList (.integer 1 none), .value "B".toList .undefined,
      .value "A".toList (.integer 7 none), .end_] = .ok h ∧
    Struct.deserialize [.option "B".toList (deserializeAny boolVisitor), .plain "A".toList (deserializeAny (intVisitor 0 255)),
      .default "C".toList (deserializeAny f64Visitor) (.fin false 1 0)] h.values =
      .ok ((none : Option Bool), (7 : Int), (Dec.fin false 1 0), ()) := ⟨_, rfl, rfl⟩

end Fitsrs

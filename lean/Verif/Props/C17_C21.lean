import Verif.Props.C09_C16
import Verif.Lemmas.Entries
import Verif.Spec.History
/-
C17, C18, C19 and C21: the keyword map of a header.
-/

namespace Fitsrs
open Spec

/-! ### Cards accepted by `process_cards` -/

theorem processLoop_ok_end {cards : List Card} {m m' : ValueMap} {kw : Option Str}
    (h : processLoop m kw cards = .ok m') : ∃ body, cards = body ++ [.end_] ∧ Card.end_ ∉ body := by
  induction cards generalizing m kw with
  | nil => simp [processLoop] at h
  | cons c cs ih =>
    have lift : c ≠ .end_ → (∃ body, cs = body ++ [.end_] ∧ Card.end_ ∉ body) →
        ∃ body, c :: cs = body ++ [.end_] ∧ Card.end_ ∉ body := by
      rintro hc ⟨body, h1, h2⟩
      exact ⟨c :: body, by rw [h1]; rfl, by simp [h2, Ne.symm hc]⟩
    conv at h => lhs; unfold processLoop
    cases c with
    | value n v => exact lift (by simp) (ih h)
    | hierarch n v => exact lift (by simp) (ih h)
    | xtension x d => exact lift (by simp) (ih h)
    | continuation s d =>
      dsimp only at h
      split at h
      · split at h
        · split at h
          · exact lift (by simp) (ih h)
          · simp at h
          · simp at h
        · simp at h
      · exact lift (by simp) (ih h)
    | end_ =>
      dsimp only at h
      split at h
      · rename_i he
        exact ⟨[], by rw [he]; rfl, by simp⟩
      · simp at h
    | comment t => exact lift (by simp) (ih h)
    | history t => exact lift (by simp) (ih h)
    | space => exact lift (by simp) (ih h)
    | undefined t => exact lift (by simp) (ih h)

theorem processCards_observed {cards : List Card} {m : ValueMap} (h : processCards cards = .ok m) :
    (∀ k, m.get k = lastValue (entries cards) k) ∧ m.keywords = firsts ((entries cards).map Prod.fst) := by
  obtain ⟨body, rfl, hb⟩ := processLoop_ok_end h
  obtain ⟨m', h1, h2, h3⟩ := processCards_spec body hb
  rw [h] at h1
  injection h1 with h1
  subst h1
  rw [entries_end]
  exact ⟨h2, h3⟩

/-! ### Facts on the specification, to make its meaning plain -/

theorem addNames_mem (acc l : List Str) (k : Str) : k ∈ addNames acc l ↔ k ∈ acc ∨ k ∈ l := by
  unfold addNames
  induction l generalizing acc with
  | nil => simp
  | cons a l ih =>
    rw [List.foldl_cons, ih]
    split
    · rename_i h
      simp only [List.mem_cons]
      constructor
      · rintro (h | h) <;> simp [h]
      · rintro (h' | rfl | h') <;> simp [*]
    · simp only [List.mem_append, List.mem_cons, List.not_mem_nil, or_false]
      constructor
      · rintro ((h | h) | h) <;> simp [h]
      · rintro (h | h | h) <;> simp [h]

theorem addNames_nodup (acc l : List Str) (h : acc.Nodup) : (addNames acc l).Nodup := by
  unfold addNames
  induction l generalizing acc with
  | nil => exact h
  | cons a l ih =>
    rw [List.foldl_cons]
    apply ih
    split
    · exact h
    · rename_i ha
      rw [List.nodup_append]
      refine ⟨h, by simp, ?_⟩
      intro x hx y hy
      simp at hy
      subst hy
      rintro rfl
      exact ha hx

theorem addNames_prefix (acc l : List Str) : acc <+: addNames acc l := by
  unfold addNames
  induction l generalizing acc with
  | nil => exact List.prefix_refl _
  | cons a l ih =>
    rw [List.foldl_cons]
    refine List.IsPrefix.trans ?_ (ih _)
    split
    · exact List.prefix_refl _
    · exact List.prefix_append _ _

/-! ## C17 -/

/-- **C17, lookup.** The value of a keyword is the last one given to it by a value, `HIERARCH` or `XTENSION`
record, extended by the `CONTINUE` records that follow. -/
theorem C17_lookup {X : Type} (parse : ValueMap → Res X) (cards : List Card) (h : Header X)
    (hp : Header.parse parse cards = .ok h) (k : Str) :
    h.values.get k = lastValue (entries cards) k := by
  unfold Header.parse at hp
  obtain ⟨m, hm, hp⟩ := Res.bind_eq_ok.1 hp
  obtain ⟨x, -, hp⟩ := Res.bind_eq_ok.1 hp
  simp at hp
  subst hp
  exact (processCards_observed hm).1 k

/-- **C17, keywords.** The keywords are the names given a value, each listed once, in the order of their first
appearance: the names of any first part of the header come first. -/
theorem C17_keywords {X : Type} (parse : ValueMap → Res X) (cards : List Card) (h : Header X)
    (hp : Header.parse parse cards = .ok h) :
    h.values.keywords = firsts ((entries cards).map Prod.fst) ∧
    h.values.keywords.Nodup ∧
    (∀ k, k ∈ h.values.keywords ↔ k ∈ (entries cards).map Prod.fst) ∧
    ∀ a b, (entries cards).map Prod.fst = a ++ b → firsts a <+: h.values.keywords := by
  unfold Header.parse at hp
  obtain ⟨m, hm, hp⟩ := Res.bind_eq_ok.1 hp
  obtain ⟨x, -, hp⟩ := Res.bind_eq_ok.1 hp
  simp at hp
  subst hp
  have hk := (processCards_observed hm).2
  refine ⟨hk, ?_, ?_, ?_⟩
  · dsimp only; rw [hk]; exact addNames_nodup [] _ (by simp)
  · intro k; dsimp only; rw [hk, firsts_eq, addNames_mem]; simp
  · intro a b hab
    dsimp only
    rw [hk, hab, firsts_eq, firsts_eq]
    have : addNames [] (a ++ b) = addNames (addNames [] a) b := List.foldl_append
    rw [this]
    exact addNames_prefix _ _

/-- Cards with a repeated keyword, a continued string and a comment in between. -/
def sampleCards : List Card :=
  [.value "A".toList (.integer 1 none), .value "B".toList (.string "x &".toList none),
   .value "A".toList (.string "long&".toList none), .comment "note".toList,
   .continuation (some "er&".toList) (some " c".toList), .continuation (some [' ']) none,
   .continuation (some "orphan".toList) none, .end_]

/-- A parser that accepts everything. -/
example (h : Header Unit) (hp : Header.parse (fun _ => .ok ()) sampleCards = .ok h) :
    h.values.get "A".toList = some (.string "longer".toList (some " c".toList)) ∧
    h.values.get "B".toList = some (.string "x &".toList none) ∧ h.values.get "C".toList = none ∧
    h.values.keywords = ["A".toList, "B".toList] := by
  rw [C17_lookup _ _ _ hp, C17_lookup _ _ _ hp, C17_lookup _ _ _ hp, (C17_keywords _ _ _ hp).1]
  decide +kernel

example : ∃ h, Header.parse (fun _ => .ok ()) sampleCards = .ok h := ⟨_, rfl⟩

/-! ## C19 -/

/-- **C19.** The cards of every header read from bytes (`HeaderAt`: the records up to the first `END`) are
processed without panic and without error. -/
theorem C19_total (data : List UInt8) (pos : Nat) (cards : List Card) (h : HeaderAt data pos cards) :
    ∃ m, processCards cards = .ok m := by
  have h0 := h.nonempty
  have hlast : cards = cards.dropLast ++ [Card.end_] := by
    have hne : cards ≠ [] := by rintro rfl; simp at h0
    have := List.dropLast_concat_getLast hne
    have he : cards.getLast hne = .end_ := by
      rw [List.getLast_eq_getElem]
      exact (h.endLast _ (by omega)).2 (by omega)
    rw [he] at this
    exact this.symm
  have hb : Card.end_ ∉ cards.dropLast := by
    intro hm
    obtain ⟨i, hi, he⟩ := List.mem_iff_getElem.1 hm
    rw [List.length_dropLast] at hi
    rw [List.getElem_dropLast] at he
    have := (h.endLast i (by omega)).1 he
    omega
  rw [hlast]
  obtain ⟨m, hm, -⟩ := processCards_spec _ hb
  exact ⟨m, hm⟩

/-- A `CONTINUE` record is an orphan after the cards `pre` if the last value given there, if any, is not a
string that still ends with an ampersand. -/
def Spec.Orphan (pre : List Card) : Prop :=
  ∀ k v, (entries pre).getLast? = some (k, v) → ∀ s c, v = .string s c → s.getLast? ≠ some '&'

theorem extend_append {pre : List Card} (X : List Card) (hb : Card.end_ ∉ pre) (v : Value) :
    extend v (pre ++ X) = if entries pre = [] then extend (extend v pre) X else extend v pre := by
  induction pre generalizing v with
  | nil => rfl
  | cons c pre ih =>
    have hb' : Card.end_ ∉ pre := fun h => hb (by simp [h])
    cases c with
    | value n w => simp [entries, extend]
    | hierarch n w => simp [entries, extend]
    | xtension x d => simp [entries, extend]
    | end_ => simp at hb
    | continuation s d =>
      by_cases hv : v.continued = true
      · obtain ⟨w, hw, -⟩ := joined_continued hv s d
        simp only [List.cons_append, extend, hw, entries]
        exact ih hb' w
      · have hv : v.continued = false := by simpa using hv
        rw [extend_not_continued hv, extend_not_continued hv, extend_not_continued hv]
        simp
    | comment t => exact ih hb' v
    | history t => exact ih hb' v
    | space => exact ih hb' v
    | undefined t => exact ih hb' v

theorem entries_orphan {pre post : List Card} {s c : Option Str} (hb : Card.end_ ∉ pre) (ho : Orphan pre) :
    entries (pre ++ .continuation s c :: post) = entries (pre ++ post) := by
  induction pre with
  | nil => rfl
  | cons d pre ih =>
    have hb' : Card.end_ ∉ pre := fun h => hb (by simp [h])
    have hval : ∀ n v, d = .value n v ∨ d = .hierarch n v →
        entries (d :: pre ++ .continuation s c :: post) = entries (d :: pre ++ post) := by
      intro n v hd
      have he : ∀ Y, entries (d :: pre ++ Y) = (n, extend v (pre ++ Y)) :: entries (pre ++ Y) := by
        intro Y; rcases hd with rfl | rfl <;> rfl
      have he0 : entries (d :: pre) = (n, extend v pre) :: entries pre := by
        rcases hd with rfl | rfl <;> rfl
      have ho' : Orphan pre := by
        intro k w hw
        apply ho k w
        rw [he0, List.getLast?_cons, hw]; rfl
      rw [he, he, ih hb' ho', extend_append _ hb', extend_append _ hb']
      by_cases h0 : entries pre = []
      · rw [if_pos h0, if_pos h0]
        have hn : (extend v pre).continued = false := by
          rw [Bool.eq_false_iff, ne_eq, continued_iff]
          rintro ⟨t, e, h1, h2⟩
          refine ho n _ ?_ t e h1 h2
          rw [he0, h0]; rfl
        rw [extend_not_continued hn, extend_not_continued hn]
      · rw [if_neg h0, if_neg h0]
    cases d with
    | value n v => exact hval n v (.inl rfl)
    | hierarch n v => exact hval n v (.inr rfl)
    | xtension x e =>
      have ho' : Orphan pre := by
        intro k w hw
        apply ho k w
        show (("XTENSION".toList, Value.string (xtensionName x) none) :: entries pre).getLast? = _
        rw [List.getLast?_cons, hw]; rfl
      simp only [List.cons_append, entries, ih hb' ho']
    | end_ => simp at hb
    | continuation t e => exact ih hb' ho
    | comment t => exact ih hb' ho
    | history t => exact ih hb' ho
    | space => exact ih hb' ho
    | undefined t => exact ih hb' ho

/-- **C19, orphans.** A `CONTINUE` record that does not follow a continued string changes nothing: the map is
the same as without it. -/
theorem C19_orphan (pre post : List Card) (s c : Option Str) (hb : Card.end_ ∉ pre) (ho : Orphan pre)
    (m m' : ValueMap) (h : processCards (pre ++ .continuation s c :: post) = .ok m)
    (h' : processCards (pre ++ post) = .ok m') :
    (∀ k, m.get k = m'.get k) ∧ m.keywords = m'.keywords := by
  obtain ⟨h1, h2⟩ := processCards_observed h
  obtain ⟨h3, h4⟩ := processCards_observed h'
  rw [entries_orphan hb ho] at h1 h2
  exact ⟨fun k => by rw [h1, h3], by rw [h2, h4]⟩

example : Orphan (sampleCards.take 6) ∧ ¬ Orphan (sampleCards.take 5) := by
  have e6 : entries (sampleCards.take 6) = [("A".toList, .integer 1 none), ("B".toList, .string "x &".toList none),
      ("A".toList, .string "longer".toList (some " c".toList))] := by decide +kernel
  have e5 : entries (sampleCards.take 5) = [("A".toList, .integer 1 none), ("B".toList, .string "x &".toList none),
      ("A".toList, .string "longer&".toList (some " c".toList))] := by decide +kernel
  constructor
  · intro k v h t d hv
    rw [e6] at h
    simp at h
    rw [← h.2] at hv
    injection hv with h1 h2
    subst h1
    decide
  · intro h
    have := h "A".toList _ (by rw [e5]; rfl) _ _ rfl
    revert this; decide

/-! ## C18 -/

theorem continueRecord_read (s : Str) (lead pad : Nat) (comment : Option Str) (hs : Printable s)
    (hc : ∀ t, comment = some t → Printable t) :
    Card.tryFrom (continueRecord (field lead (quoted s) pad comment)) =
      .ok (.continuation (some (fitsString s)) (commentOf comment)) := by
  have e : continueRecord (field lead (quoted s) pad comment) =
      toBytes (keywordField "CONTINUE".toList) ++ toBytes (field (lead + 2) (quoted s) pad comment) := by
    unfold continueRecord
    rw [← toBytes_append]
    congr 1
  unfold Card.tryFrom
  rw [e, keyword_read (by unfold Printable; decide) (by decide) (by decide)]
  show parseContinuation _ = _
  unfold parseContinuation
  rw [drop_keyword (by decide), split_quoted hs hc]
  show Res.map _ (parseString ('\'' :: (s ++ ['\'']))) = _
  rw [parseString_quoted hs]
  rfl

/-- The cards read from the records of a long string. -/
def continueCards : List Piece → List Card
  | [] => []
  | q :: qs => q.notes.map (fun t => .comment (commentaryText t)) ++
      .continuation (some (fitsString (q.text ++ amp qs))) (commentOf q.comment) :: continueCards qs

/-- Legal pieces. -/
def Spec.PiecesOk (qs : List Piece) : Prop :=
  ∀ q ∈ qs, Printable q.text ∧ ∀ t, q.comment = some t → Printable t

theorem printable_amp {s : Str} (h : Printable s) (qs : List Piece) : Printable (s ++ amp qs) := by
  refine h.append ?_
  intro c hc
  cases qs with
  | nil => simp [amp] at hc
  | cons q qs => simp [amp] at hc; subst hc; decide

theorem continueCards_read {qs : List Piece} (h : PiecesOk qs) : CardsOf (continueRecords qs) (continueCards qs) := by
  unfold CardsOf
  induction qs with
  | nil => rfl
  | cons q qs ih =>
    have hq := h q (by simp)
    simp only [continueRecords, continueCards, List.map_append, List.map_cons, List.map_map,
      ih (fun x hx => h x (by simp [hx]))]
    congr 1
    · apply List.map_congr_left
      intro t _
      simp only [Function.comp]
      unfold recordCard
      rw [(C14_commentary t).1]
    · congr 1
      unfold recordCard
      rw [continueRecord_read _ _ _ _ (printable_amp hq.1 qs) hq.2]

theorem fitsString_amp (s : Str) : fitsString (s ++ ['&']) = s ++ ['&'] := by
  have h1 : stripEnd (s ++ ['&']) = s ++ ['&'] := stripEnd_id (by rw [List.getLast?_concat]; decide)
  unfold fitsString
  rw [h1, if_neg (by simp), if_neg (by simp)]

theorem extend_notes (v : Value) (notes : List (List UInt8)) (cs : List Card) :
    extend v (notes.map (fun t => Card.comment (commentaryText t)) ++ cs) = extend v cs := by
  induction notes with
  | nil => rfl
  | cons t notes ih => exact ih

/-- The comments of the pieces, joined to that of the first record. -/
def Spec.joinedComments (c : Option Str) (qs : List Piece) : Option Str :=
  qs.foldl (fun c q => joinComments c (commentOf q.comment)) c

theorem stripEnd_append {a b : Str} : stripEnd (a ++ b) = if stripEnd b = [] then stripEnd a else a ++ stripEnd b := by
  obtain ⟨n, hn⟩ := stripEnd_spec b
  split
  · rename_i h
    rw [h] at hn
    rw [hn]
    simp only [List.nil_append]
    exact stripEnd_append_blank a n
  · rename_i h
    conv => lhs; rw [hn, ← List.append_assoc, stripEnd_append_blank]
    apply stripEnd_id
    rw [List.getLast?_append]
    have := stripEnd_last b
    cases hl : (stripEnd b).getLast? with
    | none => simp at hl; exact absurd hl h
    | some x => rw [hl] at this; simpa using this

theorem extend_pieces {qs : List Piece} (hq : PiecesOk qs) (h0 : qs ≠ []) (acc : Str) (ha : Printable acc)
    (c : Option Str) (post : List Card)
    (hend : (stripEnd (acc ++ pieces qs)).getLast? ≠ some '&') :
    extend (.string (acc ++ ['&']) c) (continueCards qs ++ post) =
      .string (stripEnd (acc ++ pieces qs)) (joinedComments c qs) := by
  induction qs generalizing acc c with
  | nil => exact absurd rfl h0
  | cons q qs ih =>
    have hq1 := hq q (by simp)
    have hqs : PiecesOk qs := fun x hx => hq x (by simp [hx])
    simp only [continueCards, List.append_assoc, extend_notes, List.cons_append, extend]
    cases qs with
    | cons q' qs =>
      have hj : joined (.string (acc ++ ['&']) c) (some (fitsString (q.text ++ amp (q' :: qs)))) (commentOf q.comment)
          = some (.string ((acc ++ q.text) ++ ['&']) (joinComments c (commentOf q.comment))) := by
        show joined _ (some (fitsString (q.text ++ ['&']))) _ = _
        rw [fitsString_amp]
        unfold joined
        dsimp only
        rw [if_pos (by rw [List.getLast?_concat]), if_neg]
        · simp
        · have : ∀ t : Str, q.text ++ ['&'] = t → t.getLast? = some '&' := by
            rintro t rfl; rw [List.getLast?_concat]
          simp only [List.mem_cons, reduceCtorEq, Option.some.injEq, List.not_mem_nil, or_false, false_or]
          rintro (h | h)
          · have := this _ h; simp at this
          · have := this _ h; simp at this
      rw [hj]
      have he : acc ++ pieces (q :: q' :: qs) = (acc ++ q.text) ++ pieces (q' :: qs) := by
        simp [pieces]
      rw [he] at hend ⊢
      dsimp only
      rw [ih hqs (by simp) (acc ++ q.text) (ha.append hq1.1) _ hend]
      rfl
    | nil =>
      have he : acc ++ pieces [q] = acc ++ q.text := by simp [pieces]
      rw [he] at hend ⊢
      have hj : joined (.string (acc ++ ['&']) c) (some (fitsString (q.text ++ amp []))) (commentOf q.comment)
          = some (.string (stripEnd (acc ++ q.text)) (joinComments c (commentOf q.comment))) := by
        show joined _ (some (fitsString (q.text ++ []))) _ = _
        rw [List.append_nil]
        unfold joined
        dsimp only
        rw [if_pos (by rw [List.getLast?_concat]), List.dropLast_concat, trimEndStr_printable ha, stripEnd_append]
        congr 2
        unfold fitsString
        by_cases h1 : q.text = []
        · rw [if_pos h1, h1]
          rw [if_pos (by simp), if_pos (by rfl)]
        · rw [if_neg h1]
          by_cases h2 : stripEnd q.text = []
          · rw [if_pos h2, if_pos (by simp), if_pos h2]
          · rw [if_neg h2, if_neg h2, if_neg]
            · rfl
            · simp only [List.mem_cons, reduceCtorEq, Option.some.injEq, h2, List.not_mem_nil, or_false, false_or]
              intro h3
              have := stripEnd_last q.text
              rw [h3] at this
              simp at this
      rw [hj]
      dsimp only
      simp only [continueCards, List.nil_append]
      have hn : (Value.string (stripEnd (acc ++ q.text)) (joinComments c (commentOf q.comment))).continued = false := by
        rw [Bool.eq_false_iff, ne_eq, continued_iff]
        rintro ⟨t, e, h1, h2⟩
        injection h1 with h1 _
        rw [← h1] at h2
        exact hend h2
      rw [extend_not_continued hn]
      rfl

theorem entries_prefix (pre X : List Card) : ∃ es, entries (pre ++ X) = es ++ entries X := by
  induction pre with
  | nil => exact ⟨[], rfl⟩
  | cons c pre ih =>
    obtain ⟨es, h⟩ := ih
    cases c with
    | value n v => exact ⟨(n, extend v (pre ++ X)) :: es, by simp [entries, h]⟩
    | hierarch n v => exact ⟨(n, extend v (pre ++ X)) :: es, by simp [entries, h]⟩
    | xtension x d => exact ⟨(_, _) :: es, by rw [List.cons_append, entries, h]; rfl⟩
    | _ => exact ⟨es, h⟩

theorem entries_continueCards (qs : List Piece) (post : List Card) :
    entries (continueCards qs ++ post) = entries post := by
  induction qs with
  | nil => rfl
  | cons q qs ih =>
    have hn : ∀ (notes : List (List UInt8)) (X : List Card),
        entries (notes.map (fun t => Card.comment (commentaryText t)) ++ X) = entries X := by
      intro notes X
      induction notes with
      | nil => rfl
      | cons t notes ih => exact ih
    simp only [continueCards, List.append_assoc, hn, List.cons_append, entries]
    exact ih

theorem lastValue_append_some {es es' : List (Str × Value)} {k : Str} {v : Value}
    (h : lastValue es' k = some v) : lastValue (es ++ es') k = some v := by
  unfold lastValue at *
  rw [List.filter_append, List.getLast?_append]
  cases hl : (es'.filter fun e => e.1 = k).getLast? with
  | none => rw [hl] at h; simp at h
  | some x => rw [hl] at h; simpa using h

theorem lastValue_none {es : List (Str × Value)} {k : Str} (h : ∀ e ∈ es, e.1 ≠ k) : lastValue es k = none := by
  unfold lastValue
  rw [List.filter_eq_nil_iff.2 (by simpa using h)]
  rfl

/-- **C18.** A string written in several pieces, the first in a value record and the others in `CONTINUE`
records, all but the last ending with an ampersand, possibly with comment records in between, is read as the
concatenation of the pieces (trailing blanks are not significant), at any place in the header, unless the same
keyword is given another value later.  (A string that itself ends with an ampersand cannot be told from a
continued one and is excluded.) -/
theorem C18_long_string (kw first : Str) (lead pad : Nat) (comment : Option Str) (qs : List Piece) (hk : Name kw)
    (hf : Printable first) (hc : ∀ t, comment = some t → Printable t) (hq : PiecesOk qs) (h0 : qs ≠ [])
    (hend : (stripEnd (first ++ pieces qs)).getLast? ≠ some '&') :
    ∃ mid, CardsOf (longRecords kw first lead pad comment qs) mid ∧
      ∀ (pre post : List Card) (m : ValueMap), (∀ e ∈ entries post, e.1 ≠ kw) →
        processCards (pre ++ mid ++ post) = .ok m →
        m.get kw = some (.string (stripEnd (first ++ pieces qs)) (joinedComments (commentOf comment) qs)) := by
  have hamp : amp qs = ['&'] := by cases qs with | nil => exact absurd rfl h0 | cons => rfl
  refine ⟨.value kw (.string (first ++ ['&']) (commentOf comment)) :: continueCards qs, ?_, ?_⟩
  · unfold CardsOf longRecords
    have := continueCards_read hq
    unfold CardsOf at this
    rw [List.map_cons, List.map_cons, this]
    congr 1
    unfold recordCard
    rw [C10_string_round_trip kw _ lead pad comment hk (printable_amp hf qs) hc, hamp, fitsString_amp]
  · intro pre post m hpost hm
    rw [(processCards_observed hm).1 kw, List.append_assoc]
    obtain ⟨es, he⟩ := entries_prefix pre
      (.value kw (.string (first ++ ['&']) (commentOf comment)) :: continueCards qs ++ post)
    rw [he]
    apply lastValue_append_some
    rw [List.cons_append, entries, lastValue_cons, entries_continueCards, lastValue_none hpost,
      extend_pieces hq h0 first hf _ post hend]
    simp

/-- Three pieces, with blanks at the seams and a comment record. -/
example : ∃ mid,
    CardsOf
      [toBytes "OBSERVER= 'Edwin &' / who".toList, toBytes "CONTINUE  ' Powell&'".toList,
       toBytes "COMMENT  note".toList, toBytes "CONTINUE  ' Hubble  ' / name".toList] mid ∧
      ∀ m, processCards ([.space] ++ mid ++ [.end_]) = .ok m →
        m.get "OBSERVER".toList =
          some (.string "Edwin  Powell Hubble".toList (some " who\n name".toList)) := by
  obtain ⟨mid, h1, h2⟩ := C18_long_string "OBSERVER".toList "Edwin ".toList 0 1 (some " who".toList)
    [⟨[], " Powell".toList, 0, 0, none⟩, ⟨[toBytes " note".toList], " Hubble  ".toList, 0, 1, some " name".toList⟩]
    ⟨by decide, by decide, by decide, by decide⟩ (by unfold Printable; decide)
    (by rintro t ⟨rfl⟩; unfold Printable; decide)
    (by
      intro q hq
      simp only [List.mem_cons, List.not_mem_nil, or_false] at hq
      rcases hq with rfl | rfl
      · exact ⟨by unfold Printable; decide, by simp⟩
      · exact ⟨by unfold Printable; decide, by rintro t ⟨rfl⟩; unfold Printable; decide⟩)
    (by simp) (by decide)
  have e : longRecords "OBSERVER".toList "Edwin ".toList 0 1 (some " who".toList)
      [⟨[], " Powell".toList, 0, 0, none⟩, ⟨[toBytes " note".toList], " Hubble  ".toList, 0, 1, some " name".toList⟩] =
      [toBytes "OBSERVER= 'Edwin &' / who".toList, toBytes "CONTINUE  ' Powell&'".toList,
       toBytes "COMMENT  note".toList, toBytes "CONTINUE  ' Hubble  ' / name".toList] := by decide +kernel
  rw [e] at h1
  refine ⟨mid, h1, fun m hm => ?_⟩
  have h3 := h2 [.space] [.end_] m (by simp [entries]) hm
  rw [h3]
  decide +kernel

/-! ## C21 -/

/-- **C21, integers.** Access at an integer type succeeds exactly on integer values in range, and returns that
integer. -/
theorem C21_integers (m : ValueMap) (k : Str) :
    (∀ n, m.getI64 k = .ok n ↔ ∃ c, m.get k = some (.integer n c)) ∧
    (∀ lo hi n, m.getInt lo hi k = .ok n ↔ (∃ c, m.get k = some (.integer n c)) ∧ lo ≤ n ∧ n ≤ hi) ∧
    (∀ n : Nat, m.getU64 k = .ok n ↔ ∃ c, m.get k = some (.integer n c)) ∧
    ∀ n : Nat, m.getU8 k = .ok n ↔ (∃ c, m.get k = some (.integer n c)) ∧ n ≤ 255 := by
  have h1 : ∀ n, m.getI64 k = .ok n ↔ ∃ c, m.get k = some (.integer n c) := by
    intro n
    unfold ValueMap.getI64
    split
    · rename_i n' c h
      rw [h]
      constructor
      · intro h; injection h with h; subst h; exact ⟨c, rfl⟩
      · rintro ⟨c, h⟩; injection h with h; injection h with h1 h2; rw [h1]
    · rename_i h
      constructor
      · intro h; simp at h
      · rintro ⟨c, hc⟩; exact absurd hc (h _ _)
  have h2 : ∀ lo hi n, m.getInt lo hi k = .ok n ↔ (∃ c, m.get k = some (.integer n c)) ∧ lo ≤ n ∧ n ≤ hi := by
    intro lo hi n
    unfold ValueMap.getInt
    rw [Res.bind_eq_ok]
    constructor
    · rintro ⟨n', h, h'⟩
      split at h'
      · rename_i hr
        injection h' with h'
        subst h'
        exact ⟨(h1 _).1 h, hr⟩
      · simp at h'
    · rintro ⟨h, hr⟩
      exact ⟨n, (h1 n).2 h, by rw [if_pos hr]⟩
  refine ⟨h1, h2, ?_, ?_⟩
  · intro n
    unfold ValueMap.getU64
    rw [Res.bind_eq_ok]
    constructor
    · rintro ⟨n', h, h'⟩
      split at h'
      · rename_i hr
        injection h' with h'
        have : (n : Int) = n' := by omega
        rw [this]
        exact (h1 _).1 h
      · simp at h'
    · intro h
      exact ⟨n, (h1 n).2 h, by rw [if_pos (by omega)]; simp⟩
  · intro n
    unfold ValueMap.getU8
    rw [Res.bind_eq_ok]
    constructor
    · rintro ⟨n', h, h'⟩
      injection h' with h'
      obtain ⟨h3, h4, h5⟩ := (h2 0 255 n').1 h
      have : (n : Int) = n' := by omega
      rw [this]
      exact ⟨h3, by omega⟩
    · rintro ⟨h, hr⟩
      exact ⟨n, (h2 0 255 n).2 ⟨h, by omega, by omega⟩, by simp⟩

/-- **C21, `Bitpix`.** Access as a pixel type succeeds exactly on 8, 16, 32, 64, -32 and -64, and returns the
pixel type of that code. -/
theorem C21_bitpix (m : ValueMap) (k : Str) (b : Bitpix) :
    (m.getBitpix k = .ok b ↔ ∃ c, m.get k = some (.integer b.code c)) ∧
    ((∃ b, m.getBitpix k = .ok b) ↔
      ∃ n ∈ ([8, 16, 32, 64, -32, -64] : List Int), ∃ c, m.get k = some (.integer n c)) := by
  have h1 : ∀ b, m.getBitpix k = .ok b ↔ ∃ c, m.get k = some (.integer b.code c) := by
    intro b
    unfold ValueMap.getBitpix
    rw [Res.bind_eq_ok]
    constructor
    · rintro ⟨n, h, h'⟩
      obtain ⟨⟨c, hc⟩, -⟩ := ((C21_integers m k).2.1 _ _ n).1 h
      split at h'
      · rename_i b' hb
        injection h' with h'
        subst h'
        refine ⟨c, ?_⟩
        rw [hc]
        unfold Bitpix.ofCode at hb
        repeat' split at hb
        all_goals first
          | (injection hb with hb; subst hb; subst n; rfl)
          | simp at hb
      · simp at h'
    · rintro ⟨c, hc⟩
      refine ⟨b.code, ((C21_integers m k).2.1 _ _ _).2 ⟨⟨c, hc⟩, ?_⟩, ?_⟩
      · cases b <;> decide
      · cases b <;> rfl
  refine ⟨h1 b, ?_⟩
  constructor
  · rintro ⟨b, hb⟩
    refine ⟨b.code, by cases b <;> decide, (h1 b).1 hb⟩
  · rintro ⟨n, hn, hc⟩
    simp only [List.mem_cons, List.not_mem_nil, or_false] at hn
    rcases hn with rfl | rfl | rfl | rfl | rfl | rfl
    · exact ⟨.u8, (h1 .u8).2 hc⟩
    · exact ⟨.i16, (h1 .i16).2 hc⟩
    · exact ⟨.i32, (h1 .i32).2 hc⟩
    · exact ⟨.i64, (h1 .i64).2 hc⟩
    · exact ⟨.f32, (h1 .f32).2 hc⟩
    · exact ⟨.f64, (h1 .f64).2 hc⟩

/-- **C21, optional access.** It returns `None` exactly for missing and undefined values, and otherwise what
access at the underlying type returns. -/
theorem C21_option {α : Type} (f : ValueMap → Str → Res α) (m : ValueMap) (k : Str) :
    (m.getOpt f k = .ok none ↔ m.get k = none ∨ m.get k = some .undefined) ∧
    ∀ x, m.getOpt f k = .ok (some x) ↔ m.get k ≠ none ∧ m.get k ≠ some .undefined ∧ f m k = .ok x := by
  unfold ValueMap.getOpt
  split
  · rename_i h; simp [h]
  · rename_i h; simp [h]
  · rename_i v hv h
    rw [h]
    have hv : v ≠ .undefined := by simpa using hv
    cases hf : f m k <;> simp [Res.map, hv]

/-- **C21, other types.** Logical and string access succeed exactly on values of that kind (the text of a value
that could not be parsed is also a string). -/
theorem C21_others (m : ValueMap) (k : Str) :
    (∀ b, m.getBool k = .ok b ↔ ∃ c, m.get k = some (.logical b c)) ∧
    (∀ s, m.getString k = .ok s ↔ (∃ c, m.get k = some (.string s c)) ∨ m.get k = some (.invalid s)) := by
  constructor
  · intro b
    unfold ValueMap.getBool
    split
    · rename_i b' c h
      rw [h]; simp
    · rename_i h
      constructor
      · intro h; simp at h
      · rintro ⟨c, hc⟩; exact absurd hc (h _ _)
  · intro s
    unfold ValueMap.getString
    split
    · rename_i b' c h
      rw [h]; simp
    · rename_i b' h
      rw [h]; simp
    · rename_i h h'
      constructor
      · intro h; simp at h
      · rintro (⟨c, hc⟩ | hc)
        · exact absurd hc (h _ _)
        · exact absurd hc (h' _)

/-- **C21, no panic.** Typed access never panics. -/
theorem C21_no_panic (m : ValueMap) (k : Str) :
    m.getI64 k ≠ .panic ∧ (∀ lo hi, m.getInt lo hi k ≠ .panic) ∧ m.getU64 k ≠ .panic ∧ m.getU8 k ≠ .panic ∧
      m.getBitpix k ≠ .panic ∧ m.getBool k ≠ .panic ∧ m.getString k ≠ .panic ∧ m.getF64 k ≠ .panic := by
  have h1 : m.getI64 k ≠ .panic := by unfold ValueMap.getI64; split <;> simp
  have h2 : ∀ lo hi, m.getInt lo hi k ≠ .panic := by
    intro lo hi h
    unfold ValueMap.getInt at h
    rcases Res.bind_eq_panic.1 h with h | ⟨n, -, h⟩
    · exact h1 h
    · split at h <;> simp at h
  refine ⟨h1, h2, ?_, ?_, ?_, ?_, ?_, ?_⟩
  · intro h
    unfold ValueMap.getU64 at h
    rcases Res.bind_eq_panic.1 h with h | ⟨n, -, h⟩
    · exact h1 h
    · split at h <;> simp at h
  · intro h
    unfold ValueMap.getU8 at h
    rcases Res.bind_eq_panic.1 h with h | ⟨n, -, h⟩
    · exact h2 _ _ h
    · simp at h
  · intro h
    unfold ValueMap.getBitpix at h
    rcases Res.bind_eq_panic.1 h with h | ⟨n, -, h⟩
    · exact h2 _ _ h
    · split at h <;> simp at h
  · unfold ValueMap.getBool; split <;> simp
  · unfold ValueMap.getString; split <;> simp
  · unfold ValueMap.getF64; split <;> simp

/-- **C21, from the record.** An integer written in a value record, whatever its layout, is returned by typed
access to the header it is in, provided the keyword is not given another value later. -/
theorem C21_from_record (kw : Str) (n : Nat) (zeros lead pad : Nat) (comment : Option Str) (hk : Name kw)
    (hc : ∀ t, comment = some t → Printable t) (hn : n < 2 ^ 63) :
    ∃ card, recordCard (valueRecord kw (field lead (intText none zeros n) pad comment)) = .ok card ∧
      ∀ (pre post : List Card) (m : ValueMap), (∀ e ∈ entries post, e.1 ≠ kw) →
        processCards (pre ++ card :: post) = .ok m → m.getU64 kw = .ok n ∧ m.getOpt ValueMap.getU64 kw = .ok (some n) := by
  refine ⟨.value kw (.integer n (commentOf comment)), ?_, ?_⟩
  · have := C11_round_trip kw n false zeros lead pad comment hk hc (by omega) (by omega)
    rw [if_neg (by omega), if_neg (by simp)] at this
    unfold recordCard
    simp only [Int.natAbs_natCast] at this
    rw [this]
  · intro pre post m hpost hm
    have hg : m.get kw = some (.integer n (commentOf comment)) := by
      rw [(processCards_observed hm).1 kw]
      obtain ⟨es, he⟩ := entries_prefix pre (.value kw (.integer n (commentOf comment)) :: post)
      rw [he]
      apply lastValue_append_some
      rw [entries, lastValue_cons, lastValue_none hpost, extend_not_continued (by rfl)]
      simp
    have h1 := ((C21_integers m kw).2.2.1 n).2 ⟨_, hg⟩
    exact ⟨h1, ((C21_option _ m kw).2 n).2 ⟨by simp [hg], by simp [hg], h1⟩⟩

/-- A map with values of several kinds. -/
def sampleMap : ValueMap :=
  [("A".toList, .integer 255 none), ("B".toList, .integer 256 none), ("C".toList, .integer (-32) none),
   ("D".toList, .float (.fin false 8 0) none), ("E".toList, .undefined), ("F".toList, .logical true none),
   ("G".toList, .invalid "x".toList)]

example : sampleMap.getU8 "A".toList = .ok 255 ∧ sampleMap.getU8 "B".toList = .err .dynamic ∧
    sampleMap.getU64 "B".toList = .ok 256 ∧ sampleMap.getU64 "C".toList = .err .dynamic ∧
    sampleMap.getBitpix "C".toList = .ok .f32 ∧ sampleMap.getBitpix "D".toList = .err .dynamic ∧
    sampleMap.getOpt ValueMap.getU8 "E".toList = .ok none ∧ sampleMap.getOpt ValueMap.getU8 "Z".toList = .ok none ∧
    sampleMap.getOpt ValueMap.getU8 "B".toList = .err .dynamic ∧ sampleMap.getBool "F".toList = .ok true ∧
    sampleMap.getString "G".toList = .ok "x".toList := by decide +kernel

end Fitsrs

import Verif.Model.Header
import Verif.Spec.Entries
/-
Helper lemmas on the keyword map.
-/

namespace Fitsrs
open Spec

theorem ValueMap.get_insert (m : ValueMap) (k k' : Str) (v : Value) :
    (m.insert k v).get k' = if k' = k then some v else m.get k' := by
  induction m with
  | nil =>
    by_cases h : k = k'
    · simp [insert, get, h]
    · simp [insert, get, h, Ne.symm h]
  | cons e m ih =>
    obtain ⟨a, w⟩ := e
    simp only [insert]
    by_cases ha : a = k
    · rw [if_pos ha]
      simp only [get]
      by_cases h : k = k'
      · simp [h]
      · rw [if_neg h, if_neg (Ne.symm h), if_neg (by rw [ha]; exact h)]
    · rw [if_neg ha]
      simp only [get]
      rw [ih]
      by_cases h : a = k'
      · rw [if_pos h, if_pos h, if_neg (by rw [← h]; exact ha)]
      · rw [if_neg h, if_neg h]

theorem ValueMap.keywords_insert (m : ValueMap) (k : Str) (v : Value) :
    (m.insert k v).keywords = if k ∈ m.keywords then m.keywords else m.keywords ++ [k] := by
  unfold keywords
  induction m with
  | nil => simp [insert]
  | cons e m ih =>
    obtain ⟨a, w⟩ := e
    simp only [insert]
    by_cases ha : a = k
    · rw [if_pos ha]
      simp [ha]
    · rw [if_neg ha]
      simp only [List.map_cons, ih, List.mem_cons, Ne.symm ha, false_or]
      by_cases hm : k ∈ m.map Prod.fst
      · rw [if_pos hm, if_pos hm]
      · rw [if_neg hm, if_neg hm]; rfl

theorem ValueMap.mem_keywords_iff (m : ValueMap) (k : Str) : k ∈ m.keywords ↔ m.get k ≠ none := by
  unfold keywords
  induction m with
  | nil => simp [get]
  | cons e m ih =>
    obtain ⟨a, w⟩ := e
    simp only [List.map_cons, List.mem_cons, get]
    by_cases ha : a = k
    · simp [ha]
    · rw [if_neg ha, ← ih]
      simp [Ne.symm ha]

/-- Names added to a list of names. -/
def addNames (acc l : List Str) : List Str := l.foldl (fun acc k => if k ∈ acc then acc else acc ++ [k]) acc

theorem firsts_eq (l : List Str) : firsts l = addNames [] l := rfl

theorem continued_iff (v : Value) : v.continued = true ↔ ∃ s c, v = .string s c ∧ s.getLast? = some '&' := by
  cases v <;> simp [Value.continued]

theorem joined_continued {v : Value} (h : v.continued = true) (s c : Option Str) :
    ∃ w, joined v s c = some w ∧ v.append s c = .ok w := by
  obtain ⟨t, d, rfl, ht⟩ := (continued_iff v).1 h
  have hc : appendComment d c = joinComments d c := by
    cases d <;> cases c <;> simp [appendComment, joinComments]
  unfold joined Value.append appendString
  dsimp only
  rw [if_pos ht, if_pos ht, hc]
  refine ⟨_, rfl, ?_⟩
  cases s with
  | none => rfl
  | some u =>
    dsimp only
    by_cases hu : u = [] ∨ u = [' ']
    · rw [if_pos hu, if_pos (by simpa using hu)]; rfl
    · rw [if_neg hu, if_neg (by simpa using hu)]; rfl

theorem joined_not_continued {v : Value} (h : v.continued = false) (s c : Option Str) :
    joined v s c = none := by
  cases v with
  | string t d =>
    unfold joined
    dsimp only
    rw [if_neg]
    simpa [Value.continued] using h
  | _ => rfl

theorem extend_not_continued {v : Value} (h : v.continued = false) (cs : List Card) : extend v cs = v := by
  induction cs with
  | nil => rfl
  | cons c cs ih =>
    cases c <;> simp only [extend] <;> first | exact ih | (rw [joined_not_continued h])

/-- The value of a keyword after the remaining cards, if none of them gives it another one. -/
def baseValue (m : ValueMap) (kw : Option Str) (cs : List Card) (k : Str) : Option Value :=
  if kw = some k then (m.get k).map fun v => extend v cs else m.get k

theorem lastValue_cons (e : Str × Value) (es : List (Str × Value)) (k : Str) :
    lastValue (e :: es) k = (lastValue es k).or (if e.1 = k then some e.2 else none) := by
  unfold lastValue
  by_cases h : e.1 = k
  · rw [List.filter_cons_of_pos (by simpa using h), if_pos h, List.getLast?_cons]
    cases (es.filter fun e => e.1 = k).getLast? <;> rfl
  · rw [List.filter_cons_of_neg (by simpa using h), if_neg h]
    simp

/-- What the loop computes. -/
theorem processLoop_spec (body : List Card) (hb : Card.end_ ∉ body) (m : ValueMap) (kw : Option Str)
    (hkw : ∀ n, kw = some n → ∃ v, m.get n = some v ∧ v.continued = true) :
    ∃ m', processLoop m kw (body ++ [.end_]) = .ok m' ∧
      (∀ k, m'.get k = (lastValue (entries (body ++ [.end_])) k).or (baseValue m kw (body ++ [.end_]) k)) ∧
      m'.keywords = addNames m.keywords ((entries (body ++ [.end_])).map Prod.fst) := by
  induction body generalizing m kw with
  | nil =>
    refine ⟨m, rfl, ?_, rfl⟩
    intro k
    simp only [List.nil_append, entries, baseValue, extend]
    unfold lastValue
    simp
  | cons c body ih =>
    have hb' : Card.end_ ∉ body := fun h => hb (by simp [h])
    have hc : c ≠ .end_ := by rintro rfl; simp at hb
    generalize hcs : body ++ [Card.end_] = cs at ih
    have hcs0 : cs ≠ [] := by rw [← hcs]; simp
    rw [List.cons_append, hcs]
    -- a record that gives a value
    have hval : ∀ n v, ∃ m', processLoop (m.insert n v) (if v.continued then some n else none) cs = .ok m' ∧
        (∀ k, m'.get k = (lastValue ((n, extend v cs) :: entries cs) k).or (m.get k)) ∧
        m'.keywords = addNames m.keywords (n :: (entries cs).map Prod.fst) := by
      intro n v
      obtain ⟨m', h1, h2, h3⟩ := ih hb' (m.insert n v) (if v.continued then some n else none) (by
        intro n' hn'
        split at hn'
        · injection hn' with hn'
          subst hn'
          rename_i hv
          exact ⟨v, by rw [ValueMap.get_insert, if_pos rfl], hv⟩
        · simp at hn')
      refine ⟨m', h1, ?_, ?_⟩
      · intro k
        rw [h2 k, lastValue_cons]
        unfold baseValue
        rw [ValueMap.get_insert]
        by_cases hk : n = k
        · subst hk
          simp only [if_true]
          by_cases hv : v.continued = true
          · simp [hv]
          · have hv : v.continued = false := by simpa using hv
            rw [extend_not_continued hv]
            simp [hv]
        · rw [if_neg hk]
          have : (if v.continued = true then some n else none) ≠ some k := by
            split
            · simpa using hk
            · simp
          rw [if_neg this, if_neg (Ne.symm hk)]
          simp
      · rw [h3, ValueMap.keywords_insert]
        rfl
    -- a record without effect
    have hskip : (∀ v, extend v (c :: cs) = extend v cs) → entries (c :: cs) = entries cs →
        ∃ m', processLoop m kw cs = .ok m' ∧
        (∀ k, m'.get k = (lastValue (entries (c :: cs)) k).or (baseValue m kw (c :: cs) k)) ∧
        m'.keywords = addNames m.keywords ((entries (c :: cs)).map Prod.fst) := by
      intro h1 h2
      obtain ⟨m', h3, h4, h5⟩ := ih hb' m kw hkw
      refine ⟨m', h3, ?_, by rw [h2, h5]⟩
      intro k
      rw [h4, h2]
      unfold baseValue
      simp only [h1]
    -- a record after which the current value is complete
    have hbase : (∀ v, extend v (c :: cs) = v) → ∀ k, baseValue m kw (c :: cs) k = m.get k := by
      intro h k
      unfold baseValue
      simp only [h]
      split
      · simp
      · rfl
    cases c with
    | value n v =>
      obtain ⟨m', h1, h2, h3⟩ := hval n v
      exact ⟨m', h1, fun k => by rw [h2 k, hbase (fun _ => rfl)]; rfl, h3⟩
    | hierarch n v =>
      obtain ⟨m', h1, h2, h3⟩ := hval n v
      exact ⟨m', h1, fun k => by rw [h2 k, hbase (fun _ => rfl)]; rfl, h3⟩
    | xtension x d =>
      have hx : x.asStr = xtensionName x := by cases x <;> rfl
      have hnc : (Value.string (xtensionName x) none).continued = false := by cases x <;> decide
      obtain ⟨m', h1, h2, h3⟩ := hval "XTENSION".toList (.string (xtensionName x) none)
      rw [hnc, if_neg (by simp), ← hx] at h1
      rw [extend_not_continued hnc] at h2
      exact ⟨m', h1, fun k => by rw [h2 k, hbase (fun _ => rfl)]; rfl, h3⟩
    | continuation s d =>
      cases kw with
      | none =>
        obtain ⟨m', h3, h4, h5⟩ := ih hb' m none (by simp)
        exact ⟨m', h3, h4, h5⟩
      | some n =>
        obtain ⟨v, hv, hcont⟩ := hkw n rfl
        obtain ⟨w, hw1, hw2⟩ := joined_continued hcont s d
        obtain ⟨m', h1, h2, h3⟩ := ih hb' (m.insert n w) (if w.continued then some n else none) (by
          intro n' hn'
          split at hn'
          · injection hn' with hn'
            subst hn'
            rename_i hv
            exact ⟨w, by rw [ValueMap.get_insert, if_pos rfl], hv⟩
          · simp at hn')
        refine ⟨m', ?_, ?_, ?_⟩
        · conv => lhs; unfold processLoop
          simp only [hv, hw2]
          exact h1
        · intro k
          rw [h2 k]
          show (lastValue (entries cs) k).or _ = (lastValue (entries cs) k).or _
          congr 1
          unfold baseValue
          rw [ValueMap.get_insert]
          by_cases hk : n = k
          · subst hk
            simp only [if_true, hv, Option.map_some, extend, hw1]
            by_cases hwc : w.continued = true
            · simp [hwc]
            · have hwc : w.continued = false := by simpa using hwc
              rw [extend_not_continued hwc]
              simp [hwc]
          · have h5 : (some n : Option Str) ≠ some k := by simpa using hk
            have h6 : (if w.continued = true then some n else none) ≠ some k := by
              split
              · exact h5
              · simp
            rw [if_neg h6, if_neg h5, if_neg (Ne.symm hk)]
        · rw [h3, ValueMap.keywords_insert, if_pos]
          · rfl
          · rw [ValueMap.mem_keywords_iff, hv]; simp
    | comment t => exact hskip (fun _ => rfl) rfl
    | history t => exact hskip (fun _ => rfl) rfl
    | space => exact hskip (fun _ => rfl) rfl
    | undefined t => exact hskip (fun _ => rfl) rfl
    | end_ => exact absurd rfl hc

theorem entries_end (body : List Card) : entries (body ++ [.end_]) = entries body := by
  have hext : ∀ v, extend v (body ++ [.end_]) = extend v body := by
    intro v
    induction body generalizing v with
    | nil => rfl
    | cons c body ih =>
      cases c <;> simp only [List.cons_append, extend, ih]
  induction body with
  | nil => rfl
  | cons c body ih =>
    have hext' : ∀ v, extend v (body ++ [.end_]) = extend v body := by
      intro v
      clear ih hext
      induction body generalizing v with
      | nil => rfl
      | cons c body ih =>
        cases c <;> simp only [List.cons_append, extend, ih]
    cases c <;> simp only [List.cons_append, entries, hext', ih hext']

/-- What `process_cards` computes on cards that end with `END`. -/
theorem processCards_spec (body : List Card) (hb : Card.end_ ∉ body) :
    ∃ m, processCards (body ++ [.end_]) = .ok m ∧ (∀ k, m.get k = lastValue (entries body) k) ∧
      m.keywords = firsts ((entries body).map Prod.fst) := by
  obtain ⟨m, h1, h2, h3⟩ := processLoop_spec body hb [] none (by simp)
  rw [entries_end] at h2 h3
  refine ⟨m, h1, ?_, h3⟩
  intro k
  rw [h2 k]
  simp [baseValue, ValueMap.get]

end Fitsrs

import Verif.Props.C22_C24
import Verif.Props.C17_C21
import Verif.Props.C29_C32
import Verif.Lemmas.Entries
import Verif.Spec.Samples
/-
C66 columns are numbered as in the header; C67 appending CONTINUE cards by hand; C68 history, keyword of a value and position.
-/

namespace Fitsrs
open Spec

/-! ### C66 -/

/-- `s` is the name of the column number `i` (from 0). -/
def Spec.Named (m : ValueMap) (i : Nat) (s : Str) : Prop := HasText m (kwN "TTYPE" (i + 1)) s

/-- **C66, in full.** For every binary table that is accepted, `find_field_by_ttype` gives the number of the first column with
that name. -/
def C66_statement : Prop :=
  ∀ (p : Profile) (m : ValueMap) (x : BinTable) (s : Str), BinTable.parse p m = .ok x →
    (∀ i, findFieldByTtype x.ttypes s = some i ↔ i < x.tfields ∧ Named m i s ∧ ∀ j < i, ¬ Named m j s) ∧
    (findFieldByTtype x.ttypes s = none ↔ ∀ j < x.tfields, ¬ Named m j s)

theorem binTable_fields {p : Profile} {m : ValueMap} {x : BinTable} (h : BinTable.parse p m = .ok x) :
    x.tforms = (binFields m 1 x.tfields).map Prod.fst ∧ x.ttypes = (binFields m 1 x.tfields).map Prod.snd := by
  rcases binParse_else (p := p) (m := m) with ⟨w, r, pc, tf, hk⟩ | ⟨e, he⟩
  · rw [binParse_of hk] at h
    unfold binTail at h
    obtain ⟨axes, -, h⟩ := Res.bind_eq_ok.1 h
    dsimp only at h
    obtain ⟨t, ht, h⟩ := Res.bind_eq_ok.1 h
    obtain ⟨bits, -, h⟩ := Res.bind_eq_ok.1 h
    split at h
    · simp at h
    · injection h with h
      subst h
      exact ⟨rfl, rfl⟩
  · rw [he] at h; simp at h

theorem binFields_names {m : ValueMap} {i : Nat} {fs : List TForm}
    (h : ∀ j (h : j < fs.length), ∃ s, HasText m (kwN "TFORM" (i + j)) s ∧ TForm.ofStr s = some fs[j]) :
    ∀ j, ((binFields m i fs.length).map Prod.snd)[j]? =
      if j < fs.length then some (okOpt (m.getString (kwN "TTYPE" (i + j)))) else none := by
  induction fs generalizing i with
  | nil => intro j; simp [binFields]
  | cons f fs ih =>
    obtain ⟨s, h1, h2⟩ := h 0 (by simp)
    have e : (binFields m i (f :: fs).length).map Prod.snd =
        okOpt (m.getString (kwN "TTYPE" i)) :: (binFields m (i + 1) fs.length).map Prod.snd := by
      simp only [List.length_cons, binFields]
      rw [show kwN "TFORM" i = kwN "TFORM" (i + 0) from rfl, getString_iff.2 h1]
      dsimp only
      rw [h2]
      rfl
    rw [e]
    intro j
    cases j with
    | zero => simp
    | succ j =>
      rw [List.getElem?_cons_succ, ih (i := i + 1)]
      · rw [show i + 1 + j = i + (j + 1) by omega]
        simp only [List.length_cons, Nat.add_lt_add_iff_right]
      · intro k hk
        obtain ⟨t, ht⟩ := h (k + 1) (by simpa using hk)
        refine ⟨t, ?_⟩
        rw [show i + 1 + k = i + (k + 1) by omega]
        simpa using ht

theorem okOpt_getString {m : ValueMap} {k s : Str} : okOpt (m.getString k) = some s ↔ HasText m k s := by
  rw [← getString_iff]
  cases m.getString k <;> simp [okOpt]

/-- **C66, columns.** If all the TFORM keywords are legal, the columns have the formats and names of the keywords with the same
numbers. -/
theorem C66_columns {p : Profile} {m : ValueMap} {x : BinTable} (h : BinTable.parse p m = .ok x) {fs : List TForm}
    (hc : Columns m fs) (hn : fs.length = x.tfields) :
    x.tforms = fs ∧ x.ttypes.length = x.tfields ∧
      ∀ i < x.tfields, ∀ s, x.ttypes[i]? = some (some s) ↔ Named m i s := by
  obtain ⟨h1, h2⟩ := binTable_fields h
  rw [← hn] at h1 h2
  have hc' : ∀ j (h : j < fs.length), ∃ s, HasText m (kwN "TFORM" (1 + j)) s ∧ TForm.ofStr s = some fs[j] := by
    intro j hj
    rw [Nat.add_comm]
    exact hc j hj
  rw [binFields_columns hc'] at h1
  have hl : x.ttypes.length = fs.length := by
    rw [h2, List.length_map]
    have := congrArg List.length (binFields_columns hc')
    rwa [List.length_map] at this
  refine ⟨h1, by rw [hl, hn], fun i hi s => ?_⟩
  rw [h2, binFields_names hc', if_pos (by omega), Nat.add_comm 1 i]
  unfold Named
  rw [← okOpt_getString]
  simp

theorem findTtype_some {ts : List (Option Str)} {s : Str} {i : Nat} :
    findFieldByTtype ts s = some i ↔ ts[i]? = some (some s) ∧ ∀ j < i, ts[j]? ≠ some (some s) := by
  unfold findFieldByTtype
  dsimp only
  constructor
  · intro h
    split at h
    · rename_i hlt
      cases h
      refine ⟨?_, fun j hj => ?_⟩
      · have := List.findIdx_getElem (w := hlt)
        rw [List.getElem?_eq_getElem hlt]
        simpa using this
      · have := List.not_of_lt_findIdx hj
        rw [List.getElem?_eq_getElem (by omega)]
        simpa using this
    · cases h
  · rintro ⟨h1, h2⟩
    obtain ⟨hi, h1⟩ := List.getElem?_eq_some_iff.1 h1
    have hle : ts.findIdx (· = some s) ≤ i := by
      rcases Nat.lt_or_ge i (ts.findIdx (· = some s)) with hlt | hge
      · have := List.not_of_lt_findIdx hlt
        simp [h1] at this
      · exact hge
    have hlt : ts.findIdx (· = some s) < ts.length := by omega
    rw [if_pos hlt]
    rcases Nat.lt_or_eq_of_le hle with hl | he
    · have := List.findIdx_getElem (w := hlt)
      exact absurd (by rw [List.getElem?_eq_getElem hlt]; simpa using this) (h2 _ hl)
    · rw [he]

theorem findTtype_none {ts : List (Option Str)} {s : Str} :
    findFieldByTtype ts s = none ↔ ∀ j : Nat, ts[j]? ≠ some (some s) := by
  constructor
  · intro h j hj
    unfold findFieldByTtype at h
    dsimp only at h
    split at h
    · cases h
    · rename_i hlt
      obtain ⟨hl, hj⟩ := List.getElem?_eq_some_iff.1 hj
      exact hlt (List.findIdx_lt_length_of_exists ⟨some s, by rw [← hj]; exact List.getElem_mem hl, by simp⟩)
  · intro h
    cases hf : findFieldByTtype ts s with
    | none => rfl
    | some i => exact absurd (findTtype_some.1 hf).1 (h i)

/-- **C66, partial** (full statement: `C66_statement`): if all the TFORM keywords are legal.  Missing: tables with illegal
ones. -/
theorem C66_partial {p : Profile} {m : ValueMap} {x : BinTable} (h : BinTable.parse p m = .ok x) {fs : List TForm}
    (hc : Columns m fs) (hn : fs.length = x.tfields) (s : Str) :
    (∀ i, findFieldByTtype x.ttypes s = some i ↔ i < x.tfields ∧ Named m i s ∧ ∀ j < i, ¬ Named m j s) ∧
    (findFieldByTtype x.ttypes s = none ↔ ∀ j < x.tfields, ¬ Named m j s) := by
  obtain ⟨-, h2, h3⟩ := C66_columns h hc hn
  have out : ∀ i, ¬ i < x.tfields → x.ttypes[i]? = none := fun i hi => List.getElem?_eq_none (by omega)
  constructor
  · intro i
    rw [findTtype_some]
    by_cases hi : i < x.tfields
    · rw [h3 i hi s]
      constructor
      · rintro ⟨a, b⟩
        exact ⟨hi, a, fun j hj hx => b j hj ((h3 j (by omega) s).2 hx)⟩
      · rintro ⟨-, a, b⟩
        exact ⟨a, fun j hj hx => b j hj ((h3 j (by omega) s).1 hx)⟩
    · rw [out i hi]
      simp [hi]
  · rw [findTtype_none]
    constructor
    · intro h j hj hx
      exact h j ((h3 j hj s).2 hx)
    · intro h j hx
      by_cases hj : j < x.tfields
      · exact h j hj ((h3 j hj s).1 hx)
      · rw [out j hj] at hx
        cases hx

/-- A table whose first column has an unknown format. -/
def oddTable : ValueMap :=
  tableMap 1 ["3Z".toList, "1B".toList] ++ [("TTYPE1".toList, .string ['a'] none), ("TTYPE2".toList, .string ['b'] none)]

/-- **C66 fails**: columns with an unknown format are dropped, and the following ones are renumbered. -/
theorem C66_fails : ¬ C66_statement := by
  intro h
  have hp : ∃ x, BinTable.parse .wrapping oddTable = .ok x ∧ findFieldByTtype x.ttypes ['b'] = some 0 := by
    have : (match BinTable.parse .wrapping oddTable with
      | .ok x => decide (findFieldByTtype x.ttypes ['b'] = some 0)
      | _ => false) = true := by decide +kernel
    cases hx : BinTable.parse .wrapping oddTable with
    | ok x =>
      rw [hx] at this
      exact ⟨x, rfl, of_decide_eq_true this⟩
    | err e => rw [hx] at this; cases this
    | panic => rw [hx] at this; cases this
  obtain ⟨x, hx, hf⟩ := hp
  obtain ⟨-, h1, -⟩ := ((h .wrapping oddTable x ['b'] hx).1 0).1 hf
  have h2 := getString_iff.2 h1
  exact absurd h2 (by decide +kernel)

/-- A table with two columns of the same name. -/
example : ∃ x, BinTable.parse .checked (tableMap 3 ["1B".toList, "1I".toList] ++ [("TTYPE1".toList, .string ['a'] none),
    ("TTYPE2".toList, .string ['a'] none)]) = .ok x ∧ findFieldByTtype x.ttypes ['a'] = some 0 ∧ x.tfields = 2 := by
  refine ⟨_, rfl, ?_, ?_⟩ <;> decide +kernel

theorem asciiFields_legal {m : ValueMap} {i : Nat} {cs : List (Nat × TFormAscii)}
    (h : ∀ j (h : j < cs.length), HasInt m (kwN "TBCOL" (i + j)) cs[j].1 ∧
      ∃ s, HasText m (kwN "TFORM" (i + j)) s ∧ TFormAscii.ofStr s = some cs[j].2) :
    asciiFields m i cs.length = (cs.map Prod.fst, cs.map Prod.snd) := by
  induction cs generalizing i with
  | nil => rfl
  | cons c cs ih =>
    obtain ⟨h1, s, h2, h3⟩ := h 0 (by simp)
    have hr : asciiFields m (i + 1) cs.length = (cs.map Prod.fst, cs.map Prod.snd) := by
      apply ih
      intro j hj
      have := h (j + 1) (by simpa using hj)
      rw [show i + 1 + j = i + (j + 1) by omega]
      simpa using this
    have hb : m.getU64 (kwN "TBCOL" i) = .ok c.1 := getU64_iff.2 h1
    have hf : m.getTFormAscii (kwN "TFORM" i) = .ok c.2 := by
      unfold ValueMap.getTFormAscii
      rw [show kwN "TFORM" i = kwN "TFORM" (i + 0) from rfl, getString_iff.2 h2]
      simp only [Res.bind_ok]
      rw [h3]
      rfl
    simp only [List.length_cons, asciiFields]
    rw [hr, hb, hf]
    rfl

theorem asciiTable_fields {m : ValueMap} {x : AsciiTable} (h : AsciiTable.parse m = .ok x) :
    (x.tbcols, x.tforms) = asciiFields m 1 x.tfields := by
  unfold AsciiTable.parse at h
  obtain ⟨b, -, h1⟩ := Res.bind_eq_ok.1 h
  split at h1
  · cases h1
  obtain ⟨n, -, h2⟩ := Res.bind_eq_ok.1 h1
  split at h2
  · cases h2
  obtain ⟨n1, -, h3⟩ := Res.bind_eq_ok.1 h2
  obtain ⟨n2, -, h4⟩ := Res.bind_eq_ok.1 h3
  obtain ⟨pc, -, h5⟩ := Res.bind_eq_ok.1 h4
  split at h5
  · cases h5
  obtain ⟨gc, -, h6⟩ := Res.bind_eq_ok.1 h5
  split at h6
  · cases h6
  obtain ⟨tf, -, h7⟩ := Res.bind_eq_ok.1 h6
  obtain ⟨-, -, h8⟩ := Res.bind_eq_ok.1 h7
  obtain ⟨-, -, h9⟩ := Res.bind_eq_ok.1 h8
  cases h9
  rfl

/-- **C66, ASCII tables.** If all the TBCOL and TFORM keywords are legal, `get_tbcols` and `get_tforms` list them in order. -/
theorem C66_ascii {m : ValueMap} {x : AsciiTable} (h : AsciiTable.parse m = .ok x) {cs : List (Nat × TFormAscii)}
    (hn : cs.length = x.tfields)
    (hc : ∀ j (h : j < cs.length), HasInt m (kwN "TBCOL" (j + 1)) cs[j].1 ∧
      ∃ s, HasText m (kwN "TFORM" (j + 1)) s ∧ TFormAscii.ofStr s = some cs[j].2) :
    x.tbcols = cs.map Prod.fst ∧ x.tforms = cs.map Prod.snd := by
  have hx := asciiTable_fields h
  rw [← hn, asciiFields_legal (cs := cs) (fun j hj => by rw [Nat.add_comm 1 j]; exact hc j hj)] at hx
  exact Prod.mk.inj hx

/-! ### C67 -/

/-- **C67, when it panics.** `Card::append` panics exactly if the card is not a continued string value, or the other one is not a
continuation. -/
theorem C67_panic (c r : Card) :
    Card.append c r = .panic ↔ ¬ ((∃ n v, (c = .value n v ∨ c = .hierarch n v) ∧ v.continued = true) ∧
      ∃ s d, r = .continuation s d) := by
  have key : ∀ (v : Value) s d (g : Value → Card), v.continued = true → (v.append s d).map g ≠ .panic := by
    intro v s d g hv h
    obtain ⟨w, -, hw⟩ := joined_continued hv s d
    rw [hw] at h
    cases h
  unfold Card.append
  by_cases hc : c.continued = true
  · rw [if_pos hc]
    cases r with
    | continuation s d =>
      cases c with
      | value n v => simp [key v s d _ hc, show v.continued = true from hc]
      | hierarch n v => simp [key v s d _ hc, show v.continued = true from hc]
      | _ => simp
    | _ => simp
  · rw [if_neg hc]
    refine iff_of_true rfl ?_
    rintro ⟨⟨n, v, rfl | rfl, hv⟩, -⟩ <;> exact hc hv

/-- Appending several cards, as with a chain of `splice`. -/
def spliceAll : Card → List Card → Res Card
  | c, [] => .ok c
  | c, r :: rs => (Card.append c r) >>= fun c' => spliceAll c' rs

/-- **C67.** A value card to which the CONTINUE cards that follow it have been appended, one after the other, has the value that the
header gives for its keyword. -/
theorem C67_splice (n : Str) (v : Value) (rs : List Card) :
    (∀ c, spliceAll (.value n v) rs = .ok c → c = .value n (extend v rs)) ∧
    ∀ c, spliceAll (.hierarch n v) rs = .ok c → c = .hierarch n (extend v rs) := by
  induction rs generalizing v with
  | nil => exact ⟨fun c h => by cases h; rfl, fun c h => by cases h; rfl⟩
  | cons r rs ih =>
    have step : ∀ (k : Value → Card) , (∀ w, (k w).continued = w.continued) →
        (∀ w s d, w.continued = true → Card.append (k w) (.continuation s d) = (w.append s d).map k) →
        (∀ w c, spliceAll (k w) rs = .ok c → c = k (extend w rs)) →
        ∀ c, spliceAll (k v) (r :: rs) = .ok c → c = k (extend v (r :: rs)) := by
      intro k hk ha hi c h
      obtain ⟨c1, h1, h2⟩ := Res.bind_eq_ok.1 h
      by_cases hv : v.continued = true
      · cases r with
        | continuation s d =>
          obtain ⟨w, hw1, hw2⟩ := joined_continued hv s d
          rw [ha v s d hv, hw2] at h1
          cases h1
          show c = k (match joined v s d with
            | some w => extend w rs
            | none => v)
          rw [hw1]
          exact hi w c h2
        | _ => unfold Card.append at h1; rw [if_pos ((hk v).trans hv)] at h1; cases h1
      · unfold Card.append at h1
        rw [if_neg (by rw [hk]; exact hv)] at h1
        cases h1
    constructor
    · refine step (.value n) (fun w => rfl) (fun w s d hw => ?_) (fun w => (ih w).1)
      unfold Card.append
      rw [if_pos (show (Card.value n w).continued = true from hw)]
    · refine step (.hierarch n) (fun w => rfl) (fun w s d hw => ?_) (fun w => (ih w).2)
      unfold Card.append
      rw [if_pos (show (Card.hierarch n w).continued = true from hw)]

example : spliceAll (.value ['K'] (.string "a &".toList none)) [.continuation (some "b&".toList) (some ['x']),
    .continuation (some []) none] = .ok (.value ['K'] (.string "a b".toList (some ['x']))) := by decide +kernel

/-! ### C68 -/

open Classical in
/-- The texts of the HISTORY records. -/
noncomputable def Spec.historyTexts (records : List (List UInt8)) : List Str :=
  records.filterMap fun r => if KeywordIs r "HISTORY".toList then some (commentaryText (r.drop 8)) else none

theorem hierarch_ne_history {r : List UInt8} {t : Str} : parseHierarch r ≠ .ok (.history t) := by
  unfold parseHierarch
  dsimp only
  split
  · split
    · simp
    · intro h
      obtain ⟨b, -, hc⟩ := Res.map_eq_ok.1 h
      cases hc
  · simp

theorem extension_ne_history {r : List UInt8} {t : Str} : parseExtension r ≠ .ok (.history t) := by
  unfold parseExtension
  intro h
  obtain ⟨⟨a, b⟩, -, h1⟩ := Res.bind_eq_ok.1 h
  dsimp only at h1
  split at h1
  · split at h1
    · cases h1
    · obtain ⟨b, -, hc⟩ := Res.map_eq_ok.1 h1
      cases hc
  · cases h1

theorem continuation_ne_history {r : List UInt8} {t : Str} : parseContinuation r ≠ .ok (.history t) := by
  unfold parseContinuation
  intro h
  obtain ⟨⟨a, b⟩, -, h1⟩ := Res.bind_eq_ok.1 h
  dsimp only at h1
  obtain ⟨b, -, hc⟩ := Res.map_eq_ok.1 h1
  cases hc

theorem tryFrom_history_iff {r : List UInt8} {t : Str} : Card.tryFrom r = .ok (.history t) ↔
    utf8Strict (trimAscii (r.take 8)) = some "HISTORY".toList ∧ t = commentaryText (r.drop 8) := by
  unfold Card.tryFrom
  constructor
  · intro h
    split at h
    · simp at h
    · rename_i kw hkw
      by_cases hk : kw = "HISTORY".toList
      · subst hk
        rw [if_neg (by decide), if_neg (by decide), if_pos rfl, parseCommentText_eq] at h
        cases h
        exact ⟨hkw, rfl⟩
      · exfalso
        repeat' split at h
        all_goals first
          | (rename_i h'; exact hk h')
          | exact continuation_ne_history h
          | exact extension_ne_history h
          | exact hierarch_ne_history h
          | (revert h; unfold parseEmptyKeywordCard; simp only; split <;> simp; done)
          | (obtain ⟨s, -, h⟩ := Res.map_eq_ok.1 h; simp at h; done)
          | (simp at h; done)
  · rintro ⟨h, rfl⟩
    rw [h, ← parseCommentText_eq]
    rfl

theorem recordCard_history {r : List UInt8} {c : Card} (h : recordCard r = .ok c) (t : Str) :
    c = .history t ↔ KeywordIs r "HISTORY".toList ∧ t = commentaryText (r.drop 8) := by
  rw [keywordIs_iff (by unfold Printable; decide) (by decide), ← tryFrom_history_iff]
  unfold recordCard at h
  cases hc : Card.tryFrom r with
  | ok c' =>
    rw [hc] at h
    cases h
    simp
  | err e =>
    rw [hc] at h
    cases h
    simp
  | panic =>
    rw [hc] at h
    cases h

/-- **C68, history.** `history()` lists the texts of the HISTORY records of the header, in order, and nothing else. -/
theorem C68_history {X : Type} (parse : ValueMap → Res X) (records : List (List UInt8)) (cards : List Card) (h : Header X)
    (hc : CardsOf records cards) (hp : Header.parse parse cards = .ok h) : h.history = historyTexts records := by
  have e : h.cards = cards := by
    unfold Header.parse at hp
    obtain ⟨m, -, hp1⟩ := Res.bind_eq_ok.1 hp
    obtain ⟨x, -, hp2⟩ := Res.bind_eq_ok.1 hp1
    cases hp2
    rfl
  unfold Header.history historyTexts
  rw [e]
  clear e hp
  unfold CardsOf at hc
  induction records generalizing cards with
  | nil =>
    cases cards with
    | nil => rfl
    | cons c cs => cases hc
  | cons r rs ih =>
    cases cards with
    | nil => cases hc
    | cons c cs =>
      rw [List.map_cons, List.map_cons] at hc
      obtain ⟨h1, h2⟩ := List.cons.inj hc
      have := recordCard_history h1
      by_cases hk : KeywordIs r "HISTORY".toList
      · obtain rfl := (this _).2 ⟨hk, rfl⟩
        rw [List.filterMap_cons_some (a := r) (b := commentaryText (r.drop 8)) (by rw [if_pos hk]), ← ih cs h2]
        rfl
      · rw [List.filterMap_cons_none (a := r) (by rw [if_neg hk]), ← ih cs h2]
        cases c with
        | history t => exact absurd ((this t).1 rfl).1 hk
        | _ => rfl

theorem ValueMap_get_none {m : ValueMap} {k : Str} (h : k ∉ m.keywords) : m.get k = none := by
  induction m with
  | nil => rfl
  | cons e m ih =>
    obtain ⟨k0, w0⟩ := e
    have h' : k ∉ k0 :: ValueMap.keywords m := h
    rw [List.mem_cons, not_or] at h'
    unfold ValueMap.get
    rw [if_neg (Ne.symm h'.1)]
    exact ih h'.2

/-- **C68, keyword of a value.** `get_keyword` gives the first of the keywords whose value, as `get` gives it, is the given one;
`None` if there is none. -/
theorem C68_keyword (eq : Value → Value → Bool) {X : Type} (parse : ValueMap → Res X) (cards : List Card) (h : Header X)
    (hp : Header.parse parse cards = .ok h) (v : Value) :
    (∀ k, h.values.getKeyword eq v = some k ↔ ∃ a b w, firsts ((entries cards).map Prod.fst) = a ++ k :: b ∧
      lastValue (entries cards) k = some w ∧ eq w v = true ∧
        ∀ k' ∈ a, ∀ w', lastValue (entries cards) k' = some w' → eq w' v = false) ∧
    (h.values.getKeyword eq v = none ↔ ∀ k w, lastValue (entries cards) k = some w → eq w v = false) := by
  obtain ⟨h1, h2, -, -⟩ := C17_keywords parse cards h hp
  have h3 := C17_lookup parse cards h hp
  generalize h.values = m at h1 h2 h3 ⊢
  rw [← h1]
  simp only [← h3]
  clear h1 h3 hp
  induction m with
  | nil => simp [ValueMap.getKeyword, ValueMap.keywords, ValueMap.get]
  | cons e m ih =>
    obtain ⟨k0, w0⟩ := e
    have hk0 : k0 ∉ ValueMap.keywords m := (List.nodup_cons.1 h2).1
    obtain ⟨ih1, ih2⟩ := ih (List.nodup_cons.1 h2).2
    have get0 : ValueMap.get ((k0, w0) :: m) k0 = some w0 := by
      unfold ValueMap.get
      rw [if_pos rfl]
    have get1 : ∀ k, k ≠ k0 → ValueMap.get ((k0, w0) :: m) k = ValueMap.get m k := by
      intro k hk
      conv => lhs; unfold ValueMap.get
      rw [if_neg (Ne.symm hk)]
    have getm : ValueMap.get m k0 = none := ValueMap_get_none hk0
    by_cases he : eq w0 v = true
    · have hg : ValueMap.getKeyword eq ((k0, w0) :: m) v = some k0 := by
        unfold ValueMap.getKeyword
        rw [List.findSome?_cons]
        simp [he]
      rw [hg]
      refine ⟨fun k => ⟨?_, ?_⟩, by simp only [reduceCtorEq, false_iff]; intro hx; rw [hx k0 w0 get0] at he; cases he⟩
      · intro hk
        cases hk
        exact ⟨[], ValueMap.keywords m, w0, rfl, get0, he, by simp⟩
      · rintro ⟨a, b, w, ha, -, -, hn⟩
        cases a with
        | nil => exact congrArg some (List.cons.inj ha).1
        | cons a as =>
          injection ha with ha
          subst ha
          rw [hn k0 (by simp) w0 get0] at he
          cases he
    · have hef : eq w0 v = false := by simpa using he
      have hg : ValueMap.getKeyword eq ((k0, w0) :: m) v = ValueMap.getKeyword eq m v := by
        unfold ValueMap.getKeyword
        rw [List.findSome?_cons]
        simp [hef]
      rw [hg]
      constructor
      · intro k
        rw [ih1 k]
        constructor
        · rintro ⟨a, b, w, ha, hw, hwv, hn⟩
          have hne : ∀ k' ∈ a ++ k :: b, k' ≠ k0 := by
            intro k' hk' h
            subst h
            exact hk0 (by rw [ha]; exact hk')
          refine ⟨k0 :: a, b, w, by rw [List.cons_append, ← ha]; rfl, ?_, hwv, ?_⟩
          · rw [get1 k (hne k (by simp))]
            exact hw
          · intro k' hk' w' hw'
            rcases List.mem_cons.1 hk' with rfl | hk'
            · rw [get0] at hw'
              cases hw'
              exact hef
            · rw [get1 k' (hne k' (by simp [hk']))] at hw'
              exact hn k' hk' w' hw'
        · rintro ⟨a, b, w, ha, hw, hwv, hn⟩
          cases a with
          | nil =>
            injection ha with ha
            subst ha
            rw [get0] at hw
            cases hw
            exact absurd hwv he
          | cons a as =>
            injection ha with ha ha2
            subst ha
            have ha2 : ValueMap.keywords m = as ++ k :: b := ha2
            have hne : ∀ k' ∈ as ++ k :: b, k' ≠ k0 := by
              intro k' hk' h
              subst h
              exact hk0 (by rw [ha2]; exact hk')
            refine ⟨as, b, w, ha2, ?_, hwv, ?_⟩
            · rwa [get1 k (hne k (by simp))] at hw
            · intro k' hk' w' hw'
              refine hn k' (List.mem_cons_of_mem _ hk') w' ?_
              rw [get1 k' (hne k' (by simp [hk']))]
              exact hw'
      · rw [ih2]
        constructor
        · intro hx k w hw
          by_cases hk : k = k0
          · subst hk
            rw [get0] at hw
            cases hw
            exact hef
          · rw [get1 k hk] at hw
            exact hx k w hw
        · intro hx k w hw
          refine hx k w ?_
          rw [get1 k (fun h => ?_)]
          · exact hw
          · subst h
            rw [getm] at hw
            cases hw

theorem record_posStart {p : Profile} {n : Option (Res HDU)} {f f' : Fits} {r : Option (Res HDU)}
    (hh : Fits.record p n f = (r, f')) : (∃ h, r = some (.ok h) ∧ f'.posStart = h.dataOffset) ∨
      (∀ h, r ≠ some (.ok h)) ∧ f'.posStart = f.posStart := by
  unfold Fits.record at hh
  split at hh
  · split at hh <;> cases hh
    · exact .inl ⟨_, rfl, rfl⟩
    · exact .inr ⟨by simp, rfl⟩
    · exact .inr ⟨by simp, rfl⟩
  all_goals
    cases hh
    exact .inr ⟨by simp, rfl⟩

theorem next_posStart {p : Profile} {f f' : Fits} {r : Option (Res HDU)} (hn : f.next p = (r, f')) :
    (∃ h, r = some (.ok h) ∧ f'.posStart = h.dataOffset) ∨ (∀ h, r ≠ some (.ok h)) ∧ f'.posStart = f.posStart := by
  unfold Fits.next at hn
  split at hn
  · cases hn
    exact .inr ⟨by simp, rfl⟩
  · split at hn
    · obtain ⟨a, b⟩ := HDU.newPrimary f.rd
      have h := record_posStart hn
      exact h
    · split at hn
      · rename_i rd _
        obtain ⟨a, b⟩ := HDU.newXtension p { rd, nread := 0 }
        have h := record_posStart hn
        exact h
      all_goals
        have h := record_posStart hn
        exact h

/-- **C68, position.** After any use of the file (calls that end or fail included, and any reading of data), the position of
the data unit is that of the last HDU returned. -/
theorem C68_position {p : Profile} {data : List UInt8} {hs : List HDU} {f : Fits} (h : History p data hs f) :
    f.posStart = (hs.getLast?.map HDU.dataOffset).getD 0 := by
  induction h with
  | start => rfl
  | hdu k _ hn _ =>
    rcases next_posStart hn with ⟨h, h1, h2⟩ | ⟨h1, -⟩
    · cases h1
      rw [List.getLast?_concat]
      exact h2
    · exact absurd rfl (h1 _)
  | none _ hn ih =>
    rcases next_posStart hn with ⟨h, h1, -⟩ | ⟨-, h2⟩
    · cases h1
    · exact h2.trans ih
  | error _ hn ih =>
    rcases next_posStart hn with ⟨h, h1, -⟩ | ⟨-, h2⟩
    · cases h1
    · exact h2.trans ih

/-! Cases that meet the hypotheses. -/

example : historyTexts [rec80 "SIMPLE  =                    T", rec80 "HISTORY made by hand", rec80 "COMMENT no",
    rec80 "HISTORY twice", rec80 "END"] = ["made by hand".toList, "twice".toList] := by
  have hc : CardsOf [rec80 "SIMPLE  =                    T", rec80 "HISTORY made by hand", rec80 "COMMENT no",
      rec80 "HISTORY twice", rec80 "END"] [.value "SIMPLE".toList (.logical true none), .history "made by hand".toList,
      .comment "no".toList, .history "twice".toList, .end_] := by unfold CardsOf; decide +kernel
  exact (C68_history (fun _ => .ok ()) _ _ _ hc rfl).symm

example : ∃ h, Header.parse (fun _ => .ok ()) sampleCards = .ok h ∧
    h.values.getKeyword (fun a b => decide (a = b)) (.string "x &".toList none) = some "B".toList ∧
    h.values.getKeyword (fun a b => decide (a = b)) (.integer 1 none) = none :=
  ⟨_, rfl, by decide +kernel, by decide +kernel⟩

end Fitsrs

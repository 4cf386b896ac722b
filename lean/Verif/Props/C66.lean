import Verif.Props.C66_C68
/-
C66, exactly: the columns of tables some of whose TFORM keywords are missing or illegal.
-/

namespace Fitsrs
open Spec

/-- Column number `j` (from 0) has the legal format `f`. -/
def Spec.Formed (m : ValueMap) (j : Nat) (f : TForm) : Prop :=
  ∃ s, HasText m (kwN "TFORM" (j + 1)) s ∧ TForm.ofStr s = some f

/-- `ks` are the numbers, in order, of the columns with a legal format among the first `n`. -/
structure Spec.LegalColumns (m : ValueMap) (n : Nat) (ks : List Nat) : Prop where
  ordered : ks.Pairwise (· < ·)
  mem : ∀ j, j ∈ ks ↔ j < n ∧ ∃ f, Formed m j f

theorem formed_iff {m : ValueMap} {j : Nat} {f : TForm} : Formed m j f ↔
    (m.getString (kwN "TFORM" (j + 1)) >>= fun s => match TForm.ofStr s with
      | some f => .ok f
      | none => .panic) = .ok f := by
  unfold Formed
  constructor
  · rintro ⟨s, h1, h2⟩
    rw [getString_iff.2 h1, Res.bind_ok, h2]
  · intro h
    obtain ⟨s, h1, h2⟩ := Res.bind_eq_ok.1 h
    refine ⟨s, getString_iff.1 h1, ?_⟩
    cases hs : TForm.ofStr s with
    | none => rw [hs] at h2; cases h2
    | some g => rw [hs] at h2; cases h2; rfl

theorem binFields_legal (m : ValueMap) (k i : Nat) : ∃ ks : List Nat, ks.Pairwise (· < ·) ∧
    (∀ j, j ∈ ks ↔ i ≤ j ∧ j < i + k ∧ ∃ f, Formed m j f) ∧ (binFields m (i + 1) k).length = ks.length ∧
    ∀ (c j : Nat), ks[c]? = some j → ∃ f, (binFields m (i + 1) k)[c]? = some (f, okOpt (m.getString (kwN "TTYPE" (j + 1)))) ∧
      Formed m j f := by
  induction k generalizing i with
  | zero =>
    refine ⟨[], .nil, fun j => ⟨fun h => absurd h List.not_mem_nil, fun ⟨h1, h2, _⟩ => absurd h2 (by omega)⟩, rfl, fun c j h => ?_⟩
    cases h
  | succ k ih =>
    obtain ⟨ks, h1, h2, h3, h4⟩ := ih (i + 1)
    have skip : (∀ f, ¬ Formed m i f) → binFields m (i + 1) (k + 1) = binFields m (i + 1 + 1) k →
        ∃ ks : List Nat, ks.Pairwise (· < ·) ∧
        (∀ j, j ∈ ks ↔ i ≤ j ∧ j < i + (k + 1) ∧ ∃ f, Formed m j f) ∧ (binFields m (i + 1) (k + 1)).length = ks.length ∧
        ∀ (c j : Nat), ks[c]? = some j → ∃ f, (binFields m (i + 1) (k + 1))[c]? =
          some (f, okOpt (m.getString (kwN "TTYPE" (j + 1)))) ∧ Formed m j f := by
      intro hf e
      refine ⟨ks, h1, fun j => ?_, by rw [e]; exact h3, by rw [e]; exact h4⟩
      rw [h2]
      constructor
      · rintro ⟨a, b, c⟩
        exact ⟨by omega, by omega, c⟩
      · rintro ⟨a, b, c⟩
        have : j ≠ i := by
          rintro rfl
          exact hf _ c.choose_spec
        exact ⟨by omega, by omega, c⟩
    cases hs : m.getString (kwN "TFORM" (i + 1)) with
    | ok s =>
      cases ht : TForm.ofStr s with
      | none =>
        refine skip (fun f hf => ?_) (by rw [binFields, hs]; dsimp only; rw [ht])
        rw [formed_iff, hs, Res.bind_ok, ht] at hf
        cases hf
      | some f =>
        have hf : Formed m i f := ⟨s, getString_iff.1 hs, ht⟩
        have e : binFields m (i + 1) (k + 1) =
            (f, okOpt (m.getString (kwN "TTYPE" (i + 1)))) :: binFields m (i + 1 + 1) k := by
          rw [binFields, hs]
          dsimp only
          rw [ht]
        refine ⟨i :: ks, List.pairwise_cons.2 ⟨fun j hj => ?_, h1⟩, fun j => ?_, ?_, fun c j h => ?_⟩
        · have := (h2 j).1 hj
          omega
        · rw [List.mem_cons, h2]
          constructor
          · rintro (rfl | ⟨a, b, c⟩)
            · exact ⟨by omega, by omega, f, hf⟩
            · exact ⟨by omega, by omega, c⟩
          · rintro ⟨a, b, c⟩
            by_cases hj : j = i
            · exact .inl hj
            · exact .inr ⟨by omega, by omega, c⟩
        · rw [e, List.length_cons, List.length_cons, h3]
        · rw [e]
          cases c with
          | zero =>
            cases h
            exact ⟨f, rfl, hf⟩
          | succ c => exact h4 c j h
    | err e =>
      refine skip (fun f hf => ?_) (by rw [binFields, hs])
      rw [formed_iff, hs] at hf
      cases hf
    | panic =>
      refine skip (fun f hf => ?_) (by rw [binFields, hs])
      rw [formed_iff, hs] at hf
      cases hf

/-- **C66, exactly.** The columns of a binary table that is accepted are those with a legal TFORM keyword, in order; the others are
left out and the columns after them are renumbered. -/
theorem C66_exact {p : Profile} {m : ValueMap} {x : BinTable} (h : BinTable.parse p m = .ok x) :
    ∃ ks, LegalColumns m x.tfields ks ∧ x.tforms.length = ks.length ∧ x.ttypes.length = ks.length ∧
      ∀ (c j : Nat), ks[c]? = some j → (∃ f, x.tforms[c]? = some f ∧ Formed m j f) ∧
        ∀ s, x.ttypes[c]? = some (some s) ↔ Named m j s := by
  obtain ⟨e1, e2⟩ := binTable_fields h
  obtain ⟨ks, h1, h2, h3, h4⟩ := binFields_legal m x.tfields 0
  refine ⟨ks, ⟨h1, fun j => ?_⟩, by rw [e1, List.length_map]; exact h3, by rw [e2, List.length_map]; exact h3, fun c j hc => ?_⟩
  · rw [h2, Nat.zero_add]
    exact ⟨fun h => h.2, fun h => ⟨Nat.zero_le _, h⟩⟩
  · obtain ⟨f, h5, h6⟩ := h4 c j hc
    rw [Nat.zero_add] at h5
    refine ⟨⟨f, by rw [e1, List.getElem?_map, h5]; rfl, h6⟩, fun s => ?_⟩
    rw [e2, List.getElem?_map, h5]
    unfold Named
    rw [← okOpt_getString]
    simp

theorem Spec.LegalColumns.unique {m : ValueMap} {n : Nat} {ks ls : List Nat} (h1 : LegalColumns m n ks) (h2 : LegalColumns m n ls) :
    ks = ls := by
  have h : ∀ j, j ∈ ks ↔ j ∈ ls := fun j => (h1.mem j).trans (h2.mem j).symm
  obtain ⟨o1, -⟩ := h1
  obtain ⟨o2, -⟩ := h2
  induction ks generalizing ls with
  | nil =>
    cases ls with
    | nil => rfl
    | cons b ls => exact absurd ((h b).2 (List.mem_cons_self ..)) List.not_mem_nil
  | cons a ks ih =>
    cases ls with
    | nil => exact absurd ((h a).1 (List.mem_cons_self ..)) List.not_mem_nil
    | cons b ls =>
      obtain ⟨p1, q1⟩ := List.pairwise_cons.1 o1
      obtain ⟨p2, q2⟩ := List.pairwise_cons.1 o2
      have hab : a = b := by
        rcases List.mem_cons.1 ((h a).1 (List.mem_cons_self ..)) with e | e
        · exact e
        · rcases List.mem_cons.1 ((h b).2 (List.mem_cons_self ..)) with e' | e'
          · exact e'.symm
          · have := p1 b e'
            have := p2 a e
            omega
      subst hab
      rw [ih (ls := ls) ?_ q1 q2]
      intro j
      constructor
      · intro hj
        rcases List.mem_cons.1 ((h j).1 (List.mem_cons_of_mem _ hj)) with rfl | e
        · exact absurd (p1 j hj) (Nat.lt_irrefl _)
        · exact e
      · intro hj
        rcases List.mem_cons.1 ((h j).2 (List.mem_cons_of_mem _ hj)) with rfl | e
        · exact absurd (p2 j hj) (Nat.lt_irrefl _)
        · exact e

/-- **C66, exactly**, finding a column: `find_field_by_ttype` gives the rank, among the columns with a legal TFORM keyword, of the
first one of them that has the name. -/
theorem C66_find {p : Profile} {m : ValueMap} {x : BinTable} (h : BinTable.parse p m = .ok x) {ks : List Nat}
    (hk : LegalColumns m x.tfields ks) (s : Str) (c : Nat) :
    findFieldByTtype x.ttypes s = some c ↔ ∃ j, ks[c]? = some j ∧ Named m j s ∧ ∀ i ∈ ks, i < j → ¬ Named m i s := by
  obtain ⟨ls, h1, -, h2, h3⟩ := C66_exact h
  obtain rfl := h1.unique hk
  rw [findTtype_some]
  constructor
  · rintro ⟨h4, h5⟩
    obtain ⟨hc, -⟩ := List.getElem?_eq_some_iff.1 h4
    rw [h2] at hc
    refine ⟨ls[c], List.getElem?_eq_getElem hc, ((h3 c _ (List.getElem?_eq_getElem hc)).2 s).1 h4, fun i hi hlt hn => ?_⟩
    obtain ⟨d, hd, rfl⟩ := List.getElem_of_mem hi
    have hdc : d < c := by
      rcases Nat.lt_or_ge d c with hl | hl
      · exact hl
      · rcases Nat.lt_or_eq_of_le hl with hl | rfl
        · exact absurd (List.pairwise_iff_getElem.1 h1.ordered c d hc hd hl) (by omega)
        · omega
    exact h5 d hdc (((h3 d _ (List.getElem?_eq_getElem hd)).2 s).2 hn)
  · rintro ⟨j, h4, h5, h6⟩
    obtain ⟨hc, rfl⟩ := List.getElem?_eq_some_iff.1 h4
    refine ⟨((h3 c _ h4).2 s).2 h5, fun d hd hn => ?_⟩
    have hd' : d < ls.length := by omega
    exact h6 _ (List.getElem_mem hd') (List.pairwise_iff_getElem.1 h1.ordered d c hd' hc hd)
      (((h3 d _ (List.getElem?_eq_getElem hd')).2 s).1 hn)

/-- The second column of the table whose first one has an unknown format is found as the first. -/
example : ∃ x, BinTable.parse .wrapping oddTable = .ok x ∧ LegalColumns oddTable x.tfields [1] ∧
    findFieldByTtype x.ttypes ['b'] = some 0 := by
  have hp : (match BinTable.parse .wrapping oddTable with
      | .ok x => decide (x.tfields = 2)
      | _ => false) = true := by decide +kernel
  cases hx : BinTable.parse .wrapping oddTable with
  | ok x =>
    rw [hx] at hp
    have h2 : x.tfields = 2 := of_decide_eq_true hp
    have hk : LegalColumns oddTable x.tfields [1] := by
      rw [h2]
      refine ⟨by simp, fun j => ?_⟩
      have h0 : ¬ ∃ f, Formed oddTable 0 f := by
        rintro ⟨f, hf⟩
        rw [formed_iff] at hf
        revert hf
        rw [show (oddTable.getString (kwN "TFORM" (0 + 1)) >>= fun s => match TForm.ofStr s with
          | some f => Res.ok f
          | none => .panic) = .panic by decide +kernel]
        intro hf
        cases hf
      have h1 : Formed oddTable 1 (.plain .B 1) := by
        rw [formed_iff]
        decide +kernel
      rw [List.mem_singleton]
      constructor
      · rintro rfl
        exact ⟨by decide, _, h1⟩
      · rintro ⟨a, b⟩
        rcases (by omega : j = 0 ∨ j = 1) with rfl | rfl
        · exact absurd b h0
        · rfl
    refine ⟨x, rfl, hk, (C66_find hx hk _ 0).2 ⟨1, rfl, ?_, fun i hi hl => ?_⟩⟩
    · unfold Named
      rw [← getString_iff]
      decide +kernel
    · rw [List.mem_singleton] at hi
      omega
  | err e => rw [hx] at hp; cases hp
  | panic => rw [hx] at hp; cases hp

/-! ### ASCII tables -/

/-- Column number `j` (from 0) of an ASCII table has a start `b` and a legal format `f`. -/
def Spec.AsciiPlaced (m : ValueMap) (j b : Nat) (f : TFormAscii) : Prop :=
  HasInt m (kwN "TBCOL" (j + 1)) b ∧ ∃ s, HasText m (kwN "TFORM" (j + 1)) s ∧ TFormAscii.ofStr s = some f

theorem getTFormAscii_iff {m : ValueMap} {k : Str} {f : TFormAscii} :
    m.getTFormAscii k = .ok f ↔ ∃ s, HasText m k s ∧ TFormAscii.ofStr s = some f := by
  unfold ValueMap.getTFormAscii
  constructor
  · intro h
    obtain ⟨s, h1, h2⟩ := Res.bind_eq_ok.1 h
    refine ⟨s, getString_iff.1 h1, ?_⟩
    cases hs : TFormAscii.ofStr s with
    | none => rw [hs] at h2; cases h2
    | some g => rw [hs] at h2; cases h2; rfl
  · rintro ⟨s, h1, h2⟩
    rw [getString_iff.2 h1, Res.bind_ok, h2]

theorem asciiFields_exact (m : ValueMap) (k i : Nat) : ∃ ks : List Nat, ks.Pairwise (· < ·) ∧
    (∀ j, j ∈ ks ↔ i ≤ j ∧ j < i + k ∧ ∃ b f, AsciiPlaced m j b f) ∧ (asciiFields m (i + 1) k).1.length = ks.length ∧
    (asciiFields m (i + 1) k).2.length = ks.length ∧
    ∀ (c j : Nat), ks[c]? = some j → ∃ b f, (asciiFields m (i + 1) k).1[c]? = some b ∧
      (asciiFields m (i + 1) k).2[c]? = some f ∧ AsciiPlaced m j b f := by
  induction k generalizing i with
  | zero =>
    refine ⟨[], .nil, fun j => ⟨fun h => absurd h List.not_mem_nil, fun ⟨h1, h2, _⟩ => absurd h2 (by omega)⟩, rfl, rfl, fun c j h => ?_⟩
    cases h
  | succ k ih =>
    obtain ⟨ks, h1, h2, h3, h3', h4⟩ := ih (i + 1)
    by_cases hp : ∃ b f, AsciiPlaced m i b f
    · obtain ⟨b, f, hb, hf⟩ := hp
      have e : asciiFields m (i + 1) (k + 1) =
          (b :: (asciiFields m (i + 1 + 1) k).1, f :: (asciiFields m (i + 1 + 1) k).2) := by
        rw [asciiFields]
        dsimp only
        rw [getU64_iff.2 hb, getTFormAscii_iff.2 hf]
      refine ⟨i :: ks, List.pairwise_cons.2 ⟨fun j hj => ?_, h1⟩, fun j => ?_, ?_, ?_, fun c j h => ?_⟩
      · have := (h2 j).1 hj
        omega
      · rw [List.mem_cons, h2]
        constructor
        · rintro (rfl | ⟨a, b, c⟩)
          · exact ⟨by omega, by omega, _, f, hb, hf⟩
          · exact ⟨by omega, by omega, c⟩
        · rintro ⟨a, b, c⟩
          by_cases hj : j = i
          · exact .inl hj
          · exact .inr ⟨by omega, by omega, c⟩
      · rw [e]; dsimp only; rw [List.length_cons, List.length_cons, h3]
      · rw [e]; dsimp only; rw [List.length_cons, List.length_cons, h3']
      · rw [e]
        cases c with
        | zero =>
          cases h
          exact ⟨b, f, rfl, rfl, hb, hf⟩
        | succ c => exact h4 c j h
    · have e : asciiFields m (i + 1) (k + 1) = asciiFields m (i + 1 + 1) k := by
        rw [asciiFields]
        dsimp only
        split
        · rename_i b f e1 e2
          exact absurd ⟨b, f, getU64_iff.1 e1, getTFormAscii_iff.1 e2⟩ hp
        · rfl
      rw [e]
      refine ⟨ks, h1, fun j => ?_, h3, h3', h4⟩
      rw [h2]
      constructor
      · rintro ⟨a, b, c⟩
        exact ⟨by omega, by omega, c⟩
      · rintro ⟨a, b, c⟩
        have : j ≠ i := by
          rintro rfl
          exact hp c
        exact ⟨by omega, by omega, c⟩

/-- **C66, exactly**, ASCII tables: the columns of an ASCII table that is accepted are those with a legal TBCOL and a legal TFORM
keyword, in order; the others are left out and the columns after them are renumbered. -/
theorem C66_ascii_exact {m : ValueMap} {x : AsciiTable} (h : AsciiTable.parse m = .ok x) :
    ∃ ks : List Nat, ks.Pairwise (· < ·) ∧ (∀ j, j ∈ ks ↔ j < x.tfields ∧ ∃ b f, AsciiPlaced m j b f) ∧
      x.tbcols.length = ks.length ∧ x.tforms.length = ks.length ∧
      ∀ (c j : Nat), ks[c]? = some j → ∃ b f, x.tbcols[c]? = some b ∧ x.tforms[c]? = some f ∧ AsciiPlaced m j b f := by
  have hx := asciiTable_fields h
  have e1 : x.tbcols = (asciiFields m 1 x.tfields).1 := congrArg Prod.fst hx
  have e2 : x.tforms = (asciiFields m 1 x.tfields).2 := congrArg Prod.snd hx
  obtain ⟨ks, h1, h2, h3, h3', h4⟩ := asciiFields_exact m x.tfields 0
  rw [Nat.zero_add] at h3 h3' h4
  refine ⟨ks, h1, fun j => ?_, by rw [e1]; exact h3, by rw [e2]; exact h3', by rw [e1, e2]; exact h4⟩
  rw [h2, Nat.zero_add]
  exact ⟨fun h => h.2, fun h => ⟨Nat.zero_le _, h⟩⟩

/-- An ASCII table with two columns, the first of which has a format that is not known. -/
def oddAscii : ValueMap :=
  [("BITPIX".toList, .integer 8 none), ("NAXIS".toList, .integer 2 none), ("NAXIS1".toList, .integer 9 none),
   ("NAXIS2".toList, .integer 1 none), ("PCOUNT".toList, .integer 0 none), ("GCOUNT".toList, .integer 1 none),
   ("TFIELDS".toList, .integer 2 none), ("TBCOL1".toList, .integer 1 none), ("TFORM1".toList, .string "Z4".toList none),
   ("TBCOL2".toList, .integer 6 none), ("TFORM2".toList, .string "I4".toList none)]

example : (AsciiTable.parse oddAscii).map (fun x => (x.tfields, x.tbcols, x.tforms)) =
    .ok (2, [6], [.decimalInteger 4]) := by decide +kernel

end Fitsrs

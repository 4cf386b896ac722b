import Verif.Spec.Extension
import Verif.Props.C17_C21
/-
Helper lemmas on the keywords of extensions.
-/

namespace Fitsrs
open Spec

theorem getU64_iff {m : ValueMap} {k : Str} {n : Nat} : m.getU64 k = .ok n ↔ HasInt m k n :=
  (C21_integers m k).2.2.1 n

theorem getBitpix_iff {m : ValueMap} {k : Str} {b : Bitpix} : m.getBitpix k = .ok b ↔ HasInt m k b.code :=
  (C21_bitpix m k b).1

theorem getString_iff {m : ValueMap} {k : Str} {s : Str} : m.getString k = .ok s ↔ HasText m k s :=
  (C21_others m k).2 s

theorem Spec.HasInt.unique {m : ValueMap} {k : Str} {a b : Int} (h : HasInt m k a) (h' : HasInt m k b) : a = b := by
  obtain ⟨c, h⟩ := h
  obtain ⟨d, h'⟩ := h'
  rw [h] at h'
  injection h' with h'
  injection h'

theorem getU64_no_panic {m : ValueMap} {k : Str} : m.getU64 k ≠ .panic := (C21_no_panic m k).2.2.1
theorem getBitpix_no_panic {m : ValueMap} {k : Str} : m.getBitpix k ≠ .panic := (C21_no_panic m k).2.2.2.2.1

theorem collectAxes_iff {m : ValueMap} {i k : Nat} {ns : List Nat} :
    collectAxes m i k = .ok ns ↔
      ns.length = k ∧ ∀ j (h : j < ns.length), HasInt m (kwN "NAXIS" (i + j)) (ns[j] : Nat) := by
  induction k generalizing i ns with
  | zero =>
    unfold collectAxes
    constructor
    · intro h; injection h with h; subst h; exact ⟨rfl, fun j h => absurd h (by simp)⟩
    · rintro ⟨h, -⟩
      rw [List.length_eq_zero_iff.1 h]
  | succ k ih =>
    unfold collectAxes
    simp only [Res.bind_eq_ok, Res.ok.injEq]
    constructor
    · rintro ⟨n, hn, ns', hns, rfl⟩
      obtain ⟨h1, h2⟩ := ih.1 hns
      refine ⟨by simp [h1], ?_⟩
      intro j hj
      cases j with
      | zero => exact getU64_iff.1 hn
      | succ j =>
        have := h2 j (by simpa using hj)
        rw [Nat.add_right_comm, Nat.add_assoc] at this
        simpa using this
    · rintro ⟨h1, h2⟩
      cases ns with
      | nil => simp at h1
      | cons n ns =>
        refine ⟨n, getU64_iff.2 (h2 0 (by simp)), ns, ih.2 ⟨by simpa using h1, ?_⟩, rfl⟩
        intro j hj
        have := h2 (j + 1) (by simpa using hj)
        rw [Nat.add_right_comm, Nat.add_assoc]
        simpa using this

theorem collectAxes_no_panic {m : ValueMap} {i k : Nat} : collectAxes m i k ≠ .panic := by
  induction k generalizing i with
  | zero => simp [collectAxes]
  | succ k ih =>
    intro h
    unfold collectAxes at h
    rcases Res.bind_eq_panic.1 h with h | ⟨n, -, h⟩
    · exact getU64_no_panic h
    · rcases Res.bind_eq_panic.1 h with h | ⟨n, -, h⟩
      · exact ih h
      · simp at h

/-- The products of the leading axes fit in 64 bits. -/
theorem uprod_fits {p : Profile} {ns : List Nat} {acc : Nat}
    (h : ∀ k ≤ ns.length, acc * product (ns.take k) < two64) : uprod p ns acc = .ok (acc * product ns) := by
  induction ns generalizing acc with
  | nil => simp [uprod, product]
  | cons n ns ih =>
    have h1 : acc * n < two64 := by
      have := h 1 (by simp)
      simpa [product] using this
    unfold uprod
    rw [umul_ok h1]
    simp only [Res.bind_ok]
    rw [ih]
    · simp [product, Nat.mul_assoc]
    · intro k hk
      have := h (k + 1) (by simpa using hk)
      simpa [product, Nat.mul_assoc] using this

theorem umul_wrapping (a b : Nat) : umul .wrapping a b = .ok (a * b % two64) := by
  unfold umul
  split
  · rename_i h; rw [Nat.mod_eq_of_lt h]
  · rfl

theorem uprod_wrapping {ns : List Nat} {acc : Nat} (ha : acc < two64) :
    uprod .wrapping ns acc = .ok (acc * product ns % two64) := by
  induction ns generalizing acc with
  | nil => simp only [uprod, product, List.foldr_nil, Nat.mul_one]; rw [Nat.mod_eq_of_lt ha]
  | cons n ns ih =>
    unfold uprod
    rw [umul_wrapping]
    simp only [Res.bind_ok]
    rw [ih (Nat.mod_lt _ (by decide))]
    show _ = Res.ok (acc * (n * product ns) % two64)
    rw [Nat.mod_mul_mod, Nat.mul_assoc]

theorem code_shift (b : Bitpix) : b.byteSize = b.code.natAbs / 8 := by cases b <;> rfl

theorem product_take_le {ns : List Nat} (h : 0 ∉ ns) (k : Nat) : product (ns.take k) ≤ product ns := by
  induction ns generalizing k with
  | nil => simp
  | cons n ns ih =>
    have hn : 0 < n := Nat.pos_of_ne_zero (fun e => h (by simp [e]))
    have hp : ∀ l : List Nat, 0 ∉ l → 0 < product l := by
      intro l hl
      induction l with
      | nil => decide
      | cons a l ih =>
        have ha : 0 < a := Nat.pos_of_ne_zero (fun e => hl (by simp [e]))
        exact Nat.mul_pos ha (ih (fun e => hl (by simp [e])))
    cases k with
    | zero => exact hp _ h
    | succ k => exact Nat.mul_le_mul_left n (ih (fun e => h (by simp [e])) k)

theorem withCapacity_eq (s n : Nat) : withCapacity s n = if n * s < 2 ^ 63 then .ok () else .panic := rfl

/-! ### Binary tables -/

/-- Bits taken by a column, as the code counts them. -/
def TForm.bits : TForm → Nat
  | .plain t r => r * t.bits
  | .P _ => 64
  | .Q _ => 128

theorem uadd_wrapping (a b : Nat) : uadd .wrapping a b = .ok ((a + b) % two64) := by
  unfold uadd
  split
  · rename_i h; rw [Nat.mod_eq_of_lt h]
  · rfl

theorem rowBits_fits {p : Profile} {fs : List TForm} {acc : Nat} (h : acc + total (fs.map TForm.bits) < two64) :
    rowBits p fs acc = .ok (acc + total (fs.map TForm.bits)) := by
  induction fs generalizing acc with
  | nil => rfl
  | cons f fs ih =>
    have e : total ((f :: fs).map TForm.bits) = f.bits + total (fs.map TForm.bits) := rfl
    rw [e] at h ⊢
    unfold rowBits
    have hb : f.numBits p = .ok f.bits := by
      cases f with
      | plain t r => exact umul_ok (by have : (TForm.plain t r).bits = r * t.bits := rfl; omega)
      | P t => rfl
      | Q t => rfl
    rw [hb]
    simp only [Res.bind_ok]
    rw [uadd_ok (by omega)]
    simp only [Res.bind_ok]
    rw [ih (by omega), Nat.add_assoc]

theorem rowBits_checked {fs : List TForm} {acc : Nat} (h : ¬ acc + total (fs.map TForm.bits) < two64)
    (ha : acc < two64) : rowBits .checked fs acc = .panic := by
  induction fs generalizing acc with
  | nil => exact absurd ha h
  | cons f fs ih =>
    have e : total ((f :: fs).map TForm.bits) = f.bits + total (fs.map TForm.bits) := rfl
    rw [e] at h
    unfold rowBits
    have hb : f.numBits .checked = .ok f.bits ∨ f.numBits .checked = .panic := by
      cases f with
      | plain t r =>
        unfold TForm.numBits TForm.bits
        dsimp only
        unfold umul
        split <;> simp
      | P t => exact .inl rfl
      | Q t => exact .inl rfl
    rcases hb with hb | hb
    · rw [hb]
      simp only [Res.bind_ok]
      by_cases h1 : acc + f.bits < two64
      · rw [uadd_ok h1]
        exact ih (by omega) h1
      · unfold uadd
        rw [if_neg h1]
        rfl
    · rw [hb]; rfl

theorem numBits_wrapping (f : TForm) : f.numBits .wrapping = .ok (f.bits % two64) := by
  cases f with
  | plain t r => exact umul_wrapping _ _
  | P t => rfl
  | Q t => rfl

theorem rowBits_wrapping {fs : List TForm} {acc : Nat} (ha : acc < two64) :
    rowBits .wrapping fs acc = .ok ((acc + total (fs.map TForm.bits)) % two64) := by
  induction fs generalizing acc with
  | nil => show Res.ok acc = .ok (acc % two64); rw [Nat.mod_eq_of_lt ha]
  | cons f fs ih =>
    have e : total ((f :: fs).map TForm.bits) = f.bits + total (fs.map TForm.bits) := rfl
    unfold rowBits
    rw [numBits_wrapping]
    simp only [Res.bind_ok]
    rw [uadd_wrapping]
    simp only [Res.bind_ok]
    rw [ih (Nat.mod_lt _ (by decide)), e]
    congr 1
    unfold two64
    omega

theorem colBytes_bits {f : TForm} : colBytes f = (f.bits + 7) / 8 := by
  cases f with
  | plain t r => cases t <;> simp only [colBytes, elemBytes, TForm.bits, ElemTy.bits] <;> omega
  | P t => simp [colBytes, TForm.bits]
  | Q t => simp [colBytes, TForm.bits]

theorem total_whole {fs : List TForm} (h : WholeBytes fs) :
    total (fs.map TForm.bits) = 8 * total (fs.map colBytes) := by
  induction fs with
  | nil => rfl
  | cons f fs ih =>
    have e1 : total ((f :: fs).map TForm.bits) = f.bits + total (fs.map TForm.bits) := rfl
    have e2 : total ((f :: fs).map colBytes) = colBytes f + total (fs.map colBytes) := rfl
    rw [e1, e2, ih (fun r hr => h r (by simp [hr])), colBytes_bits]
    have : f.bits % 8 = 0 := by
      cases f with
      | plain t r =>
        cases t with
        | X => have := h r (by simp); simp only [TForm.bits, ElemTy.bits]; omega
        | _ => simp only [TForm.bits, ElemTy.bits]; omega
      | P t => simp [TForm.bits]
      | Q t => simp [TForm.bits]
    omega

theorem binFields_columns {m : ValueMap} {i : Nat} {fs : List TForm}
    (h : ∀ j (h : j < fs.length), ∃ s, HasText m (kwN "TFORM" (i + j)) s ∧ TForm.ofStr s = some fs[j]) :
    (binFields m i fs.length).map Prod.fst = fs := by
  induction fs generalizing i with
  | nil => rfl
  | cons f fs ih =>
    obtain ⟨s, h1, h2⟩ := h 0 (by simp)
    simp only [List.length_cons, binFields]
    rw [show kwN "TFORM" i = kwN "TFORM" (i + 0) from rfl, getString_iff.2 h1]
    dsimp only
    rw [h2]
    simp only [List.map_cons, List.getElem_cons_zero]
    rw [ih]
    intro j hj
    obtain ⟨s, h3, h4⟩ := h (j + 1) (by simpa using hj)
    refine ⟨s, ?_, by simpa using h4⟩
    rw [Nat.add_right_comm, Nat.add_assoc]
    exact h3

end Fitsrs

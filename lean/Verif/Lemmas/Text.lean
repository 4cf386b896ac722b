import Verif.Spec.Text
/-
Helper lemmas on trimming and UTF-8 decoding.
-/

namespace Fitsrs

section Trim
variable {α : Type} {p : α → Bool}

theorem mem_takeWhile_imp {l : List α} {x : α} (h : x ∈ l.takeWhile p) : p x = true := by
  induction l with
  | nil => simp at h
  | cons a l ih =>
    by_cases ha : p a = true
    · simp only [List.takeWhile_cons, ha, if_true, List.mem_cons] at h
      rcases h with rfl | h
      · exact ha
      · exact ih h
    · simp [ha] at h

theorem dropWhile_all {l : List α} (h : ∀ x ∈ l, p x = true) : l.dropWhile p = [] := by
  induction l with
  | nil => rfl
  | cons a l ih =>
    have ha := h a (by simp)
    simp only [List.dropWhile_cons, ha, if_true]
    exact ih (fun x hx => h x (by simp [hx]))

theorem dropWhile_append_all {a l : List α} (h : ∀ x ∈ a, p x = true) :
    (a ++ l).dropWhile p = l.dropWhile p := by
  induction a with
  | nil => rfl
  | cons x a ih =>
    have hx := h x (by simp)
    simp only [List.cons_append, List.dropWhile_cons, hx, if_true]
    exact ih (fun y hy => h y (by simp [hy]))

theorem dropWhile_of_head {l : List α} (h : ∀ x, l.head? = some x → p x = false) :
    l.dropWhile p = l := by
  cases l with
  | nil => rfl
  | cons a l => simp [h a rfl]

theorem trimEndBy_append_all {l b : List α} (h : ∀ x ∈ b, p x = true) :
    trimEndBy p (l ++ b) = trimEndBy p l := by
  unfold trimEndBy
  rw [List.reverse_append, dropWhile_append_all (by simpa using h)]

theorem trimEndBy_of_last {l : List α} (h : ∀ x, l.getLast? = some x → p x = false) :
    trimEndBy p l = l := by
  unfold trimEndBy
  rw [dropWhile_of_head, List.reverse_reverse]
  intro x hx
  rw [List.head?_reverse] at hx
  exact h x hx

theorem trimEndBy_all {l : List α} (h : ∀ x ∈ l, p x = true) : trimEndBy p l = [] := by
  unfold trimEndBy
  rw [dropWhile_all (by simpa using h)]; rfl

theorem trimEndBy_nil : trimEndBy p ([] : List α) = [] := rfl

/-- Any list is its trimmed version followed by elements satisfying `p`. -/
theorem trimEndBy_spec (l : List α) :
    ∃ b, l = trimEndBy p l ++ b ∧ (∀ x ∈ b, p x = true) ∧
      ∀ x, (trimEndBy p l).getLast? = some x → p x = false := by
  refine ⟨(l.reverse.takeWhile p).reverse, ?_, ?_, ?_⟩
  · unfold trimEndBy
    rw [← List.reverse_append, List.takeWhile_append_dropWhile, List.reverse_reverse]
  · intro x hx
    rw [List.mem_reverse] at hx
    exact mem_takeWhile_imp hx
  · intro x hx
    unfold trimEndBy at hx
    rw [List.getLast?_reverse] at hx
    generalize hl : l.reverse = m at hx
    clear hl
    induction m with
    | nil => simp at hx
    | cons a m ih =>
      by_cases ha : p a = true
      · simp [ha] at hx; exact ih hx
      · simp [ha] at hx; subst hx; simpa using ha

theorem dropWhile_spec (l : List α) :
    ∃ a, l = a ++ l.dropWhile p ∧ (∀ x ∈ a, p x = true) ∧
      ∀ x, (l.dropWhile p).head? = some x → p x = false := by
  refine ⟨l.takeWhile p, (List.takeWhile_append_dropWhile).symm, fun x hx => mem_takeWhile_imp hx, ?_⟩
  intro x hx
  induction l with
  | nil => simp at hx
  | cons a m ih =>
    by_cases ha : p a = true
    · simp [ha] at hx; exact ih hx
    · simp [ha] at hx; subst hx; simpa using ha

theorem trimBy_spec (l : List α) :
    ∃ a b, l = a ++ trimBy p l ++ b ∧ (∀ x ∈ a, p x = true) ∧ (∀ x ∈ b, p x = true) := by
  obtain ⟨a, h1, h2, -⟩ := dropWhile_spec (p := p) l
  obtain ⟨b, h3, h4, -⟩ := trimEndBy_spec (p := p) (l.dropWhile p)
  refine ⟨a, b, ?_, h2, h4⟩
  unfold trimBy
  rw [List.append_assoc, ← h3, ← h1]

theorem trimBy_last (l : List α) : ∀ x, (trimBy p l).getLast? = some x → p x = false := by
  obtain ⟨b, h3, h4, h5⟩ := trimEndBy_spec (p := p) (l.dropWhile p)
  exact h5

theorem trimBy_head (l : List α) : ∀ x, (trimBy p l).head? = some x → p x = false := by
  intro x hx
  obtain ⟨a, h1, h2, h3⟩ := dropWhile_spec (p := p) l
  obtain ⟨b, h4, -, -⟩ := trimEndBy_spec (p := p) (l.dropWhile p)
  apply h3
  rw [h4]
  unfold trimBy at hx
  cases ht : trimEndBy p (l.dropWhile p) with
  | nil => simp [ht] at hx
  | cons y ys => simp [ht] at hx ⊢; exact hx

/-- Trimming a core with non-blank ends surrounded by blanks. -/
theorem trimBy_core {a m b : List α} (ha : ∀ x ∈ a, p x = true) (hb : ∀ x ∈ b, p x = true)
    (hh : ∀ x, m.head? = some x → p x = false) (hl : ∀ x, m.getLast? = some x → p x = false) :
    trimBy p (a ++ m ++ b) = m := by
  unfold trimBy
  rw [List.append_assoc, dropWhile_append_all ha]
  cases m with
  | nil =>
    rw [List.nil_append, dropWhile_all hb]; rfl
  | cons x m =>
    have : ((x :: m) ++ b).dropWhile p = (x :: m) ++ b := by
      apply dropWhile_of_head
      intro y hy
      simp at hy; subst hy; exact hh _ rfl
    rw [this, trimEndBy_append_all hb, trimEndBy_of_last hl]

theorem trimBy_all {l : List α} (h : ∀ x ∈ l, p x = true) : trimBy p l = [] := by
  unfold trimBy; rw [dropWhile_all h]; rfl

theorem trimBy_length_le (l : List α) : (trimBy p l).length ≤ l.length := by
  obtain ⟨a, b, h, -, -⟩ := trimBy_spec (p := p) l
  have := congrArg List.length h
  simp at this; omega

theorem trimBy_mem {l : List α} {x : α} (h : x ∈ trimBy p l) : x ∈ l := by
  obtain ⟨a, b, e, -, -⟩ := trimBy_spec (p := p) l
  rw [e]; simp [h]

theorem trimEndBy_mem {l : List α} {x : α} (h : x ∈ trimEndBy p l) : x ∈ l := by
  obtain ⟨b, e, -, -⟩ := trimEndBy_spec (p := p) l
  rw [e]; simp [h]

end Trim

/-! ### UTF-8 -/

/-- A single byte decodes to the ASCII character. -/
theorem utf8Step_ascii {b : UInt8} (h : b.toNat < 0x80) (bs : List UInt8) :
    utf8Step b bs = (some (Char.ofNat b.toNat), 0) := by
  unfold utf8Step; simp [h]

theorem toNat_ofNat_lt {n : Nat} (h : n < 0xD800) : (Char.ofNat n).toNat = n := by
  have : n.isValidChar := Or.inl h
  simp only [Char.ofNat, this, dif_pos]
  simp [Char.toNat, Char.ofNatAux]

theorem toNat_ofNat_valid {n : Nat} (h : n.isValidChar) : (Char.ofNat n).toNat = n := by
  simp only [Char.ofNat, h, dif_pos]
  simp [Char.toNat, Char.ofNatAux]

/-- A multi-byte sequence never decodes to an ASCII character. -/
theorem utf8Step_multi {b : UInt8} {bs : List UInt8} {c : Char} {k : Nat} (h : 0x80 ≤ b.toNat)
    (hs : utf8Step b bs = (some c, k)) : 0x80 ≤ c.toNat := by
  unfold utf8Step at hs
  dsimp only at hs
  have hb := b.toNat_lt
  split at hs
  · omega
  split at hs
  · rename_i h1 h2
    split at hs
    · split at hs
      · rename_i b1 _ hc
        simp only [isCont, Bool.and_eq_true, decide_eq_true_eq] at hc
        have hs := (Prod.mk.inj hs).1
        rw [Option.some.injEq] at hs
        rw [← hs, toNat_ofNat_lt]
        · omega
        · omega
      · simp at hs
    · simp at hs
  split at hs
  · rename_i h1 h2 h3
    split at hs
    · split at hs
      · rename_i b1 t hc
        split at hs
        · split at hs
          · rename_i b2 _ hc2
            simp only [isCont, Bool.and_eq_true, decide_eq_true_eq] at hc2
            have hs := (Prod.mk.inj hs).1
            rw [Option.some.injEq] at hs
            unfold ok3 at hc
            split at hc
            · simp only [Bool.and_eq_true, decide_eq_true_eq] at hc
              rw [← hs, toNat_ofNat_valid]
              · omega
              · unfold Nat.isValidChar; omega
            · split at hc
              · simp only [Bool.and_eq_true, decide_eq_true_eq] at hc
                rw [← hs, toNat_ofNat_valid]
                · omega
                · unfold Nat.isValidChar; omega
              · simp only [isCont, Bool.and_eq_true, decide_eq_true_eq] at hc
                rw [← hs, toNat_ofNat_valid]
                · omega
                · unfold Nat.isValidChar; omega
          · simp at hs
        · simp at hs
      · simp at hs
    · simp at hs
  split at hs
  · rename_i h1 h2 h3 h4
    split at hs
    · split at hs
      · rename_i b1 t hc
        split at hs
        · split at hs
          · rename_i b2 u hc2
            split at hs
            · split at hs
              · rename_i b3 _ hc3
                simp only [isCont, Bool.and_eq_true, decide_eq_true_eq] at hc2 hc3
                have hs := (Prod.mk.inj hs).1
                rw [Option.some.injEq] at hs
                unfold ok4 at hc
                split at hc
                · simp only [Bool.and_eq_true, decide_eq_true_eq] at hc
                  rw [← hs, toNat_ofNat_valid]
                  · omega
                  · unfold Nat.isValidChar; omega
                · split at hc
                  · simp only [Bool.and_eq_true, decide_eq_true_eq] at hc
                    rw [← hs, toNat_ofNat_valid]
                    · omega
                    · unfold Nat.isValidChar; omega
                  · simp only [isCont, Bool.and_eq_true, decide_eq_true_eq] at hc
                    rw [← hs, toNat_ofNat_valid]
                    · omega
                    · unfold Nat.isValidChar; omega
              · simp at hs
            · simp at hs
          · simp at hs
        · simp at hs
      · simp at hs
    · simp at hs
  · simp at hs

/-- The character of an ASCII byte. -/
def asciiChar (b : UInt8) : Char := Char.ofNat b.toNat

theorem asciiChar_toNat {b : UInt8} (h : b.toNat < 0x80) : (asciiChar b).toNat = b.toNat :=
  toNat_ofNat_lt (by omega)

theorem utf8Lossy_ascii {bs : List UInt8} (h : ∀ b ∈ bs, b.toNat < 0x80) :
    utf8Lossy bs = bs.map asciiChar := by
  unfold utf8Lossy
  induction bs with
  | nil => rfl
  | cons b bs ih =>
    have hb := h b (by simp)
    simp only [lossyAux, utf8Step_ascii hb, Option.getD_some, List.map_cons]
    rw [ih (fun x hx => h x (by simp [hx]))]; rfl

theorem utf8Strict_ascii {bs : List UInt8} (h : ∀ b ∈ bs, b.toNat < 0x80) :
    utf8Strict bs = some (bs.map asciiChar) := by
  unfold utf8Strict
  induction bs with
  | nil => rfl
  | cons b bs ih =>
    have hb := h b (by simp)
    simp only [utf8Aux, utf8Step_ascii hb, List.map_cons]
    rw [ih (fun x hx => h x (by simp [hx]))]; rfl

/-- If strict decoding gives only ASCII characters, the bytes are those characters. -/
theorem utf8Strict_inv {bs : List UInt8} {s : Str} (hs : utf8Strict bs = some s)
    (h : ∀ c ∈ s, c.toNat < 0x80) : bs.map asciiChar = s ∧ ∀ b ∈ bs, b.toNat < 0x80 := by
  unfold utf8Strict at hs
  induction bs generalizing s with
  | nil => simp [utf8Aux] at hs; subst hs; simp
  | cons b bs ih =>
    by_cases hb : b.toNat < 0x80
    · simp only [utf8Aux, utf8Step_ascii hb] at hs
      obtain ⟨t, ht, rfl⟩ := Option.map_eq_some_iff.1 hs
      obtain ⟨h1, h2⟩ := ih ht (fun c hc => h c (by simp [hc]))
      refine ⟨by simp [h1, asciiChar], ?_⟩
      intro x hx
      rcases List.mem_cons.1 hx with rfl | hx
      · exact hb
      · exact h2 x hx
    · simp only [utf8Aux] at hs
      cases hst : utf8Step b bs with
      | mk o k =>
        rw [hst] at hs
        cases o with
        | none => simp at hs
        | some c =>
          simp only at hs
          obtain ⟨t, ht, rfl⟩ := Option.map_eq_some_iff.1 hs
          have h1 := utf8Step_multi (by omega) hst
          have h2 := h c (by simp)
          omega

theorem asciiChar_inj {a b : UInt8} (ha : a.toNat < 0x80) (hb : b.toNat < 0x80)
    (h : asciiChar a = asciiChar b) : a = b := by
  have := congrArg Char.toNat h
  rw [asciiChar_toNat ha, asciiChar_toNat hb] at this
  exact UInt8.toNat_inj.1 this

theorem toBytes_ascii {s : Str} (h : ∀ c ∈ s, c.toNat < 0x80) : ∀ b ∈ toBytes s, b.toNat < 0x80 := by
  intro b hb
  obtain ⟨c, hc, rfl⟩ := List.mem_map.1 hb
  have := h c hc
  simp only [UInt8.toNat_ofNat']
  omega

theorem map_asciiChar_toBytes {s : Str} (h : ∀ c ∈ s, c.toNat < 0x80) :
    (toBytes s).map asciiChar = s := by
  unfold toBytes
  rw [List.map_map]
  conv => rhs; rw [← List.map_id s]
  apply List.map_congr_left
  intro c hc
  have := h c hc
  simp only [Function.comp_apply, asciiChar, UInt8.toNat_ofNat', id]
  rw [Nat.mod_eq_of_lt (by omega)]
  exact Char.ofNat_toNat c

end Fitsrs

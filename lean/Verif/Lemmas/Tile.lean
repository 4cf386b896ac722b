import Verif.Spec.Tile
import Verif.Lemmas.Basic
/-
Lemmas about the bytes of tiles.
-/

namespace Fitsrs
open Spec TileIt

theorem flatMap_range_length {α : Type} (f : Nat → Nat → α) (m k : Nat) :
    ((List.range m).flatMap fun j => (List.range k).map (f j)).length = m * k := by
  induction m with
  | zero => simp
  | succ m ih => rw [List.range_succ, List.flatMap_append, List.length_append, ih]; simp [Nat.add_mul]

theorem flatMap_range_get {α : Type} (f : Nat → Nat → α) {m k i j : Nat} (hj : j < m) (hi : i < k) :
    ((List.range m).flatMap fun j => (List.range k).map (f j))[j * k + i]? = some (f j i) := by
  induction m with
  | zero => omega
  | succ m ih =>
    rw [List.range_succ, List.flatMap_append]
    by_cases h : j < m
    · have h1 : j * k + k ≤ m * k := by rw [← Nat.succ_mul]; exact Nat.mul_le_mul_right _ h
      rw [List.getElem?_append_left (by rw [flatMap_range_length]; omega), ih h]
    · have hj' : j = m := by omega
      subst hj'
      rw [List.getElem?_append_right (by rw [flatMap_range_length]; omega), flatMap_range_length, Nat.add_sub_cancel_left]
      simp [hi]

theorem shuffle_length {bytes : List UInt8} {k : Nat} (h : bytes.length = 4 * k) : (shuffle bytes).length = 4 * k := by
  unfold shuffle
  rw [flatMap_range_length (fun j i => bytes.getD (4 * i + j) 0), h]
  omega

theorem shuffle_get {bytes : List UInt8} {k i j : Nat} (h : bytes.length = 4 * k) (hi : i < k) (hj : j < 4) :
    (shuffle bytes)[j * k + i]? = bytes[4 * i + j]? := by
  unfold shuffle
  have e : bytes.length / 4 = k := by omega
  rw [e, flatMap_range_get (fun j i => bytes.getD (4 * i + j) 0) hj hi]
  rw [List.getD_eq_getElem?_getD, List.getElem?_eq_getElem (by omega)]
  rfl

theorem byteAt_congr {a b : List UInt8} {i j : Nat} (h : a[i]? = b[j]?) : byteAt a i = byteAt b j := by
  unfold byteAt; rw [h]

theorem byteAt_none {a : List UInt8} {i : Nat} (h : a.length ≤ i) : byteAt a i = .panic := by
  unfold byteAt; rw [List.getElem?_eq_none h]

theorem bytesNat_congr {a b : List UInt8} : (is js : List Nat) → (hl : is.length = js.length) →
    (h : ∀ n : Nat, ∀ i j : Nat, is[n]? = some i → js[n]? = some j → a[i]? = b[j]?) → ∀ acc,
    bytesNat a is acc = bytesNat b js acc
  | [], [], _, _, _ => rfl
  | i :: is, j :: js, hl, h, acc => by
    rw [bytesNat, bytesNat, byteAt_congr (h 0 i j rfl rfl)]
    cases byteAt b j with
    | ok x =>
      rw [Res.bind_ok, Res.bind_ok]
      exact bytesNat_congr is js (by simpa using hl) (fun n i j h1 h2 => h (n + 1) i j (by simpa using h1) (by simpa using h2)) _
    | err e => rfl
    | panic => rfl

/-- A byte missing makes the reading of a pixel panic. -/
theorem bytesNat_panic {a : List UInt8} {is : List Nat} (h : ∃ i ∈ is, a.length ≤ i) (acc : Nat) :
    bytesNat a is acc = .panic := by
  induction is generalizing acc with
  | nil => obtain ⟨i, hi, -⟩ := h; cases hi
  | cons i is ih =>
    rw [bytesNat]
    obtain ⟨j, hj, hl⟩ := h
    by_cases hi : a.length ≤ i
    · rw [byteAt_none hi]; rfl
    · have hm : j ∈ is := by
        rcases List.mem_cons.1 hj with rfl | hm
        · exact absurd hl hi
        · exact hm
      have e : byteAt a i = .ok (a[i]'(by omega)) := by
        unfold byteAt; rw [List.getElem?_eq_getElem (by omega)]
      rw [e, Res.bind_ok]
      exact ih ⟨j, hm, hl⟩ _

/-- Reading a pixel in shuffled bytes. -/
theorem rawValue_shuffle {ty : Bitpix} (ht : ty ≠ .u8) {buf : List UInt8} {k : Nat} (h : buf.length = 4 * k) (i : Nat) :
    rawValue ty .gzip2 (shuffle buf) i = rawValue ty .gzip1 buf i := by
  have hs := shuffle_length h
  have hk : 4 * k / 4 = k := by omega
  unfold rawValue
  dsimp only
  congr 1
  rw [hs, h]
  by_cases hi : i < k
  · have g : ∀ j, j < 4 → (shuffle buf)[j * k + i]? = buf[4 * i + j]? := fun j hj => shuffle_get h hi hj
    have g0 := g 0 (by decide)
    have g1 := g 1 (by decide)
    have g2 := g 2 (by decide)
    have g3 := g 3 (by decide)
    have hall : ∀ ty', (ty' = Bitpix.i16 ∨ (ty' ≠ .u8 ∧ ty' ≠ .i16)) →
        bytesNat (shuffle buf) (indices ty' .gzip2 (4 * k) i) 0 = bytesNat buf (indices ty' .gzip1 (4 * k) i) 0 := by
      intro ty' hty
      rcases hty with rfl | hty
      · refine bytesNat_congr [2 * (4 * k / 4) + i, 3 * (4 * k / 4) + i] [4 * i + 2, 4 * i + 3] rfl ?_ 0
        intro n a b ha hb
        rw [hk] at ha
        match n with
        | 0 => cases ha; cases hb; exact g2
        | 1 => cases ha; cases hb; exact g3
        | n + 2 => cases ha
      · have e1 : indices ty' .gzip2 (4 * k) i = [i, i + k, i + 2 * k, i + 3 * k] := by
          cases ty' <;> simp_all [indices]
        have e2 : indices ty' .gzip1 (4 * k) i = [4 * i, 4 * i + 1, 4 * i + 2, 4 * i + 3] := by
          cases ty' <;> simp_all [indices]
        rw [e1, e2]
        refine bytesNat_congr [i, i + k, i + 2 * k, i + 3 * k] [4 * i, 4 * i + 1, 4 * i + 2, 4 * i + 3] rfl ?_ 0
        intro n a b ha hb
        match n with
        | 0 => cases ha; cases hb; simpa using g0
        | 1 => cases ha; cases hb; rw [Nat.add_comm i k]; simpa using g1
        | 2 => cases ha; cases hb; rw [Nat.add_comm i (2 * k)]; exact g2
        | 3 => cases ha; cases hb; rw [Nat.add_comm i (3 * k)]; exact g3
        | n + 4 => cases ha
    refine hall ty ?_
    by_cases h16 : ty = .i16
    · exact .inl h16
    · exact .inr ⟨ht, h16⟩
  · have p1 : ∃ j ∈ indices ty .gzip2 (4 * k) i, (shuffle buf).length ≤ j := by
      refine ⟨i + 3 * k, ?_, by omega⟩
      cases ty <;> simp_all [indices]
      omega
    have p2 : ∃ j ∈ indices ty .gzip1 (4 * k) i, buf.length ≤ j := by
      refine ⟨4 * i + 3, ?_, by omega⟩
      cases ty <;> simp_all [indices]
    rw [bytesNat_panic p1, bytesNat_panic p2]

end Fitsrs

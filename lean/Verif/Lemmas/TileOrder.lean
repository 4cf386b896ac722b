import Verif.Spec.TileOrder
/-
The order of the pixels of tiles that are rows.
-/

namespace Fitsrs
open Spec

theorem flatMap_congr_mem {α β : Type} {l : List α} {f g : α → List β} (h : ∀ a ∈ l, f a = g a) :
    l.flatMap f = l.flatMap g := by
  induction l with
  | nil => rfl
  | cons a l ih =>
    rw [List.flatMap_cons, List.flatMap_cons, h a (List.mem_cons_self ..), ih fun b hb => h b (List.mem_cons_of_mem _ hb)]

theorem range_mul_flatMap {α : Type} (a b : Nat) (ha : 0 < a) (g : Nat → Nat → List α) :
    (List.range (a * b)).flatMap (fun k => g (k / a) (k % a)) =
      (List.range b).flatMap fun j => (List.range a).flatMap fun i => g j i := by
  induction b with
  | zero => rfl
  | succ b ih =>
    rw [Nat.mul_succ, List.range_add, List.flatMap_append, ih, List.range_succ, List.flatMap_append]
    congr 1
    rw [List.flatMap_map, List.flatMap_cons, List.flatMap_nil, List.append_nil]
    apply flatMap_congr_mem
    intro i hi
    have hi := List.mem_range.1 hi
    rw [Nat.mul_add_div ha, Nat.div_eq_of_lt hi, Nat.add_zero, Nat.mul_add_mod, Nat.mod_eq_of_lt hi]

theorem range_mul_map (a b : Nat) :
    (List.range b).flatMap (fun j => (List.range a).map fun i => j * a + i) = List.range (a * b) := by
  induction b with
  | zero => rfl
  | succ b ih =>
    rw [List.range_succ, List.flatMap_append, ih, Nat.mul_succ, List.range_add, List.flatMap_cons, List.flatMap_nil,
      List.append_nil, Nat.mul_comm a b]

theorem tilesAlong_one {n : Nat} : tilesAlong n 1 = n := by unfold tilesAlong; omega

theorem tilesAlong_self {n : Nat} (h : 0 < n) : tilesAlong n n = 1 := by
  unfold tilesAlong
  rw [show n + n - 1 = n * 1 + (n - 1) by omega, Nat.mul_add_div h, Nat.div_eq_of_lt (by omega)]

theorem tilesAlong_mul {n t : Nat} (ht : 0 < t) : n ≤ tilesAlong n t * t ∧ (∀ m, m < tilesAlong n t → m * t < n) := by
  unfold tilesAlong
  have h1 := Nat.div_add_mod (n + t - 1) t
  have h2 := Nat.mod_lt (n + t - 1) ht
  rw [Nat.mul_comm] at h1
  refine ⟨by omega, fun m hm => ?_⟩
  have h3 : (m + 1) * t ≤ (n + t - 1) / t * t := Nat.mul_le_mul_right _ hm
  rw [Nat.succ_mul] at h3
  omega

theorem blocks_range {n t : Nat} (ht : 0 < t) :
    (List.range (tilesAlong n t)).flatMap (fun b => (List.range (min t (n - b * t))).map fun x => b * t + x) =
      List.range n := by
  have : ∀ m, m ≤ tilesAlong n t →
      (List.range m).flatMap (fun b => (List.range (min t (n - b * t))).map fun x => b * t + x) =
        List.range (min (m * t) n) := by
    intro m
    induction m with
    | zero => intro _; simp
    | succ m ih =>
      intro hm
      have h := (tilesAlong_mul ht).2 m hm
      rw [List.range_succ, List.flatMap_append, ih (by omega), List.flatMap_cons, List.flatMap_nil, List.append_nil,
        Nat.min_eq_left (by omega), ← List.range_add, Nat.succ_mul]
      congr 1
      omega
  rw [this _ (Nat.le_refl _), Nat.min_eq_right (tilesAlong_mul ht).1]

theorem ones_tiles {ns ts : List Nat} (h1 : ∀ u ∈ ts, u = 1) (hl : ns.length = ts.length) :
    tileCount ns ts = Spec.product ns ∧ ∀ k < Spec.product ns, tileIndices ns ts k = [k] := by
  induction ns generalizing ts with
  | nil =>
    refine ⟨by cases ts <;> rfl, fun k hk => ?_⟩
    have hk : k < 1 := hk
    obtain rfl : k = 0 := by omega
    cases ts <;> rfl
  | cons n ns ih =>
    cases ts with
    | nil => cases hl
    | cons t ts =>
      obtain rfl : t = 1 := h1 t (List.mem_cons_self ..)
      obtain ⟨g1, g2⟩ := ih (fun u hu => h1 u (List.mem_cons_of_mem _ hu)) (by simpa using hl)
      have e : Spec.product (n :: ns) = n * Spec.product ns := rfl
      refine ⟨by rw [tileCount, tilesAlong_one, g1, e], fun k hk => ?_⟩
      rw [e] at hk
      have hn : 0 < n := by
        rcases Nat.eq_zero_or_pos n with rfl | h
        · rw [Nat.zero_mul] at hk; omega
        · exact h
      have hm := Nat.mod_lt k hn
      rw [tileIndices, tilesAlong_one, g2 _ (Nat.div_lt_of_lt_mul hk)]
      rw [Nat.mul_one, Nat.min_eq_left (by omega), List.flatMap_cons, List.flatMap_nil, List.append_nil]
      simp only [List.range_one, List.map_cons, List.map_nil, Nat.add_zero]
      rw [Nat.mul_comm, Nat.div_add_mod]

/-- The tiles, one after the other, cover the image in order. -/
theorem rowTiles_order {ns ts : List Nat} (h : RowTiles ns ts) (hp : ∀ n ∈ ns, 0 < n) :
    (List.range (tileCount ns ts)).flatMap (tileIndices ns ts) = List.range (Spec.product ns) := by
  induction h with
  | @run n t ns ts ht h1 hl =>
    obtain ⟨g1, g2⟩ := ones_tiles h1 hl
    have hn := hp n (List.mem_cons_self ..)
    have ha : 0 < tilesAlong n t := by
      rcases Nat.eq_zero_or_pos (tilesAlong n t) with h | h
      · have := (tilesAlong_mul (n := n) ht).1
        rw [h] at this; omega
      · exact h
    show (List.range (tilesAlong n t * tileCount ns ts)).flatMap _ = List.range (n * Spec.product ns)
    rw [g1]
    have := range_mul_flatMap (tilesAlong n t) (Spec.product ns) ha fun q b =>
      (tileIndices ns ts q).flatMap fun j => (List.range (min t (n - b * t))).map fun x => j * n + (b * t + x)
    refine Eq.trans (flatMap_congr_mem fun k _ => rfl) (this.trans ?_)
    rw [← range_mul_map n (Spec.product ns)]
    apply flatMap_congr_mem
    intro j hj
    rw [g2 j (List.mem_range.1 hj)]
    rw [← blocks_range (n := n) ht, List.map_flatMap]
    apply flatMap_congr_mem
    intro b _
    simp [List.map_map, Function.comp_def]
  | @full n ns ts _ ih =>
    have hn := hp n (List.mem_cons_self ..)
    have ih := ih fun m hm => hp m (List.mem_cons_of_mem _ hm)
    show (List.range (tilesAlong n n * tileCount ns ts)).flatMap _ = List.range (n * Spec.product ns)
    rw [tilesAlong_self hn, Nat.one_mul, ← range_mul_map, ← ih, List.flatMap_assoc]
    apply flatMap_congr_mem
    intro k _
    rw [tileIndices, tilesAlong_self hn, Nat.div_one, Nat.mod_one, Nat.zero_mul, Nat.sub_zero, Nat.min_self]
    apply flatMap_congr_mem
    intro j _
    simp

/-! ## The order of tiles of any shape -/

theorem flatMap_swap {α β γ : Type} (l : List α) (m : List β) (f : α → β → List γ) :
    (l.flatMap fun a => m.flatMap (f a)).Perm (m.flatMap fun b => l.flatMap fun a => f a b) := by
  induction l with
  | nil =>
    have : (m.flatMap fun _ => ([] : List γ)) = [] := by simp
    rw [show (m.flatMap fun b => ([] : List α).flatMap fun a => f a b) = [] from this]
    exact .nil
  | cons a l ih =>
    rw [List.flatMap_cons]
    refine (ih.append_left _).trans ?_
    clear ih
    induction m with
    | nil => exact .nil
    | cons b m ih =>
      simp only [List.flatMap_cons, List.append_assoc]
      refine List.Perm.append_left _ ?_
      refine (List.perm_append_comm_assoc _ _ _).trans (List.Perm.append_left _ ?_)
      simpa only [List.flatMap_cons] using ih

theorem flatMap_perm {α β : Type} {l : List α} {f g : α → List β} (h : ∀ a, (f a).Perm (g a)) :
    (l.flatMap f).Perm (l.flatMap g) := by
  induction l with
  | nil => exact .nil
  | cons a l ih => exact (h a).append ih

theorem tileIndices_length (ns ts : List Nat) (k : Nat) : (tileIndices ns ts k).length = tilePixels ns ts k := by
  induction ns generalizing ts k with
  | nil => rfl
  | cons n ns ih =>
    cases ts with
    | nil => rfl
    | cons t ts =>
      rw [tileIndices, tilePixels, ← ih]
      generalize tileIndices ns ts (k / tilesAlong n t) = l
      induction l with
      | nil => simp
      | cons a l ih =>
        rw [List.flatMap_cons, List.length_append, ih, List.length_cons, Nat.mul_succ]
        simp [Nat.add_comm]

theorem tilesAlong_pos {n t : Nat} (hn : 0 < n) (ht : 0 < t) : 0 < tilesAlong n t := by
  rcases Nat.eq_zero_or_pos (tilesAlong n t) with h | h
  · have := (tilesAlong_mul (n := n) ht).1
    rw [h] at this; omega
  · exact h

theorem tileOrder_cons {n t : Nat} {ns ts : List Nat} (hn : 0 < n) (ht : 0 < t) :
    tileOrder (n :: ns) (t :: ts) = (List.range (tileCount ns ts)).flatMap fun q => (List.range (tilesAlong n t)).flatMap fun b =>
      (tileIndices ns ts q).flatMap fun j => (List.range (min t (n - b * t))).map fun x => j * n + (b * t + x) :=
  Eq.trans (flatMap_congr_mem fun _ _ => rfl) (range_mul_flatMap (tilesAlong n t) (tileCount ns ts) (tilesAlong_pos hn ht)
    fun q b => (tileIndices ns ts q).flatMap fun j => (List.range (min t (n - b * t))).map fun x => j * n + (b * t + x))

/-- Every pixel of the image is in a tile, and in one only. -/
theorem tileOrder_perm {ns ts : List Nat} (hl : ns.length = ts.length) (hn : ∀ n ∈ ns, 0 < n) (ht : ∀ t ∈ ts, 0 < t) :
    (tileOrder ns ts).Perm (List.range (Spec.product ns)) := by
  induction ns generalizing ts with
  | nil =>
    cases ts with
    | nil => exact .refl _
    | cons t ts => cases hl
  | cons n ns ih =>
    cases ts with
    | nil => cases hl
    | cons t ts =>
      have hn0 := hn n (List.mem_cons_self ..)
      have ht0 := ht t (List.mem_cons_self ..)
      have ih := ih (ts := ts) (by simpa using hl) (fun m hm => hn m (List.mem_cons_of_mem _ hm))
        (fun m hm => ht m (List.mem_cons_of_mem _ hm))
      rw [tileOrder_cons hn0 ht0]
      have h1 : ∀ q, ((List.range (tilesAlong n t)).flatMap fun b =>
          (tileIndices ns ts q).flatMap fun j => (List.range (min t (n - b * t))).map fun x => j * n + (b * t + x)).Perm
          ((tileIndices ns ts q).flatMap fun j => (List.range n).map fun x => j * n + x) := by
        intro q
        refine (flatMap_swap _ _ _).trans (List.Perm.of_eq (flatMap_congr_mem fun j _ => ?_))
        rw [← blocks_range (n := n) ht0, List.map_flatMap]
        apply flatMap_congr_mem
        intro b _
        simp [List.map_map, Function.comp_def]
      refine (flatMap_perm h1).trans ?_
      show List.Perm _ (List.range (n * Spec.product ns))
      rw [← range_mul_map, ← List.flatMap_assoc]
      exact ih.flatMap_right _

theorem tileOrder_length {ns ts : List Nat} (hl : ns.length = ts.length) (hn : ∀ n ∈ ns, 0 < n) (ht : ∀ t ∈ ts, 0 < t) :
    (tileOrder ns ts).length = Spec.product ns := by
  rw [(tileOrder_perm hl hn ht).length_eq, List.length_range]

theorem tileIndices_zero {ns ts : List Nat} (ht : ∀ t ∈ ts, 0 < t) (hn : ∀ n ∈ ns, 0 < n) :
    ∃ l, tileIndices ns ts 0 = 0 :: l := by
  induction ns generalizing ts with
  | nil => exact ⟨[], rfl⟩
  | cons n ns ih =>
    cases ts with
    | nil => exact ⟨[], rfl⟩
    | cons t ts =>
      have hn0 := hn n (List.mem_cons_self ..)
      have ht0 := ht t (List.mem_cons_self ..)
      obtain ⟨l, h⟩ := ih (ts := ts) (fun m hm => ht m (List.mem_cons_of_mem _ hm)) (fun m hm => hn m (List.mem_cons_of_mem _ hm))
      rw [tileIndices, Nat.zero_div, h, List.flatMap_cons, Nat.zero_mod, Nat.zero_mul, Nat.zero_mul, Nat.sub_zero]
      obtain ⟨m, hm⟩ : ∃ m, min t n = m + 1 := ⟨min t n - 1, by omega⟩
      rw [hm, List.range_succ_eq_map]
      exact ⟨_, rfl⟩

theorem tilePixels_one {ns ts : List Nat} (ht : ∀ t ∈ ts, 0 < t) (hn : ∀ n ∈ ns, 0 < n) :
    tilePixels ns ts 0 = 1 ↔ ∀ q ∈ ns.zip ts, min q.2 q.1 = 1 := by
  induction ns generalizing ts with
  | nil => simp [tilePixels]
  | cons n ns ih =>
    cases ts with
    | nil => simp [tilePixels]
    | cons t ts =>
      have ih := ih (ts := ts) (fun m hm => ht m (List.mem_cons_of_mem _ hm)) (fun m hm => hn m (List.mem_cons_of_mem _ hm))
      rw [tilePixels, Nat.zero_div, Nat.zero_mod, Nat.zero_mul, Nat.sub_zero]
      simp only [List.zip_cons_cons, List.forall_mem_cons, ← ih]
      refine ⟨fun h => ⟨Nat.eq_one_of_mul_eq_one_right h, Nat.eq_one_of_mul_eq_one_left h⟩, fun ⟨h1, h2⟩ => ?_⟩
      rw [h1, h2]

theorem ones_tiles' {ns ts : List Nat} (hl : ns.length = ts.length) (hn : ∀ n ∈ ns, 0 < n) (ht : ∀ t ∈ ts, 0 < t)
    (h1 : ∀ q ∈ ns.zip ts, min q.2 q.1 = 1) :
    tileCount ns ts = Spec.product ns ∧ ∀ k < Spec.product ns, tileIndices ns ts k = [k] := by
  induction ns generalizing ts with
  | nil =>
    refine ⟨by cases ts <;> rfl, fun k hk => ?_⟩
    have hk : k < 1 := hk
    obtain rfl : k = 0 := by omega
    cases ts <;> rfl
  | cons n ns ih =>
    cases ts with
    | nil => cases hl
    | cons t ts =>
      have hn0 := hn n (List.mem_cons_self ..)
      have ht0 := ht t (List.mem_cons_self ..)
      rw [List.zip_cons_cons, List.forall_mem_cons] at h1
      obtain ⟨h0, h1⟩ := h1
      dsimp only at h0
      obtain ⟨g1, g2⟩ := ih (by simpa using hl) (fun m hm => hn m (List.mem_cons_of_mem _ hm))
        (fun m hm => ht m (List.mem_cons_of_mem _ hm)) h1
      have e : Spec.product (n :: ns) = n * Spec.product ns := rfl
      have ha : tilesAlong n t = n := by
        rcases (by omega : t = 1 ∨ n = 1) with rfl | rfl
        · exact tilesAlong_one
        · unfold tilesAlong
          rw [show 1 + t - 1 = t by omega, Nat.div_self ht0]
      refine ⟨by rw [tileCount, ha, g1, e], fun k hk => ?_⟩
      rw [e] at hk
      have hm := Nat.mod_lt k hn0
      have hb : k % n * t = k % n := by
        rcases (by omega : t = 1 ∨ n = 1) with rfl | rfl
        · rw [Nat.mul_one]
        · rw [Nat.mod_one, Nat.zero_mul]
      rw [tileIndices, ha, g2 _ (Nat.div_lt_of_lt_mul hk), hb, show min t (n - k % n) = 1 by omega,
        List.flatMap_cons, List.flatMap_nil, List.append_nil]
      simp only [List.range_one, List.map_cons, List.map_nil, Nat.add_zero]
      rw [Nat.mul_comm, Nat.div_add_mod]

theorem expand_inj {n : Nat} (hn : 0 < n) {l m : List Nat}
    (h : (l.flatMap fun j => (List.range n).map fun x => j * n + x) = m.flatMap fun j => (List.range n).map fun x => j * n + x) :
    l = m := by
  obtain ⟨n, rfl⟩ : ∃ k, n = k + 1 := ⟨n - 1, by omega⟩
  induction l generalizing m with
  | nil =>
    cases m with
    | nil => rfl
    | cons b m => simp [List.range_succ_eq_map] at h
  | cons a l ih =>
    cases m with
    | nil => simp [List.range_succ_eq_map] at h
    | cons b m =>
      rw [List.flatMap_cons, List.flatMap_cons] at h
      obtain ⟨h1, h2⟩ := List.append_inj h (by simp)
      rw [List.range_succ_eq_map, List.map_cons, List.map_cons] at h1
      have h3 := (List.cons.inj h1).1
      rw [Nat.add_zero, Nat.add_zero] at h3
      rw [Nat.eq_of_mul_eq_mul_right hn h3, ih h2]

theorem ones_order {ns ts : List Nat} (h : ∀ q ∈ ns.zip ts, min q.2 q.1 = 1) : InOrder ns ts := by
  match ns, ts, h with
  | [], [], _ => exact trivial
  | [], _ :: _, _ => exact trivial
  | _ :: _, [], _ => exact trivial
  | n :: ns, t :: ts, h =>
    rw [List.zip_cons_cons, List.forall_mem_cons] at h
    exact .inr h.2

/-- The tiles, one after the other, cover the image in order exactly if they are runs of it. -/
theorem tileOrder_iff {ns ts : List Nat} (hl : ns.length = ts.length) (hn : ∀ n ∈ ns, 0 < n) (ht : ∀ t ∈ ts, 0 < t) :
    tileOrder ns ts = List.range (Spec.product ns) ↔ InOrder ns ts := by
  induction ns generalizing ts with
  | nil =>
    cases ts with
    | nil => exact ⟨fun _ => trivial, fun _ => rfl⟩
    | cons t ts => cases hl
  | cons n ns ih =>
    cases ts with
    | nil => cases hl
    | cons t ts =>
      have hn0 := hn n (List.mem_cons_self ..)
      have ht0 := ht t (List.mem_cons_self ..)
      have hl' : ns.length = ts.length := by simpa using hl
      have hn' := fun m hm => hn m (List.mem_cons_of_mem n hm)
      have ht' := fun m hm => ht m (List.mem_cons_of_mem t hm)
      have ih := ih (ts := ts) hl' hn' ht'
      have e : Spec.product (n :: ns) = n * Spec.product ns := rfl
      rw [tileOrder_cons hn0 ht0, e]
      by_cases hnt : n ≤ t
      · have ha : tilesAlong n t = 1 := by
          unfold tilesAlong
          rw [show n + t - 1 = t * 1 + (n - 1) by omega, Nat.mul_add_div ht0, Nat.div_eq_of_lt (by omega)]
        have e1 : ((List.range (tileCount ns ts)).flatMap fun q => (List.range (tilesAlong n t)).flatMap fun b =>
            (tileIndices ns ts q).flatMap fun j => (List.range (min t (n - b * t))).map fun x => j * n + (b * t + x)) =
            (tileOrder ns ts).flatMap fun j => (List.range n).map fun x => j * n + x := by
          unfold tileOrder
          rw [List.flatMap_assoc, ha]
          apply flatMap_congr_mem
          intro q _
          simp [Nat.min_eq_right hnt]
        rw [e1, ← range_mul_map]
        constructor
        · exact fun h => .inl ⟨hnt, ih.1 (expand_inj hn0 h)⟩
        · intro h
          rw [ih.2 ?_]
          rcases h with h | h
          · exact h.2
          · exact ones_order h
      · constructor
        · intro h
          refine .inr ((tilePixels_one ht' hn').1 ?_)
          obtain ⟨l, h0⟩ := tileIndices_zero ht' hn'
          have hlen := tileIndices_length ns ts 0
          rw [h0, List.length_cons] at hlen
          rw [← hlen]
          cases l with
          | nil => rfl
          | cons j l =>
            exfalso
            have hc : 0 < tileCount ns ts := by
              rcases Nat.eq_zero_or_pos (tileCount ns ts) with hz | hz
              · have h3 := tileOrder_length hl' hn' ht'
                unfold tileOrder at h3
                rw [hz] at h3
                have h4 : Spec.product ns = 0 := h3.symm
                have h5 : ∀ ms : List Nat, (∀ m ∈ ms, 0 < m) → 0 < Spec.product ms := by
                  intro ms hm
                  induction ms with
                  | nil => exact Nat.one_pos
                  | cons m ms ih =>
                    exact Nat.mul_pos (hm m (List.mem_cons_self ..)) (ih fun k hk => hm k (List.mem_cons_of_mem _ hk))
                have := h5 ns hn'
                omega
              · exact hz
            obtain ⟨c, hc⟩ : ∃ c, tileCount ns ts = c + 1 := ⟨tileCount ns ts - 1, by omega⟩
            obtain ⟨a, ha⟩ : ∃ a, tilesAlong n t = a + 1 :=
              ⟨tilesAlong n t - 1, by have := tilesAlong_pos hn0 ht0; omega⟩
            rw [hc, ha, List.range_succ_eq_map, List.range_succ_eq_map, List.flatMap_cons, List.flatMap_cons, h0,
              List.flatMap_cons, List.flatMap_cons, Nat.zero_mul, Nat.zero_mul, Nat.sub_zero, Nat.min_eq_left (by omega)] at h
            simp only [Nat.zero_add, List.append_assoc] at h
            have h2 := congrArg (fun l => l[t]?) h
            rw [List.getElem?_append_right (by simp)] at h2
            obtain ⟨t, rfl⟩ : ∃ k, t = k + 1 := ⟨t - 1, by omega⟩
            rw [List.length_map, List.length_range, Nat.sub_self, List.range_succ_eq_map, List.map_cons, List.cons_append,
              List.getElem?_cons_zero] at h2
            have h3 := (List.getElem?_eq_some_iff.1 h2.symm).2
            rw [List.getElem_range] at h3
            rcases Nat.eq_zero_or_pos j with rfl | hj
            · omega
            · have := Nat.le_mul_of_pos_left n hj
              omega
        · intro h
          have h : ∀ q ∈ ns.zip ts, min q.2 q.1 = 1 := by
            rcases h with h | h
            · exact absurd h.1 hnt
            · exact h
          obtain ⟨g1, g2⟩ := ones_tiles' hl' hn' ht' h
          rw [← range_mul_map, g1]
          apply flatMap_congr_mem
          intro j hj
          rw [g2 j (List.mem_range.1 hj), ← blocks_range (n := n) ht0, List.map_flatMap]
          apply flatMap_congr_mem
          intro b _
          simp [List.map_map, Function.comp_def]

end Fitsrs

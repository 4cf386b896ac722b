import Verif.Props.C64
/-
C64, exactly: the iterator ends unless it returns an HDU twice.
-/

namespace Fitsrs
open Spec Fits

/-- What the `i`-th call returns, counting from 0. -/
def callAt (p : Profile) (f : Fits) (i : Nat) : Option (Res HDU) := ((calls p (i + 1) f)[i]?).join

/-- The iterator before that call. -/
def stateAt (p : Profile) (f : Fits) : Nat → Fits
  | 0 => f
  | i + 1 => ((stateAt p f i).next p).2

theorem stateAt_next (p : Profile) (f : Fits) (i : Nat) : stateAt p (f.next p).2 i = stateAt p f (i + 1) := by
  induction i with
  | zero => rfl
  | succ i ih => show ((stateAt p (f.next p).2 i).next p).2 = _; rw [ih]; rfl

theorem calls_get (p : Profile) (f : Fits) (n i : Nat) (h : i < n) :
    (calls p n f)[i]? = some ((stateAt p f i).next p).1 := by
  induction n generalizing f i with
  | zero => omega
  | succ n ih =>
    unfold calls
    cases i with
    | zero => rfl
    | succ i => rw [List.getElem?_cons_succ, ih _ _ (by omega), stateAt_next]

theorem calls_length (p : Profile) (n : Nat) (f : Fits) : (calls p n f).length = n := by
  induction n generalizing f with
  | zero => rfl
  | succ n ih => unfold calls; rw [List.length_cons, ih]

theorem callAt_eq (p : Profile) (f : Fits) (i : Nat) : callAt p f i = ((stateAt p f i).next p).1 := by
  unfold callAt
  rw [calls_get p f (i + 1) i (by omega)]
  rfl

theorem stateAt_data (p : Profile) (f : Fits) (i : Nat) : (stateAt p f i).rd.data = f.rd.data := by
  induction i with
  | zero => rfl
  | succ i ih => exact (Fits.next_data (p := p) (f := stateAt p f i)).trans ih

/-- The state depends only on the file and the HDU that has just been returned. -/
theorem state_of_hdu {p : Profile} {f f' g g' : Fits} {h : HDU} (hn : f.next p = (some (.ok h), f'))
    (hm : g.next p = (some (.ok h), g')) (hd : f.rd.data = g.rd.data) : f' = g' := by
  obtain ⟨a1, a2, a3, a4, a5, a6⟩ := next_ok_state hn
  obtain ⟨b1, b2, b3, b4, b5, b6⟩ := next_ok_state hm
  have h1 : f'.rd = g'.rd := by
    cases hf : f'.rd
    cases hg : g'.rd
    rw [hf] at a1 a2
    rw [hg] at b1 b2
    simp only at a1 a2 b1 b2
    rw [a1, a2, b1, b2, hd]
  have h2 : f'.numBytes = g'.numBytes := Res.ok.inj (a4.symm.trans b4)
  cases f'
  cases g'
  simp only at *
  subst h1 h2 a3 a5 a6 b3 b5 b6
  rfl

theorem callAt_ok {p : Profile} {f : Fits} {i : Nat} {h : HDU} (hi : callAt p f i = some (.ok h)) :
    (stateAt p f i).next p = (some (.ok h), stateAt p f (i + 1)) := by
  rw [callAt_eq] at hi
  rw [← hi]
  rfl

/-- If an HDU comes a second time, everything that followed it comes again. -/
theorem comes_again {p : Profile} {f : Fits} {i k : Nat} {h : HDU} (hi : callAt p f i = some (.ok h))
    (hj : callAt p f (i + k) = some (.ok h)) (n : Nat) : callAt p f (i + n + k) = callAt p f (i + n) := by
  have hs : stateAt p f (i + k + 1) = stateAt p f (i + 1) :=
    state_of_hdu (callAt_ok hj) (callAt_ok hi) (by rw [stateAt_data, stateAt_data])
  have key : ∀ n, stateAt p f (i + 1 + n + k) = stateAt p f (i + 1 + n) := by
    intro n
    induction n with
    | zero => rw [Nat.add_zero, show i + 1 + k = i + k + 1 by omega]; exact hs
    | succ n ih =>
      rw [show i + 1 + (n + 1) + k = (i + 1 + n + k) + 1 by omega, show i + 1 + (n + 1) = (i + 1 + n) + 1 by omega]
      show ((stateAt p f (i + 1 + n + k)).next p).2 = ((stateAt p f (i + 1 + n)).next p).2
      rw [ih]
  cases n with
  | zero => rw [Nat.add_zero, hj, hi]
  | succ n =>
    rw [callAt_eq, callAt_eq, show i + (n + 1) + k = i + 1 + n + k by omega, show i + (n + 1) = i + 1 + n by omega, key]

/-- An HDU that comes after the first call is read at some place of the file. -/
theorem ext_place {p : Profile} {f : Fits} {h : HDU} (hs : f.start = false) (hn : (f.next p).1 = some (.ok h)) :
    ∃ T < f.rd.data.length, (extensionAt p f.rd.data T).1 = .ok h := by
  have he : f.errored = false := by
    cases hc : f.errored with
    | false => rfl
    | true => unfold Fits.next at hn; rw [if_pos hc] at hn; cases hn
  have hn' : f.next p = (some (.ok h), (f.next p).2) := by rw [← hn]
  unfold Fits.next at hn'
  rw [if_neg (by simp [he]), if_neg (by simp [hs])] at hn'
  split at hn'
  · rename_i rd hc
    have hd : rd.data = f.rd.data := by
      have h2 : (f.consumeUntilNextHdu p).2.data = f.rd.data := by
        unfold consumeUntilNextHdu
        split
        · exact seekRelative_data _ _
        · rfl
        · rfl
      rw [hc] at h2
      exact h2
    dsimp only at hn'
    have h1 := (record_ok hn').1
    have h3 : (HDU.newXtension p { rd, nread := 0 }).1 = .ok h := by
      split at h1
      · split at h1
        · cases h1
        · simpa using h1
      · simpa using h1
    have e : (⟨f.rd.data, rd.pos⟩ : Reader) = rd := by rw [← hd]
    refine ⟨rd.pos, ?_, ?_⟩
    · rw [← hd]
      refine Nat.lt_of_not_le fun hle => ?_
      have := extensionAt_eof (p := p) (data := rd.data) (T := rd.pos) (by omega)
      unfold extensionAt at this
      rw [show (⟨rd.data, rd.pos⟩ : Reader) = rd from rfl] at this
      rw [this] at h3
      cases h3
    · unfold extensionAt
      rw [e]
      exact h3
  · have h1 := (record_ok hn').1
    simp at h1
  · have h1 := (record_ok hn').1
    simp at h1

theorem distinct_length {α : Type} [DecidableEq α] {a b : List α} (h : a.Nodup) (hs : ∀ x ∈ a, x ∈ b) :
    a.length ≤ b.length := by
  induction a generalizing b with
  | nil => exact Nat.zero_le _
  | cons x a ih =>
    obtain ⟨h1, h2⟩ := List.nodup_cons.1 h
    have hx := hs x (List.mem_cons_self ..)
    have := ih h2 (b := b.erase x) (by
      intro y hy
      refine (List.mem_erase_of_ne ?_).2 (hs y (List.mem_cons_of_mem _ hy))
      rintro rfl
      exact h1 hy)
    rw [List.length_erase_of_mem hx] at this
    have := List.length_pos_of_mem hx
    rw [List.length_cons]
    omega

/-- If as many calls as there are bytes, and two more, return HDUs, one of them comes twice. -/
theorem comes_twice {p : Profile} {data : List UInt8}
    (hall : ∀ i < data.length + 2, ∃ h, callAt p (fromReader ⟨data, 0⟩) i = some (.ok h)) :
    ∃ i k h, 0 < k ∧ i + k < data.length + 2 ∧ callAt p (fromReader ⟨data, 0⟩) i = some (.ok h) ∧
      callAt p (fromReader ⟨data, 0⟩) (i + k) = some (.ok h) := by
  generalize hf : fromReader ⟨data, 0⟩ = f at hall ⊢
  have hd : f.rd.data = data := by rw [← hf]; rfl
  refine Classical.byContradiction fun hno => ?_
  have hplace : ∀ i, ∃ T, i < data.length + 1 → T < data.length ∧
      callAt p f (i + 1) = some (extensionAt p data T).1 := by
    intro i
    by_cases hi : i < data.length + 1
    · obtain ⟨h0, e0⟩ := hall i (by omega)
      obtain ⟨h, e⟩ := hall (i + 1) (by omega)
      have hs := (next_ok_state (callAt_ok e0)).2.2.2.2.2
      obtain ⟨T, h1, h2⟩ := ext_place hs ((callAt_eq p f (i + 1)).symm.trans e)
      rw [stateAt_data, hd] at h1 h2
      exact ⟨T, fun _ => ⟨h1, by rw [e, h2]⟩⟩
    · exact ⟨0, fun h => absurd h hi⟩
  obtain ⟨T, hT⟩ := Classical.axiomOfChoice hplace
  have hnd : ((List.range (data.length + 1)).map T).Nodup := by
    unfold List.Nodup
    rw [List.pairwise_map]
    refine List.Pairwise.imp_of_mem ?_ (List.pairwise_lt_range (n := data.length + 1))
    intro a b ha hb hab he
    have ha := List.mem_range.1 ha
    have hb := List.mem_range.1 hb
    obtain ⟨h, e⟩ := hall (a + 1) (by omega)
    refine hno ⟨a + 1, b - a, h, by omega, by omega, e, ?_⟩
    rw [show a + 1 + (b - a) = b + 1 by omega, (hT b hb).2, ← he, ← (hT a ha).2, e]
  have := distinct_length hnd (b := List.range data.length) (by
    intro x hx
    obtain ⟨i, hi, rfl⟩ := List.mem_map.1 hx
    exact List.mem_range.2 (hT i (List.mem_range.1 hi)).1)
  rw [List.length_map, List.length_range, List.length_range] at this
  omega

theorem for_ever {p : Profile} {f : Fits} {i k : Nat} {h : HDU} (hk : 0 < k) (hall : ∀ n < i + k, ∃ h, callAt p f n = some (.ok h))
    (e1 : callAt p f i = some (.ok h)) (e2 : callAt p f (i + k) = some (.ok h)) (n : Nat) :
    ∃ h, callAt p f n = some (.ok h) := by
  induction n using Nat.strongRecOn with
  | _ n ih =>
    by_cases hn : n < i + k
    · exact hall n hn
    · have := comes_again e1 e2 (n - k - i)
      rw [show i + (n - k - i) + k = n by omega, show i + (n - k - i) = n - k by omega] at this
      rw [this]
      exact ih (n - k) (by omega)

/-- **C64, exactly.**  On a file of `n` bytes, either one of the first `n + 2` calls returns no HDU, or the iterator never
ends: every call returns an HDU, and from some call on the same HDUs come round for ever. -/
theorem C64_exact (p : Profile) (data : List UInt8) :
    (∃ i < data.length + 2, ∀ h, callAt p (fromReader ⟨data, 0⟩) i ≠ some (.ok h)) ∨
    ∃ i k, 0 < k ∧ i + k < data.length + 2 ∧ ∀ n, (∃ h, callAt p (fromReader ⟨data, 0⟩) n = some (.ok h)) ∧
      callAt p (fromReader ⟨data, 0⟩) (i + n + k) = callAt p (fromReader ⟨data, 0⟩) (i + n) := by
  by_cases hc : ∃ i < data.length + 2, ∀ h, callAt p (fromReader ⟨data, 0⟩) i ≠ some (.ok h)
  · exact .inl hc
  · right
    have hall : ∀ i < data.length + 2, ∃ h, callAt p (fromReader ⟨data, 0⟩) i = some (.ok h) := by
      intro i hi
      refine Classical.byContradiction fun hno => hc ⟨i, hi, fun h e => hno ⟨h, e⟩⟩
    obtain ⟨i, k, h, hk, hik, e1, e2⟩ := comes_twice hall
    exact ⟨i, k, hk, hik, fun n =>
      ⟨for_ever hk (fun m hm => hall m (by omega)) e1 e2 n, comes_again e1 e2 n⟩⟩

/-- **C64, exactly**: some call returns no HDU if and only if the calls that come before the first such call return no HDU
twice. -/
theorem C64_iff (p : Profile) (data : List UInt8) :
    (∃ i, ∀ h, callAt p (fromReader ⟨data, 0⟩) i ≠ some (.ok h)) ↔
    ∀ i j h, i < j → (∀ n < j, ∃ g, callAt p (fromReader ⟨data, 0⟩) n = some (.ok g)) →
      callAt p (fromReader ⟨data, 0⟩) i = some (.ok h) → callAt p (fromReader ⟨data, 0⟩) j ≠ some (.ok h) := by
  constructor
  · rintro ⟨m, hm⟩ i j h hij hall e1 e2
    obtain ⟨k, rfl⟩ : ∃ k, j = i + k := ⟨j - i, by omega⟩
    obtain ⟨g, e⟩ := for_ever (by omega) hall e1 e2 m
    exact hm g e
  · intro hno
    rcases C64_exact p data with ⟨i, -, hi⟩ | ⟨i, k, hk, -, hr⟩
    · exact ⟨i, hi⟩
    · obtain ⟨h, e⟩ := (hr i).1
      have e2 := (hr 0).2
      exact absurd (e2.trans e) (hno i (i + 0 + k) h (by omega) (fun n _ => (hr n).1) e)

/-- Both cases occur: the sample file ends, and the file of `C64_fails` goes round. -/
example (p : Profile) : (∃ i, ∀ h, callAt p (fromReader ⟨sampleFile, 0⟩) i ≠ some (.ok h)) ∧
    ∃ i j h, i < j ∧ callAt p (fromReader ⟨endlessFile, 0⟩) i = some (.ok h) ∧
      callAt p (fromReader ⟨endlessFile, 0⟩) j = some (.ok h) := by
  refine ⟨?_, ?_⟩
  · obtain ⟨r, hr, hn⟩ := C64_partial p sampleFile (by decide +kernel) (by unfold SizesFit; cases p <;> decide +kernel)
    obtain ⟨i, hi⟩ := List.getElem?_of_mem hr
    have hl := (List.getElem?_eq_some_iff.1 hi).1
    rw [calls_length] at hl
    rw [calls_get p _ _ i hl, ← callAt_eq, Option.some.injEq] at hi
    exact ⟨i, by rw [hi]; exact hn⟩
  rcases C64_exact p endlessFile with ⟨i, -, hi⟩ | ⟨i, k, hk, -, hr⟩
  · refine absurd (endless_calls p (i + 1) (callAt p (fromReader ⟨endlessFile, 0⟩) i) ?_) (fun ⟨h, e⟩ => hi h e)
    rw [callAt_eq]
    exact List.mem_of_getElem? (calls_get p _ (i + 1) i (by omega))
  · obtain ⟨h, e⟩ := (hr i).1
    exact ⟨i, i + 0 + k, h, by omega, e, ((hr 0).2).trans e⟩

end Fitsrs

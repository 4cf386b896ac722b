import Verif.Props.C47_C51
/-
C57: reading values between the HDUs of an asynchronous stream.
-/

namespace Fitsrs
open Spec Fut

theorem umul_dvd {p : Profile} {b : Bitpix} {n k : Nat} (h : umul p b.byteSize n = .ok k) : pixelSize b ∣ k := by
  have h64 : two64 = 2 ^ 64 := rfl
  rw [byteSize_eq] at h
  unfold umul at h
  split at h
  · cases h
    exact Nat.dvd_mul_right _ _
  · cases p with
    | checked => cases h
    | wrapping =>
      cases h
      have h1 : pixelSize b ∣ two64 := by
        rw [h64]
        cases b <;> decide
      exact (Nat.dvd_mod_iff h1).2 (Nat.dvd_mul_right _ _)

/-- The data unit consists of whole values. -/
theorem dataOf_dvd {p : Profile} {h : HDU} {sz : Nat} (hsz : h.dataSize p = .ok sz) (f : AFits) :
    pixelSize (f.dataOf h.forget).ty ∣ sz := by
  cases h with
  | primary h =>
    obtain ⟨n, -, h2⟩ := Res.bind_eq_ok.1 hsz
    exact umul_dvd h2
  | image h =>
    obtain ⟨n, -, h2⟩ := Res.bind_eq_ok.1 hsz
    exact umul_dvd h2
  | binTable h => exact Nat.one_dvd _
  | asciiTable h => exact Nat.one_dvd _

/-- The state after some values. -/
theorem St.takeN_spec {p : Profile} {data : List UInt8} (k : Nat) :
    ∀ (s : St) (pos : Nat), Ready s.rd.events → s.rd.bytes = data.drop pos → pixelSize s.ty ∣ s.remaining →
      pos + s.remaining ≤ data.length →
      ∃ j, j ≤ s.remaining ∧ (s.takeN p k).remaining = s.remaining - j ∧ Ready (s.takeN p k).rd.events ∧
        (s.takeN p k).rd.bytes = data.drop (pos + j) := by
  induction k with
  | zero => intro s pos h1 h2 _ _; exact ⟨0, Nat.zero_le _, rfl, h1, h2⟩
  | succ k ih =>
    intro s pos h1 h2 h3 h4
    unfold St.takeN
    by_cases hz : s.remaining = 0
    · rw [St.pollNext_end hz]
      exact ih s pos h1 h2 h3 h4
    · have hle : pixelSize s.ty ≤ s.remaining := Nat.le_of_dvd (by omega) h3
      have hsees : Sees s.rd (pixelSize s.ty) (data.drop pos) := by
        have := Sees.of_ready h1 (pixelSize s.ty)
        rw [h2] at this
        exact this
      obtain ⟨r', g1, g2⟩ := St.pollNext_ok (p := p) hsees hle (by rw [List.length_drop]; omega) (Nat.le_refl _)
      have k1 := St.pollNext_keeps (p := p) (s := s) (P := fun r => Ready r.events) (fun _ _ _ h => poll_ready_events h) h1
      rw [g1] at k1 ⊢
      dsimp only at k1 ⊢
      obtain ⟨j, j1, j2, j3, j4⟩ := ih ⟨s.ty, r', s.remaining - pixelSize s.ty⟩ (pos + pixelSize s.ty) k1
        (by rw [g2.bytes, List.drop_drop]) (Nat.dvd_sub h3 (Nat.dvd_refl _)) (by dsimp only; omega)
      dsimp only at j1 j2
      refine ⟨pixelSize s.ty + j, by omega, by rw [j2]; omega, j3, ?_⟩
      rw [j4, Nat.add_assoc]

theorem collectTaking_ok {p : Profile} {a a' : AFits} {h : AHdu} {k : Nat} {ks : List Nat}
    (hp : a.pollNext p = (.ready (some (.ok h)), a')) :
    AFits.collectTaking p (k :: ks) a = h :: AFits.collectTaking p ks (a'.giveBack ((a'.dataOf h).takeN p k)) := by
  conv => lhs; unfold AFits.collectTaking
  rw [hp]

/-- The state after an HDU and some of its values. -/
theorem taken {p : Profile} {data : List UInt8} {h : HDU} {sz : Nat} (hsz : h.dataSize p = .ok sz) {r' : AReader}
    (hr : Ready r'.events) (hb : r'.bytes = data.drop h.dataOffset) (hlen : h.dataOffset + sz ≤ data.length) (k : Nat)
    (g a' : AFits)
    (ha : a' = { start := false, remaining := sz, numBytes := sz, errored := false, rd := r' })
    (hg : g = a'.giveBack ((a'.dataOf h.forget).takeN p k)) :
    ∃ j, j ≤ sz ∧ g.start = false ∧ g.errored = false ∧ g.numBytes = sz ∧ g.remaining = sz - j ∧ Ready g.rd.events ∧
      g.rd.bytes = data.drop (h.dataOffset + j) := by
  have hrd : (a'.dataOf h.forget).rd = r' := by rw [ha]; cases h <;> rfl
  have hrem : (a'.dataOf h.forget).remaining = sz := by rw [ha]; cases h <;> rfl
  obtain ⟨j, j1, j2, j3, j4⟩ := St.takeN_spec (p := p) (data := data) k (a'.dataOf h.forget) h.dataOffset (by rw [hrd]; exact hr)
    (by rw [hrd]; exact hb) (by rw [hrem]; exact dataOf_dvd hsz a') (by rw [hrem]; exact hlen)
  rw [hrem] at j1 j2
  exact ⟨j, j1, by rw [hg, ha]; rfl, by rw [hg, ha]; rfl, by rw [hg, ha]; rfl, by rw [hg]; exact j2, by rw [hg]; exact j3,
    by rw [hg]; exact j4⟩

theorem taking_end {p : Profile} {data : List UInt8} {pos : Nat} {a : AFits} {ks : List Nat} (hst : a.start = false)
    (her : a.errored = false) (hr : Ready a.rd.events) (hb : a.rd.bytes = data.drop pos)
    (h1 : a.remaining ≤ data.length - pos)
    (h2 : data.length ≤ pos + (a.remaining + (roundUp2880 a.numBytes - a.numBytes))) :
    AFits.collectTaking p ks a = [] := by
  cases ks with
  | nil => rfl
  | cons k ks =>
    have hsees : Sees a.rd (data.length + 1) (data.drop pos) := by
      have := Sees.of_ready hr (data.length + 1)
      rw [hb] at this
      exact this
    obtain ⟨a', ha⟩ := pollNext_none (p := p) hst her hsees h1 h2 (by omega)
    unfold AFits.collectTaking
    rw [ha]

/-- The HDUs after the current one. -/
theorem taking_rest {p : Profile} {segs : List Segment} {hs : List HDU} {first : Bool} {o : Nat}
    (hf : FileOf p first o segs hs) (hfirst : first = false) (A : List UInt8) (hA : A.length = o)
    (hns : ∀ s ∈ segs, s.data.length + s.dataFill.length ≤ roundUp2880 s.data.length) (data : List UInt8)
    (hd : data = A ++ (segs.map Segment.bytes).flatten) (pos : Nat)
    (a : AFits) (hst : a.start = false) (her : a.errored = false) (hr : Ready a.rd.events)
    (hb : a.rd.bytes = data.drop pos) (hT : pos + (a.remaining + (roundUp2880 a.numBytes - a.numBytes)) = o)
    (ks : List Nat) (hk : hs.length ≤ ks.length) :
    AFits.collectTaking p ks a = hs.map HDU.forget := by
  have hsees : ∀ k, Sees a.rd k (data.drop pos) := by
    intro k
    have := Sees.of_ready hr k
    rw [hb] at this
    exact this
  induction hf generalizing A pos a ks with
  | @last first o s h hh hdsc hfill =>
    subst hfirst
    have hoff := hdsc.offset
    have hsz := hdsc.size
    have hns := hns s (List.mem_singleton.2 rfl)
    subst hA
    obtain ⟨k, ks, rfl⟩ : ∃ k ks', ks = k :: ks' := by
      cases ks with
      | nil => simp at hk
      | cons a b => exact ⟨a, b, rfl⟩
    have hdata : data = A ++ s.header ++ (s.data ++ s.dataFill) := by
      rw [hd]; simp [Segment.bytes]
    have hlen : data.length = A.length + s.header.length + s.data.length + s.dataFill.length := by
      rw [hdata]; simp only [List.length_append]; omega
    have hext := extensionAt_segment (C := s.data ++ s.dataFill) hh hdsc
    rw [← hdata, ← hT] at hext
    obtain ⟨r', g1, g2⟩ := pollNext_ok (p := p) hst her (hsees (h.dataOffset - pos)) hext hsz (Nat.le_refl _)
    have k1 := pollNext_keeps (p := p) (a := a) (P := fun r => Ready r.events) (fun _ _ _ h => poll_ready_events h) hr
    rw [g1] at k1
    rw [collectTaking_ok g1]
    generalize hg : AFits.giveBack _ _ = g
    obtain ⟨j, j1, j2, j3, j4, j5, j6, j7⟩ := taken hsz k1 g2.bytes (by omega) k g _ rfl hg.symm
    rw [taking_end (pos := h.dataOffset + j) (data := data) j2 j3 j6 j7 (by rw [j5]; omega) (by
      rw [j4, j5]; have := roundUp2880_ge s.data.length; omega)]
    rfl
  | @cons first o s h ss hs hh hdsc hdok hrest ih =>
    subst hfirst
    have hoff := hdsc.offset
    have hsz := hdsc.size
    subst hA
    obtain ⟨k, ks, rfl⟩ : ∃ k ks', ks = k :: ks' := by
      cases ks with
      | nil => simp at hk
      | cons a b => exact ⟨a, b, rfl⟩
    have hdata : data = A ++ s.header ++ (s.data ++ s.dataFill ++ (ss.map Segment.bytes).flatten) := by
      rw [hd]; simp [Segment.bytes]
    have hbl : s.bytes.length = s.header.length + s.data.length + s.dataFill.length := by
      simp only [Segment.bytes, List.length_append]
    have hlen : data.length = A.length + s.bytes.length + ((ss.map Segment.bytes).flatten).length := by
      rw [hd]; simp only [List.map_cons, List.flatten_cons, List.length_append]; omega
    have hge := roundUp2880_ge s.data.length
    unfold Segment.DataOk at hdok
    have hext := extensionAt_segment (C := s.data ++ s.dataFill ++ (ss.map Segment.bytes).flatten) hh hdsc
    rw [← hdata, ← hT] at hext
    obtain ⟨r', g1, g2⟩ := pollNext_ok (p := p) hst her (hsees (h.dataOffset - pos)) hext hsz (Nat.le_refl _)
    have k1 := pollNext_keeps (p := p) (a := a) (P := fun r => Ready r.events) (fun _ _ _ h => poll_ready_events h) hr
    rw [g1] at k1
    rw [collectTaking_ok g1, List.map_cons]
    congr 1
    generalize hg : AFits.giveBack _ _ = g
    obtain ⟨j, j1, j2, j3, j4, j5, j6, j7⟩ := taken hsz k1 g2.bytes (by omega) k g _ rfl hg.symm
    refine ih rfl (A ++ s.bytes) (by simp) (fun s hs => hns s (List.mem_cons_of_mem _ hs)) (by rw [hd]; simp)
      (h.dataOffset + j) g j2 j3 j6 j7 (by rw [j4, j5]; omega) ks (by simpa using hk) ?_
    intro k
    have := Sees.of_ready j6 k
    rw [j7] at this
    exact this

/-- **C57.** On a source that is always ready, a caller that takes any number of values of each HDU before it asks for
the next one gets all the HDUs of a well-formed file. -/
theorem C57_taking {p : Profile} {segs : List Segment} {hs : List HDU} (hf : FileOf p true 0 segs hs)
    (hns : ∀ s ∈ segs, s.data.length + s.dataFill.length ≤ roundUp2880 s.data.length) {r : AReader}
    (hb : r.bytes = (segs.map Segment.bytes).flatten) (hr : Ready r.events) (ks : List Nat) (hk : hs.length ≤ ks.length) :
    AFits.collectTaking p ks (AFits.fromReader r) = hs.map HDU.forget := by
  generalize hdd : r.bytes = data at hb
  have hsees : ∀ k, Sees r k data := by
    intro k
    have := Sees.of_ready hr k
    rw [hdd] at this
    exact this
  cases hf with
  | @last _ _ s h hh hdsc hfill =>
    have hoff := hdsc.offset
    have hsz := hdsc.size
    have hns := hns s (List.mem_singleton.2 rfl)
    obtain ⟨k, ks, rfl⟩ : ∃ k ks', ks = k :: ks' := by
      cases ks with
      | nil => simp at hk
      | cons a b => exact ⟨a, b, rfl⟩
    have hdata : data = s.header ++ (s.data ++ s.dataFill) := by
      rw [hb]; simp [Segment.bytes]
    have hlen : data.length = s.header.length + s.data.length + s.dataFill.length := by
      rw [hdata]; simp only [List.length_append]; omega
    have hnext := newPrimary_segment (C := s.data ++ s.dataFill) hh hdsc
    rw [← hdata] at hnext
    obtain ⟨r', g1, g2⟩ := pollNext_first (p := p) (a := AFits.fromReader r) rfl rfl (hsees h.dataOffset) hnext hsz
      (Nat.le_refl _)
    have k1 := pollNext_keeps (p := p) (a := AFits.fromReader r) (P := fun r => Ready r.events)
      (fun _ _ _ h => poll_ready_events h) hr
    rw [g1] at k1
    rw [collectTaking_ok g1]
    generalize hg : AFits.giveBack _ _ = g
    obtain ⟨j, j1, j2, j3, j4, j5, j6, j7⟩ := taken hsz k1 g2.bytes (by omega) k g _ rfl hg.symm
    rw [taking_end (pos := h.dataOffset + j) (data := data) j2 j3 j6 j7 (by rw [j5]; omega) (by
      rw [j4, j5]; have := roundUp2880_ge s.data.length; omega)]
    rfl
  | @cons _ _ s h ss hs hh hdsc hdok hrest =>
    have hoff := hdsc.offset
    have hsz := hdsc.size
    obtain ⟨k, ks, rfl⟩ : ∃ k ks', ks = k :: ks' := by
      cases ks with
      | nil => simp at hk
      | cons a b => exact ⟨a, b, rfl⟩
    have hdata : data = s.header ++ (s.data ++ s.dataFill ++ (ss.map Segment.bytes).flatten) := by
      rw [hb]; simp [Segment.bytes]
    have hbl : s.bytes.length = s.header.length + s.data.length + s.dataFill.length := by
      simp only [Segment.bytes, List.length_append]
    have hlen : data.length = s.bytes.length + ((ss.map Segment.bytes).flatten).length := by
      rw [hb]; simp only [List.map_cons, List.flatten_cons, List.length_append]
    have hge := roundUp2880_ge s.data.length
    unfold Segment.DataOk at hdok
    have hnext := newPrimary_segment (C := s.data ++ s.dataFill ++ (ss.map Segment.bytes).flatten) hh hdsc
    rw [← hdata] at hnext
    obtain ⟨r', g1, g2⟩ := pollNext_first (p := p) (a := AFits.fromReader r) rfl rfl (hsees h.dataOffset) hnext hsz
      (Nat.le_refl _)
    have k1 := pollNext_keeps (p := p) (a := AFits.fromReader r) (P := fun r => Ready r.events)
      (fun _ _ _ h => poll_ready_events h) hr
    rw [g1] at k1
    rw [collectTaking_ok g1, List.map_cons]
    congr 1
    generalize hg : AFits.giveBack _ _ = g
    obtain ⟨j, j1, j2, j3, j4, j5, j6, j7⟩ := taken hsz k1 g2.bytes (by omega) k g _ rfl hg.symm
    exact taking_rest hrest rfl s.bytes (by omega) (fun s hs => hns s (List.mem_cons_of_mem _ hs)) data
      (by rw [hb]; simp) (h.dataOffset + j) g j2 j3 j6 j7 (by rw [j4, j5]; omega) ks (by simpa using hk)

/-- The sample file: 3 bytes of the primary HDU are taken, and all the pixels of the extension. -/
example (p : Profile) :
    AFits.collectTaking p [3, 100] (AFits.fromReader ⟨[], deliver [sampleFile.take 100, sampleFile.drop 100]⟩)
      = [samplePrimaryHdu.forget, sampleImageHdu.forget] :=
  C57_taking (sample_fileOf p) sample_segments_full
    ((deliver_bytes _).trans (Eq.trans (by simp) sampleFile_flatten)) (by decide +kernel) [3, 100] (by decide)

end Fitsrs

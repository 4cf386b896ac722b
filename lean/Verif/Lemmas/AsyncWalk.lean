import Verif.Lemmas.AsyncFits
/-
Walking the HDUs of a well-formed file asynchronously, from a source that is not ready only between HDUs.
-/

namespace Fitsrs
open Spec Fut

theorem FileOf.offsets {p : Profile} {first : Bool} {o : Nat} {segs : List Segment} {hs : List HDU}
    (hf : FileOf p first o segs hs) : ∀ h ∈ hs, o ≤ h.dataOffset := by
  induction hf with
  | last hh hd hfill =>
    intro h hm
    rw [List.mem_singleton] at hm
    subst hm
    have := hd.offset
    omega
  | cons hh hd hok hrest ih =>
    intro h hm
    rcases List.mem_cons.1 hm with rfl | hm
    · have := hd.offset
      omega
    · have := ih h hm
      omega

theorem collect_pending {p : Profile} {a a' : AFits} {m : Nat} (h : a.pollNext p = (.pending, a')) :
    AFits.collect p (m + 1) a = AFits.collect p m a' := by
  conv => lhs; unfold AFits.collect
  rw [h]

theorem collect_ok {p : Profile} {a a' : AFits} {h : AHdu} {m : Nat} (hp : a.pollNext p = (.ready (some (.ok h)), a')) :
    AFits.collect p (m + 1) a = .ok h :: AFits.collect p m a' := by
  conv => lhs; unfold AFits.collect
  rw [hp]

theorem collect_none {p : Profile} {a a' : AFits} {m : Nat} (hp : a.pollNext p = (.ready none, a')) :
    AFits.collect p (m + 1) a = [] := by
  unfold AFits.collect
  rw [hp]

/-- The reader after a delay. -/
theorem At.after {S : Nat → Prop} {N : Nat} {r : AReader} {es : List Event} (h : At S N r) (hc : r.cur = [])
    (he : r.events = .pending :: es) : At S N ⟨[], es⟩ ∧ (⟨[], es⟩ : AReader).bytes = r.bytes ∧
      pendings r.events = pendings es + 1 := by
  obtain ⟨cur, ev⟩ := r
  dsimp only at hc he
  subst hc he
  exact ⟨⟨h.le, h.at_.2⟩, rfl, rfl⟩

theorem reader_eq {r : AReader} {es : List Event} (hc : r.cur = []) (he : r.events = .pending :: es) :
    r = ⟨[], .pending :: es⟩ := by
  obtain ⟨cur, ev⟩ := r
  dsimp only at hc he
  subst hc he
  rfl

/-- After the last HDU. -/
theorem collect_end_async {p : Profile} {data : List UInt8} {S : Nat → Prop} {pos : Nat} (m : Nat) :
    ∀ a : AFits, a.start = false → a.errored = false → At S data.length a.rd → a.rd.bytes = data.drop pos →
      pos ≤ data.length → (∀ s, pos < s → ¬ S s) → a.remaining ≤ data.length - pos →
      data.length ≤ pos + (a.remaining + (roundUp2880 a.numBytes - a.numBytes)) → pendings a.rd.events < m →
      AFits.collect p m a = [] := by
  induction m with
  | zero => intro a _ _ _ _ _ _ _ _ h; omega
  | succ m ih =>
    intro a hs he hat hb hpos hS h1 h2 hm
    rcases hat.sees (k := data.length + 1) hb hpos (fun s g _ => hS s g) with ⟨hc, es, hev⟩ | hsees
    · have hpend := pollNext_pending (p := p) hs he (reader_eq hc hev)
      rw [collect_pending hpend]
      obtain ⟨g1, g2, g3⟩ := hat.after hc hev
      exact ih _ hs he g1 (g2.trans hb) hpos hS h1 h2 (by dsimp only; omega)
    · obtain ⟨a', ha⟩ := pollNext_none (p := p) hs he hsees h1 h2 (by omega)
      exact collect_none ha

/-- One HDU, possibly after some delays. -/
theorem collect_one {p : Profile} {data : List UInt8} {S : Nat → Prop} {pos sz : Nat} {h : HDU} {s' : HState}
    (hsz : h.dataSize p = .ok sz) (hpos : pos ≤ data.length) (hS : ∀ s, pos < s → s < h.dataOffset → ¬ S s) (m : Nat) :
    ∀ a : AFits, a.start = false → a.errored = false → At S data.length a.rd → a.rd.bytes = data.drop pos →
      Fits.extensionAt p data (pos + (a.remaining + (roundUp2880 a.numBytes - a.numBytes))) = (.ok h, s') →
      pendings a.rd.events < m →
      ∃ r' m', AFits.collect p m a = .ok h.forget :: AFits.collect p m'
          { start := false, remaining := sz, numBytes := sz, errored := false, rd := r' } ∧
        At S data.length r' ∧ r'.bytes = data.drop h.dataOffset ∧ pendings r'.events + m ≤ m' + 1 + pendings a.rd.events ∧
        pendings r'.events ≤ m' := by
  induction m with
  | zero => intro a _ _ _ _ _ h; omega
  | succ m ih =>
    intro a hs he hat hb hx hm
    rcases hat.sees (k := h.dataOffset - pos) hb hpos (fun s g g' => hS s g (by omega)) with ⟨hc, es, hev⟩ | hsees
    · have hpend := pollNext_pending (p := p) hs he (reader_eq hc hev)
      rw [collect_pending hpend]
      obtain ⟨g1, g2, g3⟩ := hat.after hc hev
      obtain ⟨r', m', c1, c2, c3, c4, c5⟩ := ih { a with rd := ⟨[], es⟩ } hs he g1 (g2.trans hb) hx (by dsimp only; omega)
      dsimp only at c4
      exact ⟨r', m', c1, c2, c3, by omega, c5⟩
    · obtain ⟨r', ha, hr'⟩ := pollNext_ok (p := p) hs he hsees hx hsz (Nat.le_refl _)
      have k1 := pollNext_keeps (p := p) (P := At S data.length) (fun _ _ _ h => poll_at h) hat
      have k2 := pollNext_keeps (p := p) (a := a) (P := fun r => pendings r.events ≤ pendings a.rd.events)
        (fun _ _ _ h => Nat.le_trans pendings_poll h) (Nat.le_refl _)
      rw [ha] at k1 k2
      dsimp only at k1 k2
      exact ⟨r', m, collect_ok ha, k1, hr'.bytes, by omega, by omega⟩

/-- The HDUs after the current one. -/
theorem walk_async_rest {p : Profile} {segs : List Segment} {hs : List HDU} {first : Bool} {o : Nat}
    (hf : FileOf p first o segs hs) (hfirst : first = false) (S : Nat → Prop) (A : List UInt8) (hA : A.length = o)
    (hns : ∀ s ∈ segs, s.data.length + s.dataFill.length ≤ roundUp2880 s.data.length) (data : List UInt8)
    (hd : data = A ++ (segs.map Segment.bytes).flatten) (pos : Nat) (hS : ∀ s, pos < s → S s → ∃ h ∈ hs, s = h.dataOffset)
    (a : AFits) (hst : a.start = false) (her : a.errored = false) (hat : At S data.length a.rd)
    (hb : a.rd.bytes = data.drop pos) (hT : pos + (a.remaining + (roundUp2880 a.numBytes - a.numBytes)) = o)
    (m : Nat) (hm : pendings a.rd.events + hs.length < m) :
    AFits.collect p m a = hs.map fun h => .ok h.forget := by
  induction hf generalizing A pos a m with
  | @last first o s h hh hdsc hfill =>
    subst hfirst
    have hoff := hdsc.offset
    have hsz := hdsc.size
    have hns := hns s (List.mem_singleton.2 rfl)
    subst hA
    have hdata : data = A ++ s.header ++ (s.data ++ s.dataFill) := by
      rw [hd]; simp [Segment.bytes]
    have hlen : data.length = A.length + s.header.length + s.data.length + s.dataFill.length := by
      rw [hdata]; simp only [List.length_append]; omega
    have hext := extensionAt_segment (C := s.data ++ s.dataFill) hh hdsc
    rw [← hdata, ← hT] at hext
    simp only [List.length_cons, List.length_nil] at hm
    obtain ⟨r', m', c1, c2, c3, c4, c5⟩ := collect_one hsz (by omega)
      (fun x g1 g2 hc => by
        obtain ⟨h', hm', rfl⟩ := hS x g1 hc
        rw [List.mem_singleton] at hm'
        subst hm'
        omega) m a hst her hat hb hext (by omega)
    rw [c1, collect_end_async (pos := h.dataOffset) m' _ rfl rfl c2 c3 (by omega)
      (fun x g hc => by
        obtain ⟨h', hm', rfl⟩ := hS x (by omega) hc
        rw [List.mem_singleton] at hm'
        subst hm'
        omega) (by dsimp only; omega) (by dsimp only; have := roundUp2880_ge s.data.length; omega) (by dsimp only; omega)]
    rfl
  | @cons first o s h ss hs hh hdsc hdok hrest ih =>
    subst hfirst
    have hoff := hdsc.offset
    have hsz := hdsc.size
    subst hA
    have hdata : data = A ++ s.header ++ (s.data ++ s.dataFill ++ (ss.map Segment.bytes).flatten) := by
      rw [hd]; simp [Segment.bytes]
    have hbl : s.bytes.length = s.header.length + s.data.length + s.dataFill.length := by
      simp only [Segment.bytes, List.length_append]
    have hlen : data.length = A.length + s.bytes.length + ((ss.map Segment.bytes).flatten).length := by
      rw [hd]; simp only [List.map_cons, List.flatten_cons, List.length_append]; omega
    have hoffs := hrest.offsets
    have hge := roundUp2880_ge s.data.length
    unfold Segment.DataOk at hdok
    have hext := extensionAt_segment (C := s.data ++ s.dataFill ++ (ss.map Segment.bytes).flatten) hh hdsc
    rw [← hdata, ← hT] at hext
    rw [List.length_cons] at hm
    obtain ⟨r', m', c1, c2, c3, c4, c5⟩ := collect_one hsz (by omega)
      (fun x g1 g2 hc => by
        obtain ⟨h', hm', rfl⟩ := hS x g1 hc
        rcases List.mem_cons.1 hm' with rfl | hm'
        · omega
        · have := hoffs h' hm'
          omega) m a hst her hat hb hext (by omega)
    rw [c1, List.map_cons]
    congr 1
    refine ih rfl (A ++ s.bytes) (by simp) (fun s hs => hns s (List.mem_cons_of_mem _ hs)) (by rw [hd]; simp) h.dataOffset
      ?_ _ rfl rfl c2 c3 (by dsimp only; omega) m' (by dsimp only; omega)
    intro x g hc
    obtain ⟨h', hm', rfl⟩ := hS x (by omega) hc
    rcases List.mem_cons.1 hm' with rfl | hm'
    · omega
    · exact ⟨h', hm', rfl⟩

/-- The primary HDU, possibly after some delays. -/
theorem collect_first {p : Profile} {data : List UInt8} {S : Nat → Prop} {sz : Nat} {h : HDU} {s' : HState}
    (hsz : h.dataSize p = .ok sz) (hx : HDU.newPrimary ⟨data, 0⟩ = (.ok h, s'))
    (hS : ∀ s, 0 < s → s < h.dataOffset → ¬ S s) (m : Nat) :
    ∀ r : AReader, At S data.length r → r.bytes = data → pendings r.events < m →
      ∃ r' m', AFits.collect p m (AFits.fromReader r) = .ok h.forget :: AFits.collect p m'
          { start := false, remaining := sz, numBytes := sz, errored := false, rd := r' } ∧
        At S data.length r' ∧ r'.bytes = data.drop h.dataOffset ∧ pendings r'.events + m ≤ m' + 1 + pendings r.events ∧
        pendings r'.events ≤ m' := by
  induction m with
  | zero => intro r _ _ h; omega
  | succ m ih =>
    intro r hat hb hm
    rcases hat.sees (k := h.dataOffset) (pos := 0) hb (by omega) (fun s g g' => hS s g (by omega)) with ⟨hc, es, hev⟩ | hsees
    · have hpend := pollNext_pending_first (p := p) (a := AFits.fromReader r) rfl rfl (reader_eq hc hev)
      rw [collect_pending hpend]
      obtain ⟨g1, g2, g3⟩ := hat.after hc hev
      obtain ⟨r', m', c1, c2, c3, c4, c5⟩ := ih ⟨[], es⟩ g1 (g2.trans hb) (by dsimp only; omega)
      dsimp only at c4
      exact ⟨r', m', c1, c2, c3, by omega, c5⟩
    · obtain ⟨r', ha, hr'⟩ := pollNext_first (p := p) (a := AFits.fromReader r) rfl rfl hsees hx hsz (Nat.le_refl _)
      have k1 := pollNext_keeps (p := p) (a := AFits.fromReader r) (P := At S data.length) (fun _ _ _ h => poll_at h) hat
      have k2 := pollNext_keeps (p := p) (a := AFits.fromReader r) (P := fun r' => pendings r'.events ≤ pendings r.events)
        (fun _ _ _ h => Nat.le_trans pendings_poll h) (Nat.le_refl _)
      rw [ha] at k1 k2
      dsimp only at k1 k2
      exact ⟨r', m, collect_ok ha, k1, hr'.bytes, by omega, by omega⟩

/-- The HDUs of a file. -/
theorem walk_async {p : Profile} {segs : List Segment} {hs : List HDU} (hf : FileOf p true 0 segs hs) (S : Nat → Prop)
    (hns : ∀ s ∈ segs, s.data.length + s.dataFill.length ≤ roundUp2880 s.data.length)
    (hS : ∀ s, 0 < s → S s → ∃ h ∈ hs, s = h.dataOffset) (r : AReader)
    (hb : r.bytes = (segs.map Segment.bytes).flatten) (hat : At S r.bytes.length r) (m : Nat)
    (hm : pendings r.events + hs.length < m) :
    AFits.collect p m (AFits.fromReader r) = hs.map fun h => .ok h.forget := by
  generalize hdd : r.bytes = data at hb hat
  cases hf with
  | @last _ _ s h hh hdsc hfill =>
    have hoff := hdsc.offset
    have hsz := hdsc.size
    have hns := hns s (List.mem_singleton.2 rfl)
    have hdata : data = s.header ++ (s.data ++ s.dataFill) := by
      rw [hb]; simp [Segment.bytes]
    have hlen : data.length = s.header.length + s.data.length + s.dataFill.length := by
      rw [hdata]; simp only [List.length_append]; omega
    have hnext := newPrimary_segment (C := s.data ++ s.dataFill) hh hdsc
    rw [← hdata] at hnext
    simp only [List.length_cons, List.length_nil] at hm
    obtain ⟨r', m', c1, c2, c3, c4, c5⟩ := collect_first hsz hnext
      (fun x g1 g2 hc => by
        obtain ⟨h', hm', rfl⟩ := hS x g1 hc
        rw [List.mem_singleton] at hm'
        subst hm'
        omega) m r hat hdd (by omega)
    rw [c1, collect_end_async (pos := h.dataOffset) m' _ rfl rfl c2 c3 (by omega)
      (fun x g hc => by
        obtain ⟨h', hm', rfl⟩ := hS x (by omega) hc
        rw [List.mem_singleton] at hm'
        subst hm'
        omega) (by dsimp only; omega) (by dsimp only; have := roundUp2880_ge s.data.length; omega) (by dsimp only; omega)]
    rfl
  | @cons _ _ s h ss hs hh hdsc hdok hrest =>
    have hoff := hdsc.offset
    have hsz := hdsc.size
    have hdata : data = s.header ++ (s.data ++ s.dataFill ++ (ss.map Segment.bytes).flatten) := by
      rw [hb]; simp [Segment.bytes]
    have hbl : s.bytes.length = s.header.length + s.data.length + s.dataFill.length := by
      simp only [Segment.bytes, List.length_append]
    have hoffs := hrest.offsets
    have hge := roundUp2880_ge s.data.length
    unfold Segment.DataOk at hdok
    have hnext := newPrimary_segment (C := s.data ++ s.dataFill ++ (ss.map Segment.bytes).flatten) hh hdsc
    rw [← hdata] at hnext
    rw [List.length_cons] at hm
    obtain ⟨r', m', c1, c2, c3, c4, c5⟩ := collect_first hsz hnext
      (fun x g1 g2 hc => by
        obtain ⟨h', hm', rfl⟩ := hS x g1 hc
        rcases List.mem_cons.1 hm' with rfl | hm'
        · omega
        · have := hoffs h' hm'
          omega) m r hat hdd (by omega)
    rw [c1, List.map_cons]
    congr 1
    refine walk_async_rest hrest rfl S s.bytes (by omega) (fun s hs => hns s (List.mem_cons_of_mem _ hs)) data
      (by rw [hb]; simp) h.dataOffset ?_ _ rfl rfl c2 c3 (by dsimp only; omega) m' (by dsimp only; omega)
    intro x g hc
    obtain ⟨h', hm', rfl⟩ := hS x (by omega) hc
    rcases List.mem_cons.1 hm' with rfl | hm'
    · omega
    · exact ⟨h', hm', rfl⟩

end Fitsrs

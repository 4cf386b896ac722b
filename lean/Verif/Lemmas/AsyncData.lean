import Verif.Lemmas.AsyncWalk
import Verif.Lemmas.Pixels
/-
The asynchronous streams of the values of a data unit.
-/

namespace Fitsrs
open Spec Fut

/-- One value. -/
theorem St.pollNext_ok {p : Profile} {s : St} {k : Nat} {bytes : List UInt8} (hr : Sees s.rd k bytes)
    (hrem : pixelSize s.ty ≤ s.remaining) (hlen : pixelSize s.ty ≤ bytes.length) (hk : pixelSize s.ty ≤ k) :
    ∃ r', s.pollNext p = (.ready (some (.ok (Pixel.ofBytes s.ty (bytes.take (pixelSize s.ty))))),
        { s with rd := r', remaining := s.remaining - pixelSize s.ty }) ∧
      Sees r' (k - pixelSize s.ty) (bytes.drop (pixelSize s.ty)) := by
  have hpos := pixelSize_pos s.ty
  obtain ⟨r', h1, h2⟩ := readExact_ok hr hlen hk
  refine ⟨r', ?_, h2⟩
  unfold St.pollNext
  rw [if_neg (by omega), byteSize_eq, h1]
  dsimp only
  unfold usub
  rw [if_pos hrem]

theorem St.pollNext_pending {p : Profile} {s : St} {es : List Event} (hr : s.rd = ⟨[], .pending :: es⟩)
    (hrem : 0 < s.remaining) : s.pollNext p = (.pending, { s with rd := ⟨[], es⟩ }) := by
  unfold St.pollNext
  rw [if_neg (by omega), hr, byteSize_eq]
  obtain ⟨m, hm⟩ : ∃ m, pixelSize s.ty = m + 1 := ⟨pixelSize s.ty - 1, by have := pixelSize_pos s.ty; omega⟩
  rw [hm]
  rfl

theorem St.pollNext_end {p : Profile} {s : St} (h : s.remaining = 0) : s.pollNext p = (.ready none, s) := by
  unfold St.pollNext
  rw [if_pos h]

theorem St.pollNext_keeps {p : Profile} {s : St} {P : AReader → Prop}
    (hP : ∀ (α : Type) (f : Fut α) r, P r → P (f.poll r).2) (h : P s.rd) : P (s.pollNext p).2.rd := by
  unfold St.pollNext
  split
  · exact h
  · have := hP _ (readExact s.ty.byteSize) _ h
    split
    · rename_i he; rw [he] at this; exact this
    · rename_i he; rw [he] at this; split <;> exact this
    · rename_i he; rw [he] at this; exact this
    · rename_i he; rw [he] at this; exact this

/-- All the values, with delays between values only. -/
theorem St.collect_pixels {p : Profile} {b : Bitpix} {S : Nat → Prop} {data : List UInt8} (m : Nat) :
    ∀ (ps : List Pixel) (r : AReader) (pos : Nat) (rest : List UInt8), (∀ v ∈ ps, PixelOk b v) → At S data.length r →
      r.bytes = data.drop pos → data.drop pos = arrayBytes ps ++ rest → pos ≤ data.length →
      (∀ s, S s → s % pixelSize b = pos % pixelSize b) → pendings r.events + ps.length < m →
      St.collect p m ⟨b, r, ps.length * pixelSize b⟩ = ps.map .ok := by
  induction m with
  | zero => intro ps r pos rest _ _ _ _ _ _ h; omega
  | succ m ih =>
    intro ps r pos rest hok hat hb hps hpos hS hm
    have hsz := pixelSize_pos b
    cases ps with
    | nil =>
      unfold St.collect
      rw [St.pollNext_end (by simp)]
      rfl
    | cons v ps =>
      rw [List.length_cons] at hm
      have hrem : (v :: ps).length * pixelSize b = ps.length * pixelSize b + pixelSize b := by
        rw [List.length_cons, Nat.succ_mul]
      have hv : PixelOk b v := hok v (List.mem_cons_self ..)
      have hlv := pixelBytes_length hv
      have hdrop : data.drop pos = pixelBytes v ++ (arrayBytes ps ++ rest) := by
        rw [hps, ← List.append_assoc]; rfl
      have hl : pixelSize b ≤ (data.drop pos).length := by
        rw [hdrop, List.length_append]; omega
      rw [hrem]
      rcases hat.sees (k := pixelSize b) hb hpos (fun s g1 g2 hc => by
          have := hS s hc
          have h1 : (s - pos) % pixelSize b = 0 := Nat.sub_mod_eq_zero_of_mod_eq this
          rw [Nat.mod_eq_of_lt (by omega)] at h1
          omega) with ⟨hc, es, hev⟩ | hsees
      · have hpend := St.pollNext_pending (p := p) (s := ⟨b, r, ps.length * pixelSize b + pixelSize b⟩) (reader_eq hc hev)
          (by dsimp only; omega)
        conv => lhs; unfold St.collect
        rw [hpend]
        dsimp only
        obtain ⟨g1, g2, g3⟩ := hat.after hc hev
        rw [← hrem]
        exact ih (v :: ps) ⟨[], es⟩ pos rest hok g1 (g2.trans hb) hps hpos hS (by
          rw [List.length_cons]; dsimp only; omega)
      · obtain ⟨r', h1, h2⟩ := St.pollNext_ok (p := p) (s := ⟨b, r, ps.length * pixelSize b + pixelSize b⟩) hsees
          (by dsimp only; omega) (by dsimp only; omega) (by dsimp only; omega)
        have k1 := St.pollNext_keeps (p := p) (s := ⟨b, r, ps.length * pixelSize b + pixelSize b⟩) (P := At S data.length)
          (fun _ _ _ h => poll_at h) hat
        have k2 := St.pollNext_keeps (p := p) (s := ⟨b, r, ps.length * pixelSize b + pixelSize b⟩)
          (P := fun r' => pendings r'.events ≤ pendings r.events)
          (fun _ _ _ h => Nat.le_trans pendings_poll h) (Nat.le_refl _)
        rw [h1] at k1 k2
        dsimp only at h1 h2 k1 k2
        conv => lhs; unfold St.collect
        rw [h1]
        dsimp only
        rw [Nat.add_sub_cancel, hdrop, show (pixelBytes v ++ (arrayBytes ps ++ rest)).take (pixelSize b) = pixelBytes v by
          rw [← hlv, List.take_left'] ; rfl, ofBytes_pixelBytes hv, List.map_cons]
        congr 1
        have hlen : pos + pixelSize b ≤ data.length := by rw [List.length_drop] at hl; omega
        refine ih ps r' (pos + pixelSize b) rest (fun v hv => hok v (List.mem_cons_of_mem _ hv)) k1 ?_ ?_ hlen
          (fun s hs => by rw [Nat.add_mod_right]; exact hS s hs) (by omega)
        · rw [h2.bytes, List.drop_drop]
        · rw [← List.drop_drop, hdrop, ← hlv, List.drop_left']
          rfl

end Fitsrs

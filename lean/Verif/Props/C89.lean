import Verif.Props.C49
/-
C89: iterating over the values of a data unit that the asynchronous source does not hold entirely.
-/

namespace Fitsrs
open Spec Fut

/-- A loop over the stream, until it says that it is at its end, ends: from some number of polls on, no more items are
returned. -/
def Ends (p : Profile) (s : St) : Prop := ∃ n xs, ∀ m, n ≤ m → St.collect p m s = xs

/-- **C89**, the full statement: a loop over the values of a data unit ends, whatever the source (which does not fail). -/
def C89_statement : Prop :=
  ∀ (p : Profile) (b : Bitpix) (r : AReader) (k : Nat), Healthy r.events → Ends p ⟨b, r, k * pixelSize b⟩

theorem cut_values (b : Bitpix) (K : List UInt8) : ∃ ps rest, K = arrayBytes ps ++ rest ∧ (∀ v ∈ ps, PixelOk b v) ∧
    rest.length < pixelSize b ∧ ps.length = K.length / pixelSize b := by
  have hsz := pixelSize_pos b
  have h1 := Nat.div_add_mod K.length (pixelSize b)
  have h2 := Nat.mod_lt K.length hsz
  rw [Nat.mul_comm] at h1
  obtain ⟨ps, g1, g2, g3⟩ := values_of b (K.length / pixelSize b) (K.take (K.length / pixelSize b * pixelSize b)) (by
    rw [List.length_take]; omega)
  refine ⟨ps, K.drop (K.length / pixelSize b * pixelSize b), by rw [g3, List.take_append_drop], g2, ?_, g1⟩
  rw [List.length_drop]
  omega

/-- **C89**, exactly: the loop ends if and only if the bytes that arrive and are not dropped by a delay (C49) are at least
those of the data unit. -/
theorem C89_iff {p : Profile} {b : Bitpix} {r : AReader} {k : Nat} (hh : Healthy r.events) :
    Ends p ⟨b, r, k * pixelSize b⟩ ↔ k * pixelSize b ≤ (kept (pixelSize b) r.cur r.events).length := by
  have hsz := pixelSize_pos b
  generalize hK : kept (pixelSize b) r.cur r.events = K
  constructor
  · rintro ⟨n, xs, h⟩
    refine Nat.le_of_not_lt fun hlt => ?_
    obtain ⟨ps, rest, g1, g2, g3, g4⟩ := cut_values b K
    have hk : ps.length < k := by
      rw [g4]
      exact Nat.div_lt_of_lt_mul (by rw [Nat.mul_comm]; exact hlt)
    have e1 := C49_short (p := p) (n := k) (m := n + pendings r.events + ps.length) hh g2 (hK.trans g1) hk g3 (by omega)
    have e2 := C49_short (p := p) (n := k) (m := n + pendings r.events + ps.length + 1) hh g2 (hK.trans g1) hk g3 (by omega)
    rw [h _ (by omega)] at e1 e2
    have := congrArg List.length (e1.symm.trans e2)
    rw [List.length_append, List.length_append, List.length_replicate, List.length_replicate] at this
    omega
  · intro hle
    obtain ⟨ps, g1, g2, g3⟩ := values_of b k (K.take (k * pixelSize b)) (by rw [List.length_take]; omega)
    refine ⟨pendings r.events + ps.length, ps.map .ok, fun m hm => ?_⟩
    have := C49_kept (p := p) (m := m) (rest := K.drop (k * pixelSize b)) hh g2 (by
      rw [hK, g3, List.take_append_drop]) hm
    rw [g1] at this
    exact this

/-- **C89**, partial: if the source is always ready and holds the data unit.  (Missing: data units that are cut, for which
the statement is false, see below.) -/
theorem C89_partial {p : Profile} {b : Bitpix} {r : AReader} {k : Nat} (hr : Ready r.events)
    (hl : k * pixelSize b ≤ r.bytes.length) : Ends p ⟨b, r, k * pixelSize b⟩ := by
  rw [C89_iff hr.healthy, kept_ready hr]
  exact hl

/-- **C89**, exactly what a loop gets of a data unit that is cut: the values that are entirely there, and then an error at
every poll, for ever. -/
theorem C89_cut {p : Profile} {b : Bitpix} {ps : List Pixel} {rest : List UInt8} {r : AReader} {k m : Nat} (hr : Ready r.events)
    (hb : r.bytes = arrayBytes ps ++ rest) (hok : ∀ v ∈ ps, PixelOk b v) (hrest : rest.length < pixelSize b)
    (hk : ps.length < k) (hm : ps.length ≤ m) :
    St.collect p m ⟨b, r, k * pixelSize b⟩ = ps.map .ok ++ List.replicate (m - ps.length) (.err (.io .unexpectedEof)) := by
  have h0 := pendings_of_ready hr
  have := C49_short (p := p) (n := k) (m := m) hr.healthy hok ((kept_ready hr _).trans hb) hk hrest (by omega)
  rw [h0, Nat.sub_zero] at this
  exact this

/-- **C89 is false**: an error in the stream of values does not end it.  Of a data unit of two 16-bit values that is cut
after three bytes, a loop gets the first value and then errors. -/
theorem C89_fails : ¬ C89_statement := by
  intro h
  have := (C89_iff (r := ⟨[], deliver [[0, 1, 0]]⟩) (by decide)).1 (h .checked .i16 ⟨[], deliver [[0, 1, 0]]⟩ 2 (by decide))
  revert this
  decide

/-- Five polls for these two values. -/
example (p : Profile) : St.collect p 5 ⟨.i16, ⟨[], deliver [[0, 1, 0]]⟩, 4⟩ =
    [.ok (.i16 1), .err (.io .unexpectedEof), .err (.io .unexpectedEof), .err (.io .unexpectedEof), .err (.io .unexpectedEof)] :=
  C89_cut (p := p) (b := .i16) (ps := [.i16 1]) (rest := [0]) (r := ⟨[], deliver [[0, 1, 0]]⟩) (k := 2) (m := 5) (by decide) (by decide)
    (by decide) (by decide) (by decide) (by decide)

/-- A data unit that is there, in two pieces. -/
example (p : Profile) : Ends p ⟨.i16, ⟨[], deliver [[0, 1, 0], [2, 7]]⟩, 4⟩ :=
  C89_partial (b := .i16) (k := 2) (by decide) (by decide)

end Fitsrs

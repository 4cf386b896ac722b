import Verif.Lemmas.Writer
import Verif.Lemmas.WrittenTiles
import Verif.Spec.WriterSamples
import Verif.Props.C61
import Verif.Props.C62
/-
C71, C72: what is written in a file is read back.
-/

namespace Fitsrs
open Spec

/-! ### Opening and reading the data unit of an HDU -/

/-- The states `R i` of an opened data unit after `i` calls of `next`, the `i`-th of which gives `item i`. -/
structure Spec.Reading (p : Profile) (gz : Gunzip) (fuel : Nat) (data : List UInt8) (start n : Nat)
    (item : Nat → Seen) (R : Nat → OpenUnit → Prop) : Prop where
  step : ∀ i o, R i o → ∃ o', Session.nextItem p gz fuel o = some (.ok (item i), o') ∧ R (i + 1) o'
  place : ∀ i o, R i o → o.rd.data = data ∧ start ≤ o.rd.pos ∧ o.rd.pos ≤ start + n

theorem session_next {p : Profile} {gz : Gunzip} {fuel : Nat} {s : Session} {o o' : OpenUnit} {v : Seen}
    (h : s.opened = some o) (e : Session.nextItem p gz fuel o = some (.ok v, o')) (cs : List Call) :
    s.run p gz fuel (.next :: cs) = some (.ok v) :: (s.put o').run p gz fuel cs := by
  have hc : s.call p gz fuel .next = some (.ok v, s.put o') := by
    unfold Session.call
    dsimp only
    rw [h]
    dsimp only
    unfold Session.useOpened
    dsimp only
    rw [e]
    rfl
  rw [Session.run, hc]

theorem session_nexts {p : Profile} {gz : Gunzip} {fuel : Nat} {data : List UInt8} {start n : Nat}
    {item : Nat → Seen} {R : Nat → OpenUnit → Prop} (hR : Reading p gz fuel data start n item R) (k i : Nat) {s : Session}
    {o : OpenUnit} (h : s.opened = some o) (hi : R i o) :
    ∃ (s' : Session) (o' : OpenUnit), s'.opened = some o' ∧ R (i + k) o' ∧ s'.fits = s.fits ∧ s'.hdus = s.hdus ∧
      ∀ cs, s.run p gz fuel (List.replicate k .next ++ cs) =
        (List.range k).map (fun j => some (.ok (item (i + j)))) ++ s'.run p gz fuel cs := by
  induction k generalizing i s o with
  | zero => exact ⟨s, o, h, hi, rfl, rfl, fun cs => rfl⟩
  | succ k ih =>
    obtain ⟨o1, e, h1⟩ := hR.step i o hi
    obtain ⟨s', o', g1, g2, g3, g4, g5⟩ := ih (i + 1) (s := s.put o1) rfl h1
    refine ⟨s', o', g1, by rw [show i + (k + 1) = i + 1 + k by omega]; exact g2, g3, g4, fun cs => ?_⟩
    rw [List.replicate_succ, List.cons_append, session_next h e, g5, List.range_succ_eq_map, List.map_cons, List.map_map,
      List.cons_append]
    congr 1
    congr 1
    apply List.map_congr_left
    intro j _
    show some (Res.ok (item (i + 1 + j))) = some (.ok (item (i + (j + 1))))
    rw [show i + 1 + j = i + (j + 1) by omega]

section
variable {p : Profile} {gz : Gunzip} {fuel : Nat} {f f' : Fits}

theorem reading_image {b : Bitpix} {data : List UInt8} {start : Nat} {ps : List Pixel}
    (hav : Avail b data start ps.length ps) :
    Reading p gz fuel data start (ps.length * pixelSize b) (fun i => .pixel ps[i]?)
      (fun i o => ∃ d, o = .image d ∧ d.pixels = itAt b data start ps.length (min i ps.length)) := by
  constructor
  · rintro i o ⟨d, rfl, hd⟩
    have hn : d.pixels.next = (ps[i]?, itAt b data start ps.length (min (i + 1) ps.length)) := by
      by_cases hi : i < ps.length
      · rw [hd, Nat.min_eq_left (by omega), next_avail hav hi, Nat.min_eq_left (by omega),
          List.getElem?_eq_getElem hi]
      · rw [hd, Nat.min_eq_right (by omega), next_end _ rfl, Nat.min_eq_right (by omega),
          List.getElem?_eq_none (by omega)]
    refine ⟨.image { d with pixels := d.pixels.next.2 }, ?_, { d with pixels := d.pixels.next.2 }, rfl, ?_⟩
    · show some (Res.ok (Seen.pixel d.pixels.next.1), _) = _
      rw [hn]
    · show d.pixels.next.2 = _
      rw [hn]
  · rintro i o ⟨d, rfl, hd⟩
    show d.pixels.rd.data = data ∧ start ≤ d.pixels.rd.pos ∧ d.pixels.rd.pos ≤ start + ps.length * pixelSize b
    rw [hd]
    have := Nat.mul_le_mul_right (pixelSize b) (Nat.min_le_right i ps.length)
    exact ⟨rfl, Nat.le_add_right _ _, Nat.add_le_add_left this _⟩

theorem reading_bytes {data text : List UInt8} {start n : Nat} :
    Reading p gz fuel data start n (fun i => .byte text[i]?)
      (fun i o => ∃ s, o = .bytes s ∧ s.rest = text.drop i ∧ s.rd.data = data ∧ start ≤ s.rd.pos ∧
        s.rd.pos + s.limit ≤ start + n) := by
  constructor
  · rintro i o ⟨s, rfl, h1, h2, h3, h4⟩
    obtain ⟨g1, g2⟩ := s.next_rest
    obtain ⟨k1, k2, k3⟩ : Stays false p data start n (.bytes s.next.2) :=
      Stays.next (gz := gz) (fuel := fuel) (o := .bytes s) (show Stays false p data start n (.bytes s) from ⟨h2, h3, h4⟩) rfl
    refine ⟨.bytes s.next.2, ?_, s.next.2, rfl, ?_, k1, k2, k3⟩
    · show some (Res.ok (Seen.byte s.next.1), _) = _
      rw [g1, h1, List.getElem?_drop]
      rfl
    · rw [g2, h1, List.drop_drop]
  · rintro i o ⟨s, rfl, h1, h2, h3, h4⟩
    exact ⟨h2, h3, show s.rd.pos ≤ _ by omega⟩

theorem reading_table {T : Tab} (hT : T.Ok) (hp : T.p = p) {n : Nat}
    (hin : T.start + T.x.naxis1 * T.x.naxis2 ≤ T.data.length) (hm : T.x.naxis1 * T.x.naxis2 ≤ n) (hb : T.Bounded n)
    (vs : List DataValue) :
    Reading p gz fuel T.data T.start n (fun i => .value vs[i]?) (fun i o => ∃ t, o = .table t ∧ T.Left (vs.drop i) t) := by
  subst hp
  constructor
  · rintro i o ⟨t, rfl, h⟩
    by_cases hi : i < vs.length
    · rw [List.drop_eq_getElem_cons hi] at h
      obtain ⟨t', e, h'⟩ := h.cons hT hin
      refine ⟨.table t', ?_, t', rfl, h'⟩
      show some ((t.next T.p).1.map Seen.value, OpenUnit.table (t.next T.p).2) = _
      rw [e, List.getElem?_eq_getElem hi]
      rfl
    · have h0 : vs.drop i = [] := List.drop_eq_nil_of_le (by omega)
      have h1 : vs.drop (i + 1) = [] := List.drop_eq_nil_of_le (by omega)
      rw [h0] at h
      refine ⟨.table t, ?_, t, rfl, by rw [h1]; exact h⟩
      show some ((t.next T.p).1.map Seen.value, OpenUnit.table (t.next T.p).2) = _
      rw [h.nil, List.getElem?_eq_none (by omega)]
      rfl
  · rintro i o ⟨t, rfl, h⟩
    exact ⟨h.data, h.pos hm hb⟩

theorem reading_tiles {T : Tab} {it : TileIt} (S : Tiling T gz fuel it) (hT : T.Ok) (hp : T.p = p)
    (hc : T.cols = List.range T.x.tforms.length) (hin : T.start + T.x.naxis1 * T.x.naxis2 ≤ T.data.length)
    (hf : ∀ r < T.x.naxis2, (rowValues T.heap T.x T.unit T.cols r).length < fuel) (hfuel : 0 < fuel) {n : Nat}
    (hm : T.x.naxis1 * T.x.naxis2 ≤ n) (hall : S.m = T.x.naxis2) (vs : List TilePixel) :
    Reading p gz fuel T.data T.start n (fun i => .tilePixel vs[i]?)
      (fun i o => ∃ it, o = .tiles it ∧ S.Left (vs.drop i) it) := by
  subst hp
  constructor
  · rintro i o ⟨t, rfl, h⟩
    obtain ⟨t', e, h'⟩ := h.step hT hc hin hf hfuel hall
    refine ⟨.tiles t', ?_, t', rfl, by rw [List.tail_drop] at h'; exact h'⟩
    show (t.next T.p gz fuel).map _ = _
    rw [e, List.head?_drop]
    rfl
  · rintro i o ⟨t, rfl, h⟩
    obtain ⟨h1, h2, h3⟩ := h.place hT hc
    exact ⟨h1, h2, by show t.rows.data.rd.pos ≤ _; omega⟩

/-- The data unit of a written HDU can be opened and read. -/
theorem Spec.ShownAs.opens {primary : Bool} {o : Nat} {u : WrittenHdu} {h : HDU} (hs : ShownAs primary o u h)
    (hd : u.body.Described u.heading) (hr : u.body.LegibleBy p gz fuel)
    (hx : Extends gz ∨ ∀ w, u.body ≠ .tiles w) (hn : f.next p = (some (.ok h), f'))
    (hz : h.dataSize p = .ok u.body.data.length) {before after : List UInt8}
    (hf : f.rd.data = before ++ u.body.data ++ after) (hb : before.length = h.dataOffset)
    (hl : f.rd.data.length < 2 ^ 60) :
    ∃ op R, f'.getData p h = .ok op ∧ R 0 op ∧
      Reading p gz fuel f.rd.data h.dataOffset u.body.data.length (fun i => u.body.given i) R := by
  obtain ⟨h1, h2, h3, h4, -⟩ := next_ok_state hn
  have hnum : f'.numBytes = u.body.data.length := by
    rw [h4] at hz
    injection hz
  have hrd : f'.rd = ⟨f.rd.data, h.dataOffset⟩ := by
    cases hx : f'.rd with
    | mk a b => rw [hx] at h1 h2; rw [← h1, ← h2]
  have hlen : before.length + u.body.data.length ≤ f.rd.data.length := by
    rw [hf]
    simp only [List.length_append]
    omega
  have hdrop : f.rd.data.drop h.dataOffset = u.body.data ++ after := by
    rw [hf, ← hb, List.append_assoc, List.drop_left']
    rfl
  obtain ⟨hh, hfill, body, dfill⟩ := u
  have hbody := hs.body
  dsimp only at *
  have img : ∀ (x : Hdu Image) (b : Bitpix) (axes : List Nat) (ps : List Pixel), body = .image b axes ps →
      x.header.xtension = { bitpix := b, naxisn := axes } → h.dataOffset = x.dataOffset →
      x.header.xtension.numBytes p = .ok body.data.length →
      ∃ op R, (f'.getImage p x).map OpenUnit.image = .ok op ∧ R 0 op ∧
        Reading p gz fuel f.rd.data h.dataOffset body.data.length (fun i => body.given i) R := by
    rintro x b axes ps rfl hx ho hnb
    have hok := hd.2.2.2.1
    have hsz := arrayBytes_length hok
    have hav : Avail b f.rd.data h.dataOffset ps.length ps :=
      ⟨hok, Nat.le_refl _, ⟨before, after, hf, hb, fun h => absurd h (Nat.lt_irrefl _)⟩, by
        rw [← hsz]
        have : (Body.image b axes ps).data = arrayBytes ps := rfl
        rw [this] at hlen
        omega⟩
    have hR := reading_image (p := p) (gz := gz) (fuel := fuel) hav
    rw [← hsz] at hR
    refine ⟨.image ⟨f'.posStart, (arrayBytes ps).length, itAt b f.rd.data h.dataOffset ps.length 0⟩, _, ?_,
      ⟨_, rfl, ?_⟩, hR⟩
    · unfold Fits.getImage ImageData.new
      rw [hnb]
      simp only [Res.bind_ok]
      rw [hrd, hx]
      dsimp only
      rw [show (Body.image b axes ps).data = arrayBytes ps from rfl, itAt_zero hsz]
      rfl
    · rw [Nat.zero_min]
  cases body with
  | image b axes ps =>
    cases h with
    | primary x => exact img x b axes ps rfl hbody rfl hz
    | image x => exact img x b axes ps rfl hbody rfl hz
    | asciiTable x => exact hbody.elim
    | binTable x => exact hbody.elim
  | ascii w r fl text =>
    cases h with
    | primary x => exact hbody.elim
    | image x => exact hbody.elim
    | binTable x => exact hbody.elim
    | asciiTable x =>
      refine ⟨.bytes (ByteStream.new f'.rd text.length), _, ?_, ⟨_, rfl, ?_, ?_, ?_, ?_⟩,
        reading_bytes (text := text)⟩
      · show (f'.openAscii p x).map OpenUnit.bytes = _
        unfold Fits.openAscii
        rw [show x.header.xtension.numBytes p = .ok text.length from hz]
        rfl
      · show [] ++ (f'.rd.data.drop f'.rd.pos).take text.length = _
        rw [hrd]
        dsimp only
        rw [hdrop]
        show [] ++ (text ++ after).take text.length = text
        rw [List.nil_append, List.take_left']
        rfl
      · exact h1
      · show _ ≤ f'.rd.pos
        omega
      · show f'.rd.pos + text.length ≤ _
        rw [h2]
        exact Nat.le_refl _
  | table tb =>
    cases h with
    | primary x => exact hbody.elim
    | image x => exact hbody.elim
    | asciiTable x => exact hbody.elim
    | binTable x =>
      obtain ⟨⟨g1, -, g2, g3, g4, g6, -⟩, g5⟩ : _ ∧ _ := hbody
      obtain ⟨⟨k1, k2, k3, k4, -, k7⟩, -⟩ : _ ∧ _ := hd
      have hmain : tb.main.length = x.header.xtension.naxis1 * x.header.xtension.naxis2 := by
        rw [main_length k7, g2, g3, Nat.mul_comm]
      have hdl : (Body.table tb).data.length =
          x.header.xtension.naxis1 * x.header.xtension.naxis2 + tb.gap.length + tb.heap.length := by
        show (tb.main ++ tb.gap ++ tb.heap).length = _
        rw [List.length_append, List.length_append, hmain]
      have hoff : HDU.dataOffset (.binTable x) = x.dataOffset := rfl
      have hlegal : Legal x.header.xtension f.rd.data x.dataOffset :=
        ⟨by
          rw [g1]
          unfold WrittenTable.forms
          intro h0
          exact k2 (List.map_eq_nil_iff.1 h0), by rw [g1]; exact g2, by rw [g2]; exact k3, by omega, hl⟩
      have hti : TableInside false x.header.xtension f.rd.data x.dataOffset (Body.table tb).data.length :=
        ⟨g5, hlegal, by omega, fun r hr' c hc => by
          rw [← hoff, hdrop, List.take_left' rfl]
          exact cellIn_written k7 hr g1 g2 g3 g6 hr' hc, fun h => by simp at h⟩
      obtain ⟨os, -, ht⟩ := new_ok (p := p) (rd := f'.rd) hlegal.width hlegal.small (by rw [h2]; exact hlegal.size)
      obtain ⟨t, hget⟩ : ∃ t, f'.getTable p x = .ok t := by
        unfold Fits.getTable
        rw [h3, ← h2, ht, g5]
        exact ⟨_, rfl⟩
      have hop : Opened p f f' x t := ⟨hn, hget, g5⟩
      obtain ⟨T, hT, e1, e2, e3, e4, e5, e6, hst, -⟩ := hop.left hlegal hti.cellsIn
      have hTe : T = ⟨p, x.header.xtension, f.rd.data, x.dataOffset, List.range x.header.xtension.tforms.length, true,
          T.offsets⟩ := by
        cases T
        simp only at e1 e2 e3 e4 e5 e6 ⊢
        subst e1 e2 e3 e4 e5 e6
        rfl
      have hbd := hti.bounded p T.offsets
      rw [← hTe] at hbd
      have hvs : tableValues T.heap T.x T.unit T.cols = tb.givenCells := by
        unfold Tab.unit
        rw [e2, e3, e4, e5, e6]
        exact tableValues_given (after := after) k7 hr g1 g2 g3 g6 (by rw [← hoff, hdrop]; rfl)
      have hleft : T.Left tb.givenCells _ := ⟨0, _, hst, by rw [← hvs]; exact T.values_eq.symm⟩
      have hR := reading_table (gz := gz) (fuel := fuel) hT e1 (n := (Body.table tb).data.length)
        (by rw [e2, e3, e4]; omega) (by rw [e2]; omega) hbd tb.givenCells
      rw [e3, e4] at hR
      refine ⟨.table _, _, ?_, ⟨_, rfl, hleft⟩, hR⟩
      unfold Fits.getData
      dsimp only
      rw [g5, hget]
      rfl
  | tiles w =>
    cases h with
    | primary x => exact hbody.elim
    | image x => exact hbody.elim
    | asciiTable x => exact hbody.elim
    | binTable x =>
      have hg : Extends gz := hx.resolve_right fun h => h w rfl
      have hbody' := hbody
      obtain ⟨⟨g1, -, g2, g3, g4, g6, -⟩, -⟩ : _ ∧ _ := hbody
      have hd' := hd
      obtain ⟨⟨k1, k2, k3, k4, -, k7⟩, -⟩ : _ ∧ _ := hd
      have hmain : w.table.main.length = x.header.xtension.naxis1 * x.header.xtension.naxis2 := by
        rw [main_length k7, g2, g3, Nat.mul_comm]
      have hdl : (Body.tiles w).data.length =
          x.header.xtension.naxis1 * x.header.xtension.naxis2 + w.table.gap.length + w.table.heap.length := by
        show (w.table.main ++ w.table.gap ++ w.table.heap).length = _
        rw [List.length_append, List.length_append, hmain]
      have hoff : HDU.dataOffset (.binTable x) = x.dataOffset := rfl
      have hlegal : Legal x.header.xtension f.rd.data x.dataOffset :=
        ⟨by
          rw [g1]
          unfold WrittenTable.forms
          intro h0
          exact k2 (List.map_eq_nil_iff.1 h0), by rw [g1]; exact g2, by rw [g2]; exact k3, by omega, hl⟩
      obtain ⟨it, z, hzi, hget, T, S, hT, t1, t2, t3, t4, t5, t6, t7, tm, t8⟩ := tiles_open hn hbody' hs.values hd' hr hg hlegal
        (after := after) (by rw [← hoff, hdrop]; rfl) (by unfold Complete; omega)
      have hR := reading_tiles S hT t1 t5 t6 t7 (by have := hr.2.2.2.2.1; omega) (n := (Body.tiles w).data.length)
        (by rw [t2]; omega) tm w.pixels
      rw [t3, t4] at hR
      refine ⟨.tiles it, _, ?_, ⟨it, rfl, t8⟩, hR⟩
      unfold Fits.getData
      dsimp only
      rw [hzi]
      dsimp only
      rw [hget]
      rfl

end

/-! ### Reading a whole file -/

/-- The iterator is about to return the HDU at offset `o`. -/
def Spec.About (primary : Bool) (o : Nat) (data : List UInt8) (f : Fits) : Prop :=
  f.rd.data = data ∧ f.errored = false ∧
  if primary then f.start = true ∧ f.rd.pos = o
  else f.start = false ∧ f.posStart ≤ f.rd.pos ∧ f.rd.pos ≤ f.posStart + f.numBytes ∧
    f.posStart + roundUp2880 f.numBytes = o

theorem next_about {p : Profile} {primary : Bool} {A C data : List UInt8} {s : Segment} {h : HDU} {f : Fits}
    (hf : About primary A.length data f) (hd : data = A ++ s.bytes ++ C) (hs : s.HeaderOk)
    (hdsc : Describes p A.length s primary h) (hl : data.length < 2 ^ 60) :
    ∃ f', f.next p = (some (.ok h), f') ∧ f'.rd = ⟨data, h.dataOffset⟩ ∧ f'.start = false ∧ f'.errored = false ∧
      f'.posStart = h.dataOffset ∧ f'.numBytes = s.data.length := by
  have hsz := hdsc.size
  have hdata : data = A ++ s.header ++ (s.data ++ s.dataFill ++ C) := by
    rw [hd]; simp [Segment.bytes]
  obtain ⟨h1, h2, h3⟩ := hf
  cases primary with
  | true =>
    obtain ⟨g1, g2⟩ : _ ∧ _ := h3
    have hrd : f.rd = ⟨data, A.length⟩ := by
      cases hx : f.rd with
      | mk a b => rw [hx] at h1 g2; dsimp only at h1 g2; rw [h1, g2]
    have hnext := newPrimary_after (C := s.data ++ s.dataFill ++ C) hs hdsc
    rw [← hdata, ← hrd] at hnext
    unfold Fits.next
    rw [h2, g1]
    simp only [hnext, Fits.record, hsz]
    exact ⟨_, rfl, rfl, rfl, rfl, rfl, rfl⟩
  | false =>
    obtain ⟨g1, g2, g3, g4⟩ : _ ∧ _ ∧ _ ∧ _ := h3
    have hext := extensionAt_segment (C := s.data ++ s.dataFill ++ C) hs hdsc
    rw [← hdata] at hext
    have hlen : A.length ≤ data.length := by rw [hdata]; simp only [List.length_append]; omega
    have hnext := Fits.next_inside (p := p) g1 h2 g2 g3 (by omega)
    rw [g4, h1, hext] at hnext
    simp only [Fits.extensionItem, Fits.record, hsz] at hnext
    exact ⟨_, hnext, rfl, g1, h2, rfl, rfl⟩

theorem session_hdu {p : Profile} {gz : Gunzip} {fuel : Nat} {s : Session} {h : HDU} {f' : Fits}
    (e : s.close.fits.next p = (some (.ok h), f')) (cs : List Call) :
    s.run p gz fuel (.hdu :: cs) =
      some (.ok (.hdu (some h))) :: Session.run p gz fuel cs ⟨f', h :: s.close.hdus, none⟩ := by
  have hc : s.call p gz fuel .hdu = some (.ok (.hdu (some h)), ⟨f', h :: s.close.hdus, none⟩) := by
    unfold Session.call Session.nextHdu
    dsimp only
    rw [e]
    dsimp only
    have := Session.close_isNone (s := s)
    rw [this]
  rw [Session.run, hc]

theorem session_open {p : Profile} {gz : Gunzip} {fuel : Nat} {f : Fits} {h : HDU} {hs : List HDU}
    {o : OpenUnit} (e : f.getData p h = .ok o) (cs : List Call) :
    Session.run p gz fuel (.getData 0 :: cs) ⟨f, h :: hs, none⟩ =
      some (.ok .unit) :: Session.run p gz fuel cs ⟨f, h :: hs, some o⟩ := by
  have hc : Session.call p gz fuel (.getData 0) ⟨f, h :: hs, none⟩ = some (.ok .unit, ⟨f, h :: hs, some o⟩) := by
    unfold Session.call
    dsimp only
    rw [Session.close_none rfl]
    unfold Session.openData
    simp only [List.getElem?_cons_zero]
    rw [e]
  rw [Session.run, hc]

/-- One HDU. -/
theorem visit_one {p : Profile} {primary : Bool} {A C data : List UInt8} {u : WrittenHdu} {h : HDU}
    (hd : data = A ++ u.segment.bytes ++ C) (hl : u.Legal primary) (hb : data.length < 2 ^ 60)
    (hdsc : Describes p A.length u.segment primary h) (hsh : ShownAs primary A.length u h) (gz : Gunzip)
    (fuel : Nat) (hr : u.body.LegibleBy p gz fuel) (hx : Extends gz ∨ ∀ w, u.body ≠ .tiles w) (s : Session) (hs : About primary A.length data s.close.fits) (k : Nat) :
    ∃ s' : Session, (∀ cs, s.run p gz fuel (.hdu :: .getData 0 :: (List.replicate k .next ++ cs)) =
        some (.ok (.hdu (some h))) :: some (.ok .unit) ::
          ((List.range k).map (fun i => some (.ok (u.body.given i))) ++ s'.run p gz fuel cs)) ∧
      s'.close.fits.rd.data = data ∧ s'.close.fits.errored = false ∧ s'.close.fits.start = false ∧
      s'.close.fits.posStart ≤ s'.close.fits.rd.pos ∧
      s'.close.fits.rd.pos ≤ s'.close.fits.posStart + s'.close.fits.numBytes ∧
      s'.close.fits.posStart = A.length + u.segment.header.length ∧ s'.close.fits.numBytes = u.body.data.length := by
  obtain ⟨f', e, g1, g2, g3, g4, g5⟩ := next_about hs hd hl.headerOk hdsc hb
  have hoff := hdsc.offset
  have hfd := hs.1
  obtain ⟨op, R, ho, h0, hR⟩ := hsh.opens hl.described hr hx e hdsc.size
    (before := A ++ u.segment.header) (after := u.dataFill ++ C)
    (by
      rw [hfd, hd]
      show A ++ (u.segment.header ++ u.body.data ++ u.dataFill) ++ C = _
      simp only [List.append_assoc])
    (by rw [hoff, List.length_append]) (by rw [hfd]; exact hb)
  obtain ⟨s', o', k1, k2, k3, -, k5⟩ := session_nexts (gz := gz) (fuel := fuel) hR k 0
    (s := ⟨f', h :: s.close.hdus, some op⟩) rfl h0
  obtain ⟨m1, m2, m3⟩ := hR.place _ _ k2
  have hcl := Session.close_opened k1
  rw [k3] at hcl
  dsimp only at hcl
  refine ⟨s', fun cs => ?_, ?_⟩
  · rw [session_hdu e, session_open ho, k5]
    simp only [Nat.zero_add]
  · rw [hcl]
    dsimp only
    rw [g4, g5, ← hoff]
    exact ⟨m1.trans hfd, g3, g2, m2, m3, rfl, rfl⟩

theorem Spec.Body.Readable.legible {b : Body} (h : b.Readable) : b.Legible := by
  cases b with
  | table t => exact ⟨h.1, h.2.1⟩
  | image => trivial
  | ascii => trivial
  | tiles w => exact h.elim

theorem Spec.Body.Legible.whole {b : Body} (h : b.Legible) : b.Whole := by
  cases b with
  | table t =>
    intro r hX
    obtain ⟨c, hc, e⟩ := List.mem_map.1 hX
    cases c with
    | plain ty rep =>
      injection e with e _
      exact absurd e (h.1 ty rep hc).1
    | array wide ty => cases wide <;> cases e
  | image => trivial
  | ascii => trivial
  | tiles w => exact h.elim

theorem Spec.Body.Legible.by {b : Body} (h : b.Legible) (p : Profile) (gz : Gunzip) (fuel : Nat) :
    b.LegibleBy p gz fuel ∧ ∀ w, b ≠ .tiles w := by
  cases b with
  | tiles w => exact h.elim
  | image => exact ⟨trivial, fun w h => by cases h⟩
  | ascii => exact ⟨trivial, fun w h => by cases h⟩
  | table t => exact ⟨h, fun w h => by cases h⟩

theorem Spec.Body.Readable.by {b : Body} (h : b.Readable) (p : Profile) (gz : Gunzip) (fuel : Nat) :
    b.ReadableBy p gz fuel ∧ ∀ w, b ≠ .tiles w := by
  cases b with
  | tiles w => exact h.elim
  | image => exact ⟨trivial, fun w h => by cases h⟩
  | ascii => exact ⟨trivial, fun w h => by cases h⟩
  | table t => exact ⟨h, fun w h => by cases h⟩

theorem Spec.Body.ReadableBy.legible {b : Body} {p : Profile} {gz : Gunzip} {fuel : Nat}
    (h : b.ReadableBy p gz fuel) : b.LegibleBy p gz fuel := by
  cases b with
  | table t => exact Spec.Body.Readable.legible (b := .table t) h
  | image => trivial
  | ascii => trivial
  | tiles w => exact h

theorem Spec.Body.ReadableBy.whole {b : Body} {p : Profile} {gz : Gunzip} {fuel : Nat}
    (h : b.ReadableBy p gz fuel) : b.Whole := by
  cases b with
  | table t => exact (Spec.Body.Readable.legible (b := .table t) h).whole
  | image => trivial
  | ascii => trivial
  | tiles w =>
    intro r hX
    obtain ⟨c, hc, e⟩ := List.mem_map.1 hX
    cases c with
    | plain ty rep =>
      injection e with e _
      obtain ⟨i, hi⟩ := List.getElem?_of_mem hc
      exact absurd e (h.2.1 i ty rep hi).1
    | array wide ty => cases wide <;> cases e

/-- What is read right is given as it is written. -/
theorem Spec.Body.ReadableBy.given {b : Body} {p : Profile} {gz : Gunzip} {fuel : Nat}
    (h : b.ReadableBy p gz fuel) (i : Nat) : b.given i = b.item i := by
  cases b with
  | table t =>
    have : t.givenCells = t.cells := by
      unfold WrittenTable.givenCells WrittenTable.cells
      refine congrArg tableOf (List.map_congr_left fun row hrow => List.map_congr_left fun field hf => ?_)
      refine (List.map_congr_left fun v hv => ?_).trans (List.map_id _)
      have := h.2.2 row hrow field hf v hv
      cases v with
      | logical b => cases b with
        | true => rfl
        | false => exact absurd rfl this
      | _ => rfl
    show Seen.value _ = Seen.value _
    rw [this]
  | image => rfl
  | ascii => rfl
  | tiles w => rfl

theorem givenVisits_eq {p : Profile} {gz : Gunzip} {fuel : Nat} {us : List WrittenHdu}
    (h : ∀ u ∈ us, u.body.ReadableBy p gz fuel) (ks : List Nat) (hs : List HDU) :
    givenVisits ks us hs = seenVisits ks us hs := by
  induction us generalizing ks hs with
  | nil => cases ks <;> rfl
  | cons u us ih =>
    cases ks with
    | nil => rfl
    | cons k ks =>
      cases hs with
      | nil => rfl
      | cons g hs =>
        unfold givenVisits seenVisits
        rw [ih fun v hv => h v (List.mem_cons_of_mem _ hv)]
        simp only [(h u (List.mem_cons_self ..)).given]

/-- Reading the rest of a file. -/
theorem visit_given {p : Profile} {primary : Bool} {us : List WrittenHdu} (hf : File primary us)
    (hw : ∀ u ∈ us, u.body.Whole) (A : List UInt8) (hb : (A ++ fileBytes us).length < 2 ^ 60) :
    ∃ hs, ShownAll primary A.length us hs ∧
      ∀ (gz : Gunzip) (fuel : Nat), (∀ u ∈ us, u.body.LegibleBy p gz fuel) →
        (Extends gz ∨ ∀ u ∈ us, ∀ w, u.body ≠ .tiles w) →
        ∀ s : Session, About primary A.length (A ++ fileBytes us) s.close.fits →
        ∀ ks : List Nat, ks.length = us.length → s.run p gz fuel (visits ks) = givenVisits ks us hs := by
  have hsize : ∀ (u : WrittenHdu) (vs : List WrittenHdu), (A ++ fileBytes (u :: vs)).length < 2 ^ 60 →
      u.body.data.length < 2 ^ 63 := by
    intro u vs h
    have : (fileBytes (u :: vs)).length = u.segment.bytes.length + (fileBytes vs).length := by
      unfold fileBytes
      rw [List.map_cons, List.flatten_cons, List.length_append]
    rw [List.length_append, this] at h
    have : u.segment.bytes.length = u.segment.header.length + u.body.data.length + u.dataFill.length := by
      unfold Segment.bytes
      rw [List.length_append, List.length_append]
      rfl
    omega
  induction hf generalizing A with
  | @last primary u hl hfill =>
    obtain ⟨h, hdsc, hsh⟩ := hl.describes (p := p) (hw u (by simp)) (hsize u [] hb) A.length
    refine ⟨[h], .cons hsh .nil, fun gz fuel hr hx s hs ks hk => ?_⟩
    obtain ⟨k, rfl⟩ : ∃ k, ks = [k] := List.length_eq_one_iff.1 hk
    have hd : A ++ fileBytes [u] = A ++ u.segment.bytes ++ [] := by simp [fileBytes]
    obtain ⟨s', h1, h2, h3, h4, h5, h6, h7, h8⟩ := visit_one hd hl hb hdsc hsh gz fuel (hr u (by simp))
      (hx.imp_right fun h => h u (by simp)) s hs k
    unfold visits
    rw [h1]
    unfold givenVisits visits
    have hlen : (A ++ fileBytes [u]).length =
        A.length + u.segment.header.length + u.body.data.length + u.dataFill.length := by
      rw [hd]
      simp only [Segment.bytes, List.length_append, List.length_nil]
      rw [show u.segment.data = u.body.data from rfl, show u.segment.dataFill = u.dataFill from rfl]
      omega
    have hru := roundUp2880_lt u.body.data.length
    have hend := Fits.next_eof (p := p) h4 h3 h5 h6 (by rw [h7, h8]; omega) (by rw [h2, h7, h8]; omega)
    have hc : ∃ s'', s'.call p gz fuel .hdu = some (.ok (.hdu none), s'') := by
      unfold Session.call Session.nextHdu
      dsimp only
      rw [hend]
      exact ⟨_, rfl⟩
    obtain ⟨s'', hc⟩ := hc
    rw [Session.run, hc]
    rfl
  | @cons primary u us hl hfill hrest ih =>
    obtain ⟨h, hdsc, hsh⟩ := hl.describes (p := p) (hw u (by simp)) (hsize u us hb) A.length
    have hbytes : A ++ fileBytes (u :: us) = A ++ u.segment.bytes ++ fileBytes us := by simp [fileBytes]
    obtain ⟨hs, hall, hrun⟩ := ih (fun v hv => hw v (by simp [hv])) (A ++ u.segment.bytes) (by rw [← hbytes]; exact hb)
      (by
        intro v vs hv
        have : (fileBytes (v :: vs)).length = v.segment.bytes.length + (fileBytes vs).length := by
          unfold fileBytes
          rw [List.map_cons, List.flatten_cons, List.length_append]
        rw [List.length_append, this] at hv
        have : v.segment.bytes.length = v.segment.header.length + v.body.data.length + v.dataFill.length := by
          unfold Segment.bytes
          rw [List.length_append, List.length_append]
          rfl
        omega)
    refine ⟨h :: hs, .cons hsh (by rw [← List.length_append]; exact hall), fun gz fuel hr hx s hs ks hk => ?_⟩
    cases ks with
    | nil => simp at hk
    | cons k ks =>
      obtain ⟨s', h1, h2, h3, h4, h5, h6, h7, h8⟩ := visit_one hbytes hl hb hdsc hsh gz fuel
        (hr u (by simp)) (hx.imp_right fun h => h u (by simp)) s hs k
      unfold visits
      rw [h1]
      unfold givenVisits
      rw [hrun gz fuel (fun v hv => hr v (by simp [hv])) (hx.imp_right fun h v hv => h v (by simp [hv])) s' ?_ ks (by simpa using hk)]
      refine ⟨by rw [h2, hbytes], h3, h4, h5, h6, ?_⟩
      rw [h7, h8, List.length_append]
      simp only [Segment.bytes, List.length_append]
      rw [show u.segment.data = u.body.data from rfl, show u.segment.dataFill = u.dataFill from rfl]
      omega

theorem visit_rest {p : Profile} {primary : Bool} {us : List WrittenHdu} (hf : File primary us)
    (hw : ∀ u ∈ us, u.body.Whole) (A : List UInt8) (hb : (A ++ fileBytes us).length < 2 ^ 60) :
    ∃ hs, ShownAll primary A.length us hs ∧
      ∀ (gz : Gunzip) (fuel : Nat), (∀ u ∈ us, u.body.ReadableBy p gz fuel) →
        (Extends gz ∨ ∀ u ∈ us, ∀ w, u.body ≠ .tiles w) →
        ∀ s : Session, About primary A.length (A ++ fileBytes us) s.close.fits →
        ∀ ks : List Nat, ks.length = us.length → s.run p gz fuel (visits ks) = seenVisits ks us hs := by
  obtain ⟨hs, h1, h2⟩ := visit_given (p := p) hf hw A hb
  refine ⟨hs, h1, fun gz fuel hr hx s ha ks hk => ?_⟩
  rw [h2 gz fuel (fun u hu => (hr u hu).legible) hx s ha ks hk, givenVisits_eq hr]

/-! ### Samples -/

theorem intLine_legal {kw : String} {n : Nat} (h1 : Name kw.toList) (h2 : (Nat.toDigits 10 n).length ≤ 69)
    (h3 : n < 2 ^ 63) : (intLine kw n).Legal := by
  refine ⟨?_, h1, ?_, by intro t h; cases h⟩
  · intro r hr
    simp only [intLine, Line.records, List.mem_singleton] at hr
    subst hr
    have hk := h1.short
    simp only [valueRecord, toBytes_length, keywordField, field, Written.text, intText, signText, commentPart, blank,
      List.length_append, List.length_replicate, List.length_cons, List.length_nil]
    omega
  · show -(2 ^ 63) ≤ (n : Int) ∧ (n : Int) < 2 ^ 63
    omega

theorem strLine_legal {kw s : String} (h1 : Name kw.toList) (h2 : Printable s.toList)
    (h3 : (quoted s.toList).length ≤ 70) : (strLine kw s).Legal := by
  refine ⟨?_, h1, h2, by intro t h; cases h⟩
  intro r hr
  simp only [strLine, Line.records, List.mem_singleton] at hr
  subst hr
  have hk := h1.short
  simp only [valueRecord, toBytes_length, keywordField, field, Written.text, commentPart, blank,
    List.length_append, List.length_replicate, List.length_cons, List.length_nil]
  omega

theorem name_of (kw : Str) (h : kw ≠ [] ∧ kw.length ≤ 8 ∧
    (∀ c ∈ kw, ('A' ≤ c ∧ c ≤ 'Z') ∨ ('0' ≤ c ∧ c ≤ '9') ∨ c = '-' ∨ c = '_') ∧ kw ∉ special) : Name kw :=
  ⟨h.1, h.2.1, h.2.2.1, h.2.2.2⟩

theorem simpleLine_legal : simpleLine.Legal :=
  ⟨by decide +kernel, by intro t h; cases h⟩

theorem xtensionLine_legal (x : XtensionType) : (xtensionLine x).Legal :=
  ⟨by cases x <;> decide +kernel, by intro t h; cases h⟩

theorem tableLines_legal {w r n t : Nat} (hw : (Nat.toDigits 10 w).length ≤ 69 ∧ w < 2 ^ 63)
    (hr : (Nat.toDigits 10 r).length ≤ 69 ∧ r < 2 ^ 63) (hn : (Nat.toDigits 10 n).length ≤ 69 ∧ n < 2 ^ 63)
    (ht : (Nat.toDigits 10 t).length ≤ 69 ∧ t < 2 ^ 63) :
    ∀ l ∈ tableLines w r n t, l.Legal := by
  intro l hl
  simp only [tableLines, List.mem_cons, List.not_mem_nil, or_false] at hl
  rcases hl with rfl | rfl | rfl | rfl | rfl | rfl | rfl
  · exact intLine_legal (name_of _ (by decide +kernel)) (by decide +kernel) (by decide)
  · exact intLine_legal (name_of _ (by decide +kernel)) (by decide +kernel) (by decide)
  · exact intLine_legal (name_of _ (by decide +kernel)) hw.1 hw.2
  · exact intLine_legal (name_of _ (by decide +kernel)) hr.1 hr.2
  · exact intLine_legal (name_of _ (by decide +kernel)) hn.1 hn.2
  · exact intLine_legal (name_of _ (by decide +kernel)) (by decide +kernel) (by decide)
  · exact intLine_legal (name_of _ (by decide +kernel)) ht.1 ht.2

theorem writtenPrimary_legal : writtenPrimary.Legal true := by
  refine ⟨trivial, ⟨simpleLine_legal, ?_⟩, ?_, by decide +kernel⟩
  · intro l hl
    simp only [writtenPrimary, List.mem_cons, List.not_mem_nil, or_false] at hl
    rcases hl with rfl | rfl | rfl | rfl | rfl
    · exact intLine_legal (name_of _ (by decide +kernel)) (by decide +kernel) (by decide)
    · exact intLine_legal (name_of _ (by decide +kernel)) (by decide +kernel) (by decide)
    · exact intLine_legal (name_of _ (by decide +kernel)) (by decide +kernel) (by decide)
    · exact strLine_legal (name_of _ (by decide +kernel)) (by unfold Printable; decide +kernel) (by decide +kernel)
    · exact ⟨by decide +kernel, trivial⟩
  · refine ⟨⟨none, by decide +kernel⟩, ⟨none, by decide +kernel⟩, ?_, ?_, rfl, ?_⟩
    · intro i hi
      match i, hi with
      | 0, _ => exact ⟨none, show _ = some (Value.integer 2 none) by decide +kernel⟩
    · intro v hv
      simp only [List.mem_cons, List.not_mem_nil, or_false] at hv
      rcases hv with rfl | rfl
      · exact ⟨by decide, by decide⟩
      · exact ⟨by decide, by decide⟩
    · intro h
      simp at h

theorem writtenAscii_legal : writtenAscii.Legal false := by
  refine ⟨trivial, ⟨xtensionLine_legal _, ?_⟩, ?_, by decide +kernel⟩
  · intro l hl
    simp only [writtenAscii, List.mem_append, List.mem_cons, List.not_mem_nil, or_false] at hl
    rcases hl with hl | rfl | rfl
    · exact tableLines_legal (by decide +kernel) (by decide +kernel) (by decide +kernel) (by decide +kernel) l hl
    · exact intLine_legal (name_of _ (by decide +kernel)) (by decide +kernel) (by decide)
    · exact strLine_legal (name_of _ (by decide +kernel)) (by unfold Printable; decide +kernel) (by decide +kernel)
  · exact ⟨⟨⟨none, by decide +kernel⟩, ⟨none, by decide +kernel⟩, ⟨none, by decide +kernel⟩, ⟨none, by decide +kernel⟩,
      ⟨none, by decide +kernel⟩, ⟨none, by decide +kernel⟩, ⟨none, by decide +kernel⟩⟩, by decide, by decide +kernel⟩

/-- The values of a field are legal: a check for lists given in full. -/
def Spec.Cell.okFor (ty : ElemTy) : Cell → Bool
  | .logical _ => ty == .L
  | .char v => ty == .A && v < 2 ^ 8
  | .ubyte v => ty == .B && v < 2 ^ 8
  | .short v => ty == .I && (-(2 ^ 15) ≤ v && v < 2 ^ 15)
  | _ => false

theorem Spec.Cell.okFor_ok {ty : ElemTy} {vs : List Cell} (h : vs.all (Spec.Cell.okFor ty) = true) : ∀ v ∈ vs, CellOk ty v := by
  intro v hv
  have := List.all_eq_true.1 h v hv
  cases v <;> cases ty <;> simp_all [Spec.Cell.okFor, CellOk]

theorem writtenTable_legal : writtenTable.Legal false := by
  refine ⟨trivial, ⟨xtensionLine_legal _, ?_⟩, ?_, by decide +kernel⟩
  · intro l hl
    simp only [writtenTable, List.mem_append, List.mem_cons, List.not_mem_nil, or_false] at hl
    rcases hl with hl | rfl | rfl
    · exact tableLines_legal (by decide +kernel) (by decide +kernel) (by decide +kernel) (by decide +kernel) l hl
    · exact strLine_legal (name_of _ (by decide +kernel)) (by unfold Printable; decide +kernel) (by decide +kernel)
    · exact strLine_legal (name_of _ (by decide +kernel)) (by unfold Printable; decide +kernel) (by decide +kernel)
  · refine ⟨⟨⟨⟨none, by decide +kernel⟩, ⟨none, by decide +kernel⟩, ⟨none, by decide +kernel⟩, ⟨none, by decide +kernel⟩,
      ⟨none, by decide +kernel⟩, ⟨none, by decide +kernel⟩, ⟨none, by decide +kernel⟩⟩, by simp, by decide +kernel, ?_,
      .inl ⟨by decide +kernel, rfl⟩, ?_⟩, by decide +kernel, by decide +kernel⟩
    · intro i hi
      match i, hi with
      | 0, _ => exact ⟨"2I".toList, ⟨none, by decide +kernel⟩, ['2'], 'I', [], by decide +kernel, by unfold Digits; decide,
          show ('I', ElemTy.I) ∈ letters by decide, by decide +kernel, show 2 = countOf ['2'] by decide +kernel⟩
      | 1, _ => exact ⟨"3A".toList, ⟨none, by decide +kernel⟩, ['3'], 'A', [], by decide +kernel, by unfold Digits; decide,
          show ('A', ElemTy.A) ∈ letters by decide, by decide +kernel, show 3 = countOf ['3'] by decide +kernel⟩
    · intro row hrow
      simp only [List.mem_cons, List.not_mem_nil, or_false] at hrow
      rcases hrow with rfl | rfl
      · refine ⟨rfl, fun c h1 h2 => ?_⟩
        match c, h1 with
        | 0, _ => exact ⟨rfl, Spec.Cell.okFor_ok (by decide)⟩
        | 1, _ => exact ⟨rfl, Spec.Cell.okFor_ok (by decide)⟩
      · refine ⟨rfl, fun c h1 h2 => ?_⟩
        match c, h1 with
        | 0, _ => exact ⟨rfl, Spec.Cell.okFor_ok (by decide)⟩
        | 1, _ => exact ⟨rfl, Spec.Cell.okFor_ok (by decide)⟩

theorem writtenArrays_legal : writtenArrays.Legal false := by
  refine ⟨trivial, ⟨xtensionLine_legal _, ?_⟩, ?_, by decide +kernel⟩
  · intro l hl
    simp only [writtenArrays, List.mem_append, List.mem_cons, List.not_mem_nil, or_false] at hl
    rcases hl with hl | rfl | rfl | rfl
    · exact tableLines_legal (by decide +kernel) (by decide +kernel) (by decide +kernel) (by decide +kernel) l hl
    · exact strLine_legal (name_of _ (by decide +kernel)) (by unfold Printable; decide +kernel) (by decide +kernel)
    · exact strLine_legal (name_of _ (by decide +kernel)) (by unfold Printable; decide +kernel) (by decide +kernel)
    · exact intLine_legal (name_of _ (by decide +kernel)) (by decide +kernel) (by decide)
  · refine ⟨⟨⟨⟨none, by decide +kernel⟩, ⟨none, by decide +kernel⟩, ⟨none, by decide +kernel⟩, ⟨none, by decide +kernel⟩,
      ⟨none, by decide +kernel⟩, ⟨none, by decide +kernel⟩, ⟨none, by decide +kernel⟩⟩, by simp, by decide +kernel, ?_,
      .inr ⟨none, by decide +kernel⟩, ?_⟩, by decide +kernel, by decide +kernel⟩
    · intro i hi
      match i, hi with
      | 0, _ => exact ⟨"1PI(2)".toList, ⟨none, by decide +kernel⟩, by decide, ['1'], 'I', "(2)".toList, by decide +kernel,
          by unfold Digits; decide, show ('I', ElemTy.I) ∈ letters by decide⟩
      | 1, _ => exact ⟨"1B".toList, ⟨none, by decide +kernel⟩, ['1'], 'B', [], by decide +kernel, by unfold Digits; decide,
          show ('B', ElemTy.B) ∈ letters by decide, by decide +kernel, show 1 = countOf ['1'] by decide +kernel⟩
    · intro row hrow
      simp only [List.mem_cons, List.not_mem_nil, or_false] at hrow
      rcases hrow with rfl | rfl
      · refine ⟨rfl, fun c h1 h2 => ?_⟩
        match c, h1 with
        | 0, _ => exact ⟨rfl, Spec.Cell.okFor_ok (by decide), by decide, by decide, by decide +kernel⟩
        | 1, _ => exact ⟨rfl, Spec.Cell.okFor_ok (by decide)⟩
      · refine ⟨rfl, fun c h1 h2 => ?_⟩
        match c, h1 with
        | 0, _ => exact ⟨rfl, Spec.Cell.okFor_ok (by decide), by decide, by decide, by decide +kernel⟩
        | 1, _ => exact ⟨rfl, Spec.Cell.okFor_ok (by decide)⟩

theorem writtenFalse_legal : writtenFalse.Legal false := by
  refine ⟨trivial, ⟨xtensionLine_legal _, ?_⟩, ?_, by decide +kernel⟩
  · intro l hl
    simp only [writtenFalse, List.mem_append, List.mem_cons, List.not_mem_nil, or_false] at hl
    rcases hl with hl | rfl
    · exact tableLines_legal (by decide +kernel) (by decide +kernel) (by decide +kernel) (by decide +kernel) l hl
    · exact strLine_legal (name_of _ (by decide +kernel)) (by unfold Printable; decide +kernel) (by decide +kernel)
  · refine ⟨⟨⟨⟨none, by decide +kernel⟩, ⟨none, by decide +kernel⟩, ⟨none, by decide +kernel⟩, ⟨none, by decide +kernel⟩,
      ⟨none, by decide +kernel⟩, ⟨none, by decide +kernel⟩, ⟨none, by decide +kernel⟩⟩, by simp, by decide +kernel, ?_,
      .inl ⟨by decide +kernel, rfl⟩, ?_⟩, by decide +kernel, by decide +kernel⟩
    · intro i hi
      match i, hi with
      | 0, _ => exact ⟨"1L".toList, ⟨none, by decide +kernel⟩, ['1'], 'L', [], by decide +kernel, by unfold Digits; decide,
          show ('L', ElemTy.L) ∈ letters by decide, by decide +kernel, show 1 = countOf ['1'] by decide +kernel⟩
    · intro row hrow
      simp only [List.mem_cons, List.not_mem_nil, or_false] at hrow
      subst hrow
      refine ⟨rfl, fun c h1 h2 => ?_⟩
      match c, h1 with
      | 0, _ => exact ⟨rfl, Spec.Cell.okFor_ok (by decide)⟩

/-! ## C71 -/

/-- The data units are images and ASCII tables. -/
def Spec.NoBinTables (us : List WrittenHdu) : Prop := ∀ u ∈ us, (∀ t, u.body ≠ .table t) ∧ ∀ w, u.body ≠ .tiles w

/-- **C71.** A file made of a primary image, images and ASCII tables, with any legal lines in the headers, in any layout,
is read back as written: reading its HDUs in order, opening the data unit of each and asking for any number of its items,
shows the HDUs as written (cards, values of the keywords, description, place of the data), their pixels or bytes in
order, and then the end of the file.  In both build profiles. -/
theorem C71_read_back (p : Profile) (us : List WrittenHdu) (hf : File true us) (hn : NoBinTables us)
    (hs : (fileBytes us).length < 2 ^ 60) :
    ∃ hs, ShownAll true 0 us hs ∧ ∀ (gz : Gunzip) (fuel : Nat) (ks : List Nat), ks.length = us.length →
      (Session.new ⟨fileBytes us, 0⟩).run p gz fuel (visits ks) = seenVisits ks us hs := by
  have hr : ∀ u ∈ us, u.body.Readable := fun u hu => by
    cases hb : u.body with
    | table t => exact absurd hb ((hn u hu).1 t)
    | tiles w => exact absurd hb ((hn u hu).2 w)
    | image => trivial
    | ascii => trivial
  obtain ⟨hs, h1, h2⟩ := visit_rest (p := p) hf (fun u hu => (hr u hu).legible.whole) [] hs
  exact ⟨hs, h1, fun gz fuel ks hk => h2 gz fuel (fun u hu => ((hr u hu).by p gz fuel).1)
    (.inr fun u hu => ((hr u hu).by p gz fuel).2) _ ⟨rfl, rfl, rfl, rfl⟩ ks hk⟩

/-- A file with an image and an ASCII table, for instance. -/
example : ∃ us, File true us ∧ NoBinTables us ∧ us.map (fun u => u.body.item 1) = [.pixel (some (.i16 (-2))), .byte (some 32)] :=
  ⟨[writtenPrimary, writtenAscii],
    .cons writtenPrimary_legal (by decide +kernel) (.last writtenAscii_legal (by decide +kernel)), by
      intro u hu
      simp only [List.mem_cons, List.not_mem_nil, or_false] at hu
      rcases hu with rfl | rfl <;> exact ⟨fun t h => (by cases h), fun w h => (by cases h)⟩, rfl⟩

/-! ## C72 -/

/-- **C72**, in full: every file of images, ASCII tables and binary tables, with any columns but arrays of bits, is read
back as written. -/
def C72_statement : Prop :=
  ∀ (p : Profile) (us : List WrittenHdu), File true us → (∀ u ∈ us, ∀ w, u.body ≠ .tiles w) →
    (fileBytes us).length < 2 ^ 60 → ∃ hs, ShownAll true 0 us hs ∧ ∀ (gz : Gunzip) (fuel : Nat) (ks : List Nat), ks.length = us.length →
      (Session.new ⟨fileBytes us, 0⟩).run p gz fuel (visits ks) = seenVisits ks us hs

/-- **C72**, partial: for binary tables without bit columns, without columns of no values, without empty arrays, and
without false logical values. -/
theorem C72_partial (p : Profile) (us : List WrittenHdu) (hf : File true us) (hr : ∀ u ∈ us, u.body.Readable)
    (hs : (fileBytes us).length < 2 ^ 60) :
    ∃ hs, ShownAll true 0 us hs ∧ ∀ (gz : Gunzip) (fuel : Nat) (ks : List Nat), ks.length = us.length →
      (Session.new ⟨fileBytes us, 0⟩).run p gz fuel (visits ks) = seenVisits ks us hs := by
  obtain ⟨hs, h1, h2⟩ := visit_rest (p := p) hf (fun u hu => (hr u hu).legible.whole) [] hs
  exact ⟨hs, h1, fun gz fuel ks hk => h2 gz fuel (fun u hu => ((hr u hu).by p gz fuel).1)
    (.inr fun u hu => ((hr u hu).by p gz fuel).2) _ ⟨rfl, rfl, rfl, rfl⟩ ks hk⟩

/-- A file with an image, an ASCII table and a binary table with arrays, in a heap after a gap, for instance. -/
example : ∃ us, File true us ∧ (∀ u ∈ us, u.body.Readable) ∧ us.map (fun u => u.body.item 3) =
    [.pixel none, .byte (some 49), .value (some (.cell 0 0 (.short 6)))] :=
  ⟨[writtenPrimary, writtenAscii, writtenArrays],
    .cons writtenPrimary_legal (by decide +kernel) (.cons writtenAscii_legal (by decide +kernel)
      (.last writtenArrays_legal (by decide +kernel))), by
      intro u hu
      simp only [List.mem_cons, List.not_mem_nil, or_false] at hu
      rcases hu with rfl | rfl | rfl
      · trivial
      · trivial
      · refine ⟨?_, ?_, by decide +kernel⟩
        · intro ty rep hc
          simp only [List.mem_cons, List.not_mem_nil, or_false] at hc
          rcases hc with hc | hc <;> cases hc
          exact ⟨by decide, by decide⟩
        · intro row hrow w o hm
          simp only [List.mem_cons, List.not_mem_nil, or_false] at hrow
          rcases hrow with rfl | rfl <;> simp at hm, rfl⟩

/-- **C72, exactly, for logical values**: with false ones, the file is read back as written, but that they are given as true. -/
theorem C72_exact_logical (p : Profile) (us : List WrittenHdu) (hf : File true us) (hr : ∀ u ∈ us, u.body.Legible)
    (hs : (fileBytes us).length < 2 ^ 60) :
    ∃ hs, ShownAll true 0 us hs ∧ ∀ (gz : Gunzip) (fuel : Nat) (ks : List Nat), ks.length = us.length →
      (Session.new ⟨fileBytes us, 0⟩).run p gz fuel (visits ks) = givenVisits ks us hs := by
  obtain ⟨hs, h1, h2⟩ := visit_given (p := p) hf (fun u hu => (hr u hu).whole) [] hs
  exact ⟨hs, h1, fun gz fuel ks hk => h2 gz fuel (fun u hu => ((hr u hu).by p gz fuel).1)
    (.inr fun u hu => ((hr u hu).by p gz fuel).2) _ ⟨rfl, rfl, rfl, rfl⟩ ks hk⟩

/-- The value seen is false. -/
def seesFalse : Option (Option (Res Seen)) → Bool
  | some (some (.ok (.value (some (.cell _ _ (.logical false)))))) => true
  | _ => false

set_option maxRecDepth 20000 in
theorem false_not_seen : seesFalse ((Session.new ⟨fileBytes [writtenPrimary, writtenFalse], 0⟩).run .wrapping (.of fun _ => []) 0
    (visits [0, 1]))[4]? = false := by
  decide +kernel

theorem C72_fails : ¬ C72_statement := by
  intro h
  obtain ⟨hs, h1, h2⟩ := h .wrapping [writtenPrimary, writtenFalse]
    (.cons writtenPrimary_legal (by decide +kernel) (.last writtenFalse_legal (by decide +kernel))) (by
      intro u hu w h
      simp only [List.mem_cons, List.not_mem_nil, or_false] at hu
      rcases hu with rfl | rfl <;> cases h) (by decide +kernel)
  have h3 := false_not_seen
  rw [h2 (.of fun _ => []) 0 [0, 1] rfl] at h3
  cases h1 with
  | cons _ h1 =>
    cases h1 with
    | cons _ h1 =>
      cases h1
      have h4 : true = false := h3
      cases h4

/-- The file of `C72_fails`, for instance: the value given is true. -/
example : File true [writtenPrimary, writtenFalse] ∧ (∀ u ∈ [writtenPrimary, writtenFalse], u.body.Legible) ∧
    [writtenPrimary, writtenFalse].map (fun u => u.body.given 0) =
      [.pixel (some (.i16 258)), .value (some (.cell 0 0 (.logical true)))] ∧
    writtenFalse.body.item 0 = .value (some (.cell 0 0 (.logical false))) := by
  refine ⟨.cons writtenPrimary_legal (by decide +kernel) (.last writtenFalse_legal (by decide +kernel)), ?_, rfl, rfl⟩
  intro u hu
  simp only [List.mem_cons, List.not_mem_nil, or_false] at hu
  rcases hu with rfl | rfl
  · trivial
  · refine ⟨?_, ?_⟩
    · intro ty rep hc
      simp only [List.mem_cons, List.not_mem_nil, or_false] at hc
      cases hc
      exact ⟨by decide, by decide⟩
    · intro row hrow w o hm
      simp only [List.mem_cons, List.not_mem_nil, or_false] at hrow
      subst hrow
      simp at hm

end Fitsrs

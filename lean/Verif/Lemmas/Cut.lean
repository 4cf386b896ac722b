import Verif.Lemmas.Walk
import Verif.Lemmas.History
import Verif.Spec.Cut
/-
Helper lemmas on files cut short.
-/

namespace Fitsrs
open Spec

theorem recordAt_cut {data : List UInt8} {n pos i : Nat} (h : pos + 80 * (i + 1) ≤ n) :
    recordAt (data.take n) pos i = recordAt data pos i := by
  unfold recordAt
  rw [List.drop_take, List.take_take, Nat.min_eq_left (by omega)]

/-- The records of a header in a file. -/
theorem recordAt_header {A C : List UInt8} {s : Segment} (hs : s.HeaderOk) (i : Nat) (hi : i < s.records.length) :
    recordAt (A ++ s.header ++ C) A.length i = s.records[i] := by
  rw [← recordAt_flatten (A := A) (C := s.headerFill ++ C) hs.len80 i hi]
  simp only [Segment.header, List.append_assoc]

theorem Spec.Segment.HeaderOk.records_pos {s : Segment} (hs : s.HeaderOk) : 0 < s.records.length := by
  obtain ⟨rs, e, h, -, -⟩ := hs.endLast
  rw [h]
  simp

theorem Spec.Segment.HeaderOk.header_ge {s : Segment} (hs : s.HeaderOk) : 80 * s.records.length ≤ s.header.length := by
  rw [hs.fill]
  exact roundUp2880_ge _

/-- Cutting within the records of a header. -/
theorem consumeCards_cut {A C : List UInt8} {s : Segment} {cards : List Card} (hs : s.HeaderOk)
    (hc : CardsOf s.records cards) {n : Nat} (h1 : A.length ≤ n) (h2 : n < A.length + 80 * s.records.length) :
    ∃ st, consumeCards { rd := ⟨(A ++ s.header ++ C).take n, A.length⟩, nread := 0 } = (.err (.io .unexpectedEof), st) ∧
      (A.length + 80 ≤ n → st.nread ≠ 0) := by
  have hlen : ((A ++ s.header ++ C).take n).length = n := by
    have := hs.header_ge
    rw [List.length_take, List.length_append, List.length_append]
    omega
  have hcl := hc.length
  have hrec : ∀ i, A.length + 80 * (i + 1) ≤ n → ∃ hi : i < s.records.length,
      recordAt ((A ++ s.header ++ C).take n) A.length i = s.records[i] := by
    intro i hi
    have : i < s.records.length := by omega
    exact ⟨this, by rw [recordAt_cut hi, recordAt_header hs i this]⟩
  cases hx : consumeCards { rd := ⟨(A ++ s.header ++ C).take n, A.length⟩, nread := 0 } with
  | mk r st =>
    cases r with
    | ok cs =>
      exfalso
      obtain ⟨g1, -, -, g4, g5, g6⟩ := consumeCardsN_ok hx
      simp only [hlen] at g4 g5
      have hlast := (g6 (cs.length - 1) (by omega)).2 (by omega)
      have hr := g5 (cs.length - 1) (by omega)
      rw [hlast, recordCard_end_iff] at hr
      obtain ⟨hi, e⟩ := hrec (cs.length - 1) (by omega)
      rw [e] at hr
      obtain ⟨rs, e1, hre, -, hne⟩ := hs.endLast
      have hrl : s.records.length = rs.length + 1 := by rw [hre]; simp
      have hlt : cs.length - 1 < rs.length := by omega
      refine hne (rs[cs.length - 1]) (List.getElem_mem _) ?_
      have : s.records[cs.length - 1] = rs[cs.length - 1] := by
        simp only [hre]
        rw [List.getElem_append_left hlt]
      rw [← this]
      exact hr
    | err e =>
      obtain ⟨rfl, k, g1, g2, -⟩ := consumeCardsN_err hx
      refine ⟨st, rfl, fun h => ?_⟩
      simp only [hlen] at g1 g2
      omega
    | panic =>
      exfalso
      obtain ⟨k, g1, g2, -⟩ := consumeCards_panic hx
      simp only [hlen] at g1 g2
      obtain ⟨hi, e⟩ := hrec k g1
      rw [e, hc.get k (by omega)] at g2
      cases g2

/-- Cutting within the fill of a header. -/
theorem consumeCards_cut_fill {A C : List UInt8} {s : Segment} {cards : List Card} (hs : s.HeaderOk)
    (hc : CardsOf s.records cards) {n : Nat} (h1 : A.length + 80 * s.records.length ≤ n)
    (h2 : n < A.length + s.header.length) :
    consumeCards { rd := ⟨(A ++ s.header ++ C).take n, A.length⟩, nread := 0 } = (.ok cards,
      { rd := ⟨(A ++ s.header ++ C).take n, A.length + 80 * cards.length⟩, nread := 80 * cards.length }) := by
  obtain ⟨r, hr⟩ : ∃ r, s.headerFill.take r = (s.headerFill ++ C).take (n - (A.length + 80 * s.records.length)) := by
    have hfl := flatten_length_80 hs.len80
    refine ⟨n - (A.length + 80 * s.records.length), ?_⟩
    rw [List.take_append_of_le_length]
    unfold Segment.header at h2
    rw [List.length_append] at h2
    omega
  have hpos := hs.records_pos
  have hlen : ((A ++ s.header ++ C).take n).length = n := by
    have := hs.header_ge
    rw [List.length_take, List.length_append, List.length_append]
    omega
  have hcl := hc.length
  have hfull := consumeCards_segment (A := A) (C := C) hs hc
  obtain ⟨g1, -, -, g4, g5, g6⟩ := consumeCardsN_ok hfull
  have := consumeCards_complete (k := s.records.length - 1)
    (s := { rd := ⟨(A ++ s.header ++ C).take n, A.length⟩, nread := 0 }) (cards := cards)
    (by simp only [hlen]; omega) (by omega)
    (by
      intro i hi
      rw [← g5 i hi]
      simp only
      rw [recordAt_cut (by omega)])
    g6
  rw [this]
  have : s.records.length - 1 + 1 = cards.length := by omega
  simp [this]

/-- The fill of a header is missing. -/
theorem Hdu.new_cut {X : Type} {parse : ValueMap → Res X} {cards : List Card} {hd : Header X} {data : List UInt8}
    {pos : Nat} (hp : Header.parse parse cards = .ok hd) (h1 : pos + 80 * cards.length ≤ data.length)
    (h2 : data.length < pos + roundUp2880 (80 * cards.length)) :
    ∃ st, Hdu.new parse cards { rd := ⟨data, pos + 80 * cards.length⟩, nread := 80 * cards.length } =
      (.err (.static "EOF reached"), st) := by
  unfold Hdu.new
  rw [hp]
  dsimp only
  have hm : 80 * cards.length % 2880 ≠ 0 := by
    intro h
    rw [roundUp2880_of_mod h] at h2
    omega
  rw [if_pos hm]
  rw [roundUp2880_of_not_mod hm] at h2
  cases hx : Reader.readExact (2880 - 80 * cards.length % 2880) ⟨data, pos + 80 * cards.length⟩ with
  | mk r rd =>
    cases r with
    | ok b =>
      obtain ⟨g1, g2, -⟩ := Reader.readExact_ok_iff.1 hx
      rw [g1, List.length_take, List.length_drop] at g2
      dsimp only at g2
      omega
    | err e => exact ⟨_, rfl⟩
    | panic => exact absurd hx (by simp [Reader.readExact]; split <;> simp)

/-- What the iterator returns when a header is cut. -/
theorem extensionItem_cut {p : Profile} {A C : List UInt8} {s : Segment} {h : HDU} (hs : s.HeaderOk)
    (d : Describes p A.length s false h) {n : Nat} (h1 : A.length ≤ n) (h2 : n < A.length + s.header.length) :
    Fits.extensionItem (Fits.extensionAt p ((A ++ s.header ++ C).take n) A.length) =
      if n < A.length + 80 then none
      else some (.err (if n < A.length + 80 * s.records.length then .io .unexpectedEof else .static "EOF reached")) := by
  have hlen : ((A ++ s.header ++ C).take n).length = n := by
    rw [List.length_take, List.length_append, List.length_append]
    omega
  have hpos := hs.records_pos
  by_cases h80 : n < A.length + 80
  · rw [if_pos h80, Fits.extensionAt_eof (by rw [hlen]; exact h80)]
    rfl
  · rw [if_neg h80]
    by_cases hrec : n < A.length + 80 * s.records.length
    · rw [if_pos hrec]
      obtain ⟨cards, hc⟩ : ∃ cards, CardsOf s.records cards := by cases d <;> exact ⟨_, by assumption⟩
      obtain ⟨st, e, g⟩ := consumeCards_cut (C := C) hs hc h1 hrec
      unfold Fits.extensionAt HDU.newXtension
      rw [e]
      simp only [Fits.extensionItem]
      rw [if_neg (g (by omega))]
    · rw [if_neg hrec]
      have hfill := hs.fill
      unfold Fits.extensionAt HDU.newXtension
      cases d with
      | image hc hcs hp ho hsz =>
        rw [consumeCards_cut_fill hs hc (by omega) h2]
        dsimp only
        have hcl := hc.length
        obtain ⟨st, e⟩ := Hdu.new_cut (data := (A ++ s.header ++ C).take n) (pos := A.length) hp
          (by rw [hlen]; omega) (by rw [hlen, hcl]; omega)
        unfold xtensionOf
        rw [e, hcs]
        rfl
      | binTable hc hcs hp ho hsz =>
        rw [consumeCards_cut_fill hs hc (by omega) h2]
        dsimp only
        have hcl := hc.length
        obtain ⟨st, e⟩ := Hdu.new_cut (data := (A ++ s.header ++ C).take n) (pos := A.length) hp
          (by rw [hlen]; omega) (by rw [hlen, hcl]; omega)
        unfold xtensionOf
        rw [e, hcs]
        rfl
      | asciiTable hc hcs hp ho hsz =>
        rw [consumeCards_cut_fill hs hc (by omega) h2]
        dsimp only
        have hcl := hc.length
        obtain ⟨st, e⟩ := Hdu.new_cut (data := (A ++ s.header ++ C).take n) (pos := A.length) hp
          (by rw [hlen]; omega) (by rw [hlen, hcl]; omega)
        unfold xtensionOf
        rw [e, hcs]
        rfl

/-- What is returned when the first header is cut. -/
theorem newPrimary_cut {p : Profile} {C : List UInt8} {s : Segment} {h : HDU} (hs : s.HeaderOk)
    (d : Describes p 0 s true h) {n : Nat} (h2 : n < s.header.length) :
    (HDU.newPrimary ⟨(s.header ++ C).take n, 0⟩).1 =
      .err (if n < 80 * s.records.length then .io .unexpectedEof else .static "EOF reached") := by
  have hlen : ((s.header ++ C).take n).length = n := by
    rw [List.length_take, List.length_append]
    omega
  unfold HDU.newPrimary
  cases d with
  | primary hc hcs hp ho hsz =>
    by_cases hrec : n < 80 * s.records.length
    · rw [if_pos hrec]
      obtain ⟨st, e, -⟩ := consumeCards_cut (A := []) (C := C) hs hc (Nat.zero_le n) (by simpa using hrec)
      simp only [List.nil_append, List.length_nil] at e
      rw [e]
    · rw [if_neg hrec]
      have e := consumeCards_cut_fill (A := []) (C := C) hs hc (n := n) (by simp only [List.length_nil]; omega)
        (by simpa using h2)
      simp only [List.nil_append, List.length_nil, Nat.zero_add] at e
      rw [e]
      dsimp only
      have hcl := hc.length
      have hfill := hs.fill
      obtain ⟨st, e⟩ := Hdu.new_cut (data := (s.header ++ C).take n) (pos := 0) hp
        (by rw [hlen]; omega) (by rw [hlen, hcl]; omega)
      rw [Nat.zero_add] at e
      unfold primaryOf
      rw [e, hcs]
      rfl

/-- The iterator on a cut file, after an HDU. -/
theorem walk_cut {p : Profile} {segs : List Segment} {hs : List HDU} {first : Bool} {o : Nat} (n : Nat)
    (hf : FileOf p first o segs hs) (hfirst : first = false)
    (A : List UInt8) (hA : A.length = o)
    (hsize : (A ++ (segs.map Segment.bytes).flatten).length + 2960 < 2 ^ 63)
    (f : Fits) (hd : f.rd.data = (A ++ (segs.map Segment.bytes).flatten).take n)
    (hst : f.start = false) (her : f.errored = false)
    (h1 : f.posStart ≤ f.rd.pos) (h2 : f.rd.pos ≤ f.posStart + f.numBytes)
    (h3 : f.posStart + roundUp2880 f.numBytes = o)
    (ks : List Nat) (hk : hs.length < ks.length) :
    collectReading p ks f = cutItems n first o segs hs := by
  have stop : ∀ (o : Nat) (A : List UInt8) (f : Fits) (ks : List Nat) (D : List UInt8), A.length = o →
      f.rd.data = (A ++ D).take n → n < o + 80 → o < 2 ^ 63 → f.start = false → f.errored = false →
      f.posStart ≤ f.rd.pos → f.rd.pos ≤ f.posStart + f.numBytes → f.posStart + roundUp2880 f.numBytes = o →
      0 < ks.length → collectReading p ks f = [] := by
    intro o A f ks D hA hd hn ho hst her h1 h2 h3 hk
    obtain ⟨k, ks, rfl⟩ : ∃ k ks', ks = k :: ks' := by
      cases ks with
      | nil => simp at hk
      | cons a b => exact ⟨a, b, rfl⟩
    unfold collectReading
    rw [Fits.next_eof hst her h1 h2 (by omega) (by rw [hd, List.length_take]; omega)]
  have bad : ∀ (A C : List UInt8) (s : Segment) (h : HDU) (f : Fits) (ks : List Nat), s.HeaderOk →
      Describes p A.length s false h → f.rd.data = (A ++ s.header ++ C).take n → A.length < 2 ^ 63 →
      A.length + 80 ≤ n → n < A.length + s.header.length → f.start = false → f.errored = false →
      f.posStart ≤ f.rd.pos → f.rd.pos ≤ f.posStart + f.numBytes → f.posStart + roundUp2880 f.numBytes = A.length →
      1 < ks.length → collectReading p ks f =
        [.err (if n < A.length + 80 * s.records.length then .io .unexpectedEof else .static "EOF reached")] := by
    intro A C s h f ks hh hdsc hd hl g1 g2 hst her h1 h2 h3 hk
    obtain ⟨k1, k2, ks, rfl⟩ : ∃ k k' ks', ks = k :: k' :: ks' := by
      match ks, hk with
      | a :: b :: c, _ => exact ⟨a, b, c, rfl⟩
    have hit := extensionItem_cut (C := C) hh hdsc (n := n) (by omega) g2
    rw [if_neg (by omega)] at hit
    have hnext := Fits.next_inside (p := p) hst her h1 h2 (by omega)
    rw [h3, hd, hit] at hnext
    simp only [Fits.record] at hnext
    unfold collectReading
    rw [hnext]
    dsimp only
    unfold collectReading
    rw [Fits.next_errored rfl]
  induction hf generalizing A f ks with
  | @last first o s h hh hdsc hfill =>
    subst hfirst hA
    have hoff := hdsc.offset
    have hsz := hdsc.size
    have hD : A ++ (List.map Segment.bytes [s]).flatten = A ++ s.header ++ (s.data ++ s.dataFill) := by
      simp [Segment.bytes]
    rw [hD] at hd hsize
    simp only [List.length_append] at hsize
    unfold cutItems
    by_cases hin : A.length + s.header.length ≤ n
    · rw [if_pos hin]
      obtain ⟨k1, ks, rfl⟩ : ∃ k ks', ks = k :: ks' := by
        cases ks with
        | nil => simp at hk
        | cons a b => exact ⟨a, b, rfl⟩
      have hcut : f.rd.data = A ++ s.header ++ (s.data ++ s.dataFill).take (n - (A ++ s.header).length) := by
        rw [hd, List.take_append, List.take_of_length_le (by rw [List.length_append]; exact hin)]
      have hext := extensionAt_segment (C := (s.data ++ s.dataFill).take (n - (A ++ s.header).length)) hh hdsc
      rw [← hcut] at hext
      have hnext := Fits.next_inside (p := p) hst her h1 h2 (by omega)
      rw [h3, hext] at hnext
      simp only [Fits.extensionItem, Fits.record, hsz] at hnext
      unfold collectReading
      rw [hnext]
      dsimp only
      unfold cutItems
      congr 1
      have hlt := roundUp2880_lt s.data.length
      obtain ⟨k2, ks, rfl⟩ : ∃ k ks', ks = k :: ks' := by
        cases ks with
        | nil => simp at hk
        | cons a b => exact ⟨a, b, rfl⟩
      generalize hg : readData k1 _ = g
      have hg0 : g.start = false ∧ g.errored = false := by rw [← hg]; exact ⟨hst, her⟩
      have hg1 : g.rd.data = f.rd.data := by rw [← hg]; rfl
      have hg2 : g.posStart = h.dataOffset := by rw [← hg]; rfl
      have hg3 : g.numBytes = s.data.length := by rw [← hg]; rfl
      have hg4 : g.rd.pos = h.dataOffset + min k1 s.data.length := by rw [← hg]; rfl
      unfold collectReading
      rw [Fits.next_eof hg0.1 hg0.2 (by rw [hg2, hg4]; omega) (by rw [hg2, hg3, hg4]; omega) (by rw [hg2, hg3]; omega)
        (by rw [hg1, hg2, hg3, hd, List.length_take]; simp only [List.length_append]; omega)]
    · rw [if_neg hin]
      by_cases h80 : n < A.length + 80
      · rw [if_pos ⟨rfl, h80⟩]
        exact stop _ A f ks (s.header ++ (s.data ++ s.dataFill)) rfl (by rw [hd, List.append_assoc]) h80 (by omega) hst her h1 h2 h3 (by omega)
      · rw [if_neg (fun h => h80 h.2)]
        exact bad A _ s h f ks hh hdsc hd (by omega) (by omega) (by omega) hst her h1 h2 h3 (by simpa using hk)
  | @cons first o s h ss hs hh hdsc hdok hrest ih =>
    subst hfirst hA
    have hoff := hdsc.offset
    have hsz := hdsc.size
    have hbl : s.bytes.length = s.header.length + s.data.length + s.dataFill.length := by
      simp only [Segment.bytes, List.length_append]
    have hD : A ++ (List.map Segment.bytes (s :: ss)).flatten =
        A ++ s.header ++ (s.data ++ s.dataFill ++ (ss.map Segment.bytes).flatten) := by
      simp [Segment.bytes]
    have hD2 : A ++ (List.map Segment.bytes (s :: ss)).flatten = A ++ s.bytes ++ (ss.map Segment.bytes).flatten := by
      simp
    have hlen : (A ++ (List.map Segment.bytes (s :: ss)).flatten).length =
        A.length + s.bytes.length + ((ss.map Segment.bytes).flatten).length := by
      rw [hD2, List.length_append, List.length_append]
    rw [hlen] at hsize
    unfold Segment.DataOk at hdok
    unfold cutItems
    by_cases hin : A.length + s.header.length ≤ n
    · rw [if_pos hin]
      obtain ⟨k1, ks, rfl⟩ : ∃ k ks', ks = k :: ks' := by
        cases ks with
        | nil => simp at hk
        | cons a b => exact ⟨a, b, rfl⟩
      generalize hC : s.data ++ s.dataFill ++ (ss.map Segment.bytes).flatten = C at hD
      have hcut : f.rd.data = A ++ s.header ++ C.take (n - (A ++ s.header).length) := by
        rw [hd, hD, List.take_append, List.take_of_length_le (by rw [List.length_append]; exact hin)]
      have hext := extensionAt_segment (C := C.take (n - (A ++ s.header).length)) hh hdsc
      rw [← hcut] at hext
      have hnext := Fits.next_inside (p := p) hst her h1 h2 (by omega)
      rw [h3, hext] at hnext
      simp only [Fits.extensionItem, Fits.record, hsz] at hnext
      unfold collectReading
      rw [hnext]
      dsimp only
      congr 1
      refine ih rfl (A ++ s.bytes) (by simp) ?_ (readData k1 _) ?_ ?_ ?_ ?_ ?_ ?_ ks (by simpa using hk)
      · rw [← hD2, hlen]; omega
      · simp only [readData]; rw [hd, hD2]
      · exact hst
      · exact her
      · simp only [readData]; omega
      · simp only [readData]; omega
      · simp only [readData]; omega
    · rw [if_neg hin]
      rw [hD] at hd
      by_cases h80 : n < A.length + 80
      · rw [if_pos ⟨rfl, h80⟩]
        rw [List.append_assoc] at hd
        exact stop _ A f ks _ rfl hd h80 (by omega) hst her h1 h2 h3 (by omega)
      · rw [if_neg (fun h => h80 h.2)]
        exact bad A _ s h f ks hh hdsc hd (by omega) (by omega) (by omega) hst her h1 h2 h3
          (by simp only [List.length_cons] at hk; omega)

end Fitsrs

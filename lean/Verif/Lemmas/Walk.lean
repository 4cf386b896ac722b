import Verif.Lemmas.Next
import Verif.Spec.Hdu
/-
Helper lemmas for walking the HDUs of a well-formed file.
-/

namespace Fitsrs
open Spec

theorem recordAt_flatten {A C : List UInt8} {records : List (List UInt8)}
    (h80 : ∀ r ∈ records, r.length = 80) (i : Nat) (hi : i < records.length) :
    recordAt (A ++ records.flatten ++ C) A.length i = records[i] := by
  induction records generalizing A i with
  | nil => simp at hi
  | cons r rs ih =>
    have hr : r.length = 80 := h80 r (by simp)
    cases i with
    | zero =>
      unfold recordAt
      simp only [List.flatten_cons, Nat.mul_zero, Nat.add_zero, List.getElem_cons_zero,
        List.append_assoc, List.drop_left']
      rw [← hr, List.take_left']
      rfl
    | succ i =>
      have := ih (A := A ++ r) (fun x hx => h80 x (by simp [hx])) i (by simpa using hi)
      rw [List.length_append, hr, recordAt_shift] at this
      rw [List.getElem_cons_succ, ← this]
      simp [List.append_assoc]

theorem flatten_length_80 {records : List (List UInt8)} (h80 : ∀ r ∈ records, r.length = 80) :
    records.flatten.length = 80 * records.length := by
  induction records with
  | nil => rfl
  | cons r rs ih =>
    have hr : r.length = 80 := h80 r (by simp)
    rw [List.flatten_cons, List.length_append, ih (fun x hx => h80 x (by simp [hx])), hr,
      List.length_cons]
    omega

theorem CardsOf.length {records : List (List UInt8)} {cards : List Card} (h : CardsOf records cards) :
    cards.length = records.length := by
  have := congrArg List.length h
  simpa using this.symm

theorem CardsOf.get {records : List (List UInt8)} {cards : List Card} (h : CardsOf records cards)
    (i : Nat) (hi : i < cards.length) : recordCard (records[i]'(h.length ▸ hi)) = .ok cards[i] := by
  have h1 := h.length
  have h2 : (records.map recordCard)[i]? = (cards.map Res.ok)[i]? := by rw [h]
  rw [List.getElem?_map, List.getElem?_map, List.getElem?_eq_getElem hi,
    List.getElem?_eq_getElem (h1 ▸ hi)] at h2
  simpa using h2

/-- Reading the header of a segment that starts at the reader position. -/
theorem consumeCards_segment {A C : List UInt8} {s : Segment} {cards : List Card} (hs : s.HeaderOk)
    (hc : CardsOf s.records cards) :
    consumeCards { rd := ⟨A ++ s.header ++ C, A.length⟩, nread := 0 } = (.ok cards,
      { rd := ⟨A ++ s.header ++ C, A.length + 80 * cards.length⟩, nread := 80 * cards.length }) := by
  have hlen := hc.length
  obtain ⟨rs, e, hre, he, hne⟩ := hs.endLast
  have hpos : 0 < s.records.length := by rw [hre]; simp
  have hfl := flatten_length_80 hs.len80
  have := consumeCards_complete (k := s.records.length - 1)
    (s := { rd := ⟨A ++ s.header ++ C, A.length⟩, nread := 0 }) (cards := cards)
    (by
      simp only [Segment.header, List.length_append]
      omega)
    (by omega)
    (by
      intro i hi
      rw [← hc.get i hi]
      congr 1
      have := recordAt_flatten (A := A) (C := s.headerFill ++ C) hs.len80 i (by omega)
      simp only [Segment.header]
      rw [← this]
      simp [List.append_assoc])
    (by
      intro i hi
      have h1 := hc.get i hi
      constructor
      · intro h
        rw [h, recordCard_end_iff] at h1
        -- an END record can only be the last one
        by_cases hlt : i < rs.length
        · exfalso
          have : s.records[i]'(by omega) = rs[i] := by
            simp only [hre]
            rw [List.getElem_append_left hlt]
          rw [this] at h1
          exact hne _ (List.getElem_mem _) h1
        · have : s.records.length = rs.length + 1 := by rw [hre]; simp
          omega
      · intro h
        have hi' : i = rs.length := by
          have : s.records.length = rs.length + 1 := by rw [hre]; simp
          omega
        have h2 : s.records[i]'(by omega) = e := by
          simp only [hre]
          subst hi'
          simp
        rw [h2] at h1
        have h3 := recordCard_end_iff.2 he
        rw [h3] at h1
        simpa using h1.symm)
  rw [this]
  have : s.records.length - 1 + 1 = cards.length := by omega
  simp [this]

theorem Describes.size {p : Profile} {o : Nat} {s : Segment} {first : Bool} {h : HDU}
    (d : Describes p o s first h) : h.dataSize p = .ok s.data.length := by
  cases d <;> assumption

theorem Describes.offset {p : Profile} {o : Nat} {s : Segment} {first : Bool} {h : HDU}
    (d : Describes p o s first h) : h.dataOffset = o + s.header.length := by
  cases d <;> assumption

theorem Hdu.new_segment {X : Type} {parse : ValueMap → Res X} {A C : List UInt8} {s : Segment}
    {h : Hdu X} (hs : s.HeaderOk) (hc : CardsOf s.records h.header.cards)
    (hp : Header.parse parse h.header.cards = .ok h.header)
    (ho : h.dataOffset = A.length + s.header.length) :
    Hdu.new parse h.header.cards
      { rd := ⟨A ++ s.header ++ C, A.length + 80 * h.header.cards.length⟩
        nread := 80 * h.header.cards.length } =
    (.ok h, { rd := ⟨A ++ s.header ++ C, h.dataOffset⟩, nread := s.header.length }) := by
  have hlen := hc.length
  have hfill := hs.fill
  have hge := roundUp2880_ge (80 * s.records.length)
  rw [Hdu.new_complete hp (by simp only [List.length_append]; rw [hlen]; omega)]
  cases h
  simp only at ho hlen
  simp only [Prod.mk.injEq, Res.ok.injEq, Hdu.mk.injEq, HState.mk.injEq, Reader.mk.injEq, true_and]
  rw [hlen, ho]
  refine ⟨by omega, by omega, by omega⟩

theorem extensionAt_segment {p : Profile} {A C : List UInt8} {s : Segment} {h : HDU} (hs : s.HeaderOk)
    (d : Describes p A.length s false h) :
    Fits.extensionAt p (A ++ s.header ++ C) A.length =
      (.ok h, { rd := ⟨A ++ s.header ++ C, h.dataOffset⟩, nread := s.header.length }) := by
  unfold Fits.extensionAt HDU.newXtension
  cases d with
  | image hc hcs hp ho hsz =>
    rw [consumeCards_segment hs hc]
    simp only
    have := Hdu.new_segment (C := C) hs hc hp ho
    unfold xtensionOf
    rw [this, hcs]
    rfl
  | binTable hc hcs hp ho hsz =>
    rw [consumeCards_segment hs hc]
    simp only
    have := Hdu.new_segment (C := C) hs hc hp ho
    unfold xtensionOf
    rw [this, hcs]
    rfl
  | asciiTable hc hcs hp ho hsz =>
    rw [consumeCards_segment hs hc]
    simp only
    have := Hdu.new_segment (C := C) hs hc hp ho
    unfold xtensionOf
    rw [this, hcs]
    rfl

/-- The primary header, after other bytes. -/
theorem newPrimary_after {p : Profile} {A C : List UInt8} {s : Segment} {h : HDU} (hs : s.HeaderOk)
    (d : Describes p A.length s true h) :
    HDU.newPrimary ⟨A ++ s.header ++ C, A.length⟩ =
      (.ok h, { rd := ⟨A ++ s.header ++ C, h.dataOffset⟩, nread := s.header.length }) := by
  unfold HDU.newPrimary
  cases d with
  | primary hc hcs hp ho hsz =>
    rw [consumeCards_segment hs hc]
    simp only
    have := Hdu.new_segment (C := C) hs hc hp ho
    unfold primaryOf
    rw [this, hcs]
    rfl

theorem newPrimary_segment {p : Profile} {C : List UInt8} {s : Segment} {h : HDU} (hs : s.HeaderOk)
    (d : Describes p 0 s true h) :
    HDU.newPrimary ⟨s.header ++ C, 0⟩ =
      (.ok h, { rd := ⟨s.header ++ C, h.dataOffset⟩, nread := s.header.length }) :=
  newPrimary_after (A := []) hs d

/-- The HDUs after the current one. -/
theorem walk_rest {p : Profile} {segs : List Segment} {hs : List HDU} {first : Bool} {o : Nat}
    (hf : FileOf p first o segs hs) (hfirst : first = false)
    (A : List UInt8) (hA : A.length = o)
    (hsize : (A ++ (segs.map Segment.bytes).flatten).length + 2960 < 2 ^ 63)
    (f : Fits) (hd : f.rd.data = A ++ (segs.map Segment.bytes).flatten)
    (hst : f.start = false) (her : f.errored = false)
    (h1 : f.posStart ≤ f.rd.pos) (h2 : f.rd.pos ≤ f.posStart + f.numBytes)
    (h3 : f.posStart + roundUp2880 f.numBytes = o)
    (ks : List Nat) (hk : hs.length < ks.length) :
    collectReading p ks f = hs.map .ok := by
  induction hf generalizing A f ks with
  | @last first o s h hh hdsc hfill =>
    subst hfirst
    obtain ⟨k1, ks, rfl⟩ : ∃ k ks', ks = k :: ks' := by
      cases ks with
      | nil => simp at hk
      | cons a b => exact ⟨a, b, rfl⟩
    obtain ⟨k2, ks, rfl⟩ : ∃ k ks', ks = k :: ks' := by
      cases ks with
      | nil => simp at hk
      | cons a b => exact ⟨a, b, rfl⟩
    have hoff := hdsc.offset
    have hsz := hdsc.size
    subst hA
    have hdata : f.rd.data = A ++ s.header ++ (s.data ++ s.dataFill) := by
      rw [hd]; simp [Segment.bytes]
    have hext := extensionAt_segment (C := s.data ++ s.dataFill) hh hdsc
    rw [← hdata] at hext
    have hlen : f.rd.data.length = A.length + s.header.length + s.data.length + s.dataFill.length := by
      rw [hdata]; simp only [List.length_append]; omega
    rw [← hd, hlen] at hsize
    -- first call: the last HDU
    have hnext := Fits.next_inside (p := p) hst her h1 h2 (by omega)
    rw [h3, hext] at hnext
    simp only [Fits.extensionItem, Fits.record, hsz] at hnext
    simp only [collectReading, hnext, List.map_cons, List.map_nil, List.cons.injEq, true_and]
    -- second call: end of file
    have hlt := roundUp2880_lt s.data.length
    generalize hg : readData k1 { f with posStart := h.dataOffset, numBytes := s.data.length, rd := ⟨f.rd.data, h.dataOffset⟩ } = g
    have hg1 : g.rd.data = f.rd.data := by rw [← hg]; rfl
    have hg2 : g.posStart = h.dataOffset := by rw [← hg]; rfl
    have hg3 : g.numBytes = s.data.length := by rw [← hg]; rfl
    have hg4 : g.rd.pos = h.dataOffset + min k1 s.data.length := by rw [← hg]; rfl
    rw [Fits.next_eof (p := p) (f := g) (by rw [← hg]; exact hst) (by rw [← hg]; exact her)
      (by rw [hg2, hg4]; omega) (by rw [hg2, hg3, hg4]; omega) (by rw [hg2, hg3]; omega)
      (by rw [hg1, hg2, hg3]; omega)]
  | @cons first o s h ss hs hh hdsc hdok hrest ih =>
    subst hfirst
    obtain ⟨k1, ks, rfl⟩ : ∃ k ks', ks = k :: ks' := by
      cases ks with
      | nil => simp at hk
      | cons a b => exact ⟨a, b, rfl⟩
    have hoff := hdsc.offset
    have hsz := hdsc.size
    subst hA
    have hdata : f.rd.data = A ++ s.header ++ (s.data ++ s.dataFill ++ (ss.map Segment.bytes).flatten) := by
      rw [hd]; simp [Segment.bytes]
    have hext := extensionAt_segment (C := s.data ++ s.dataFill ++ (ss.map Segment.bytes).flatten) hh hdsc
    rw [← hdata] at hext
    have hbl : s.bytes.length = s.header.length + s.data.length + s.dataFill.length := by
      simp only [Segment.bytes, List.length_append]
    have hlen : f.rd.data.length = A.length + s.bytes.length + ((ss.map Segment.bytes).flatten).length := by
      rw [hd]; simp only [List.map_cons, List.flatten_cons, List.length_append]; omega
    unfold Segment.DataOk at hdok
    rw [← hd, hlen] at hsize
    have hnext := Fits.next_inside (p := p) hst her h1 h2 (by omega)
    rw [h3, hext] at hnext
    simp only [Fits.extensionItem, Fits.record, hsz] at hnext
    simp only [collectReading, hnext, List.map_cons, List.cons.injEq, true_and]
    apply ih rfl (A ++ s.bytes)
    · simp
    · simp only [List.length_append]; omega
    · simp only [readData]; rw [hd]; simp
    · exact hst
    · exact her
    · simp only [readData]; omega
    · simp only [readData]; omega
    · simp only [readData]; omega
    · simpa using hk

end Fitsrs

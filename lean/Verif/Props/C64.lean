import Verif.Props.C55
import Verif.Props.C29_C32
/-
C64 iterating over the HDUs of a file ends.
-/

namespace Fitsrs
open Spec Fits

/-- **C64, in full.** A file of `n` bytes has at most `n / 2880` HDUs: one of the first `n / 2880 + 1` calls of the
iterator returns no HDU. -/
def C64_statement : Prop :=
  ∀ (p : Profile) (data : List UInt8),
    ∃ r ∈ calls p (data.length / 2880 + 1) (fromReader ⟨data, 0⟩), ∀ h, r ≠ some (.ok h)

theorem Hdu.new_inside {X : Type} {parse : ValueMap → Res X} {cards : List Card} {s s' : HState} {h : Hdu X}
    (hp : s.rd.pos ≤ s.rd.data.length) (hh : Hdu.new parse cards s = (.ok h, s')) :
    h.dataOffset ≤ s.rd.data.length := by
  unfold Hdu.new at hh
  split at hh
  · split at hh
    · dsimp only at hh
      split at hh
      · rename_i b rd hr
        simp only [Prod.mk.injEq, Res.ok.injEq] at hh
        obtain ⟨rfl, -⟩ := hh
        have h1 : ¬ s.rd.data.length < s.rd.pos + (2880 - s.nread % 2880) := by
          intro h
          rw [Reader.readExact_of_gt (by omega) h] at hr
          simp at hr
        obtain ⟨-, -, rfl⟩ := Reader.readExact_ok_iff.1 hr
        exact Nat.le_of_not_lt h1
      · simp at hh
      · simp at hh
    · simp only [Prod.mk.injEq, Res.ok.injEq] at hh
      obtain ⟨rfl, -⟩ := hh
      exact hp
  · simp at hh
  · simp at hh

theorem newXtension_inside {p : Profile} {s s' : HState} {h : HDU} (hh : HDU.newXtension p s = (.ok h, s')) :
    h.dataOffset ≤ s.rd.data.length := by
  unfold HDU.newXtension at hh
  split at hh
  · rename_i cards s1 hc
    obtain ⟨h1, h2, h3, h4, h5, h6⟩ := consumeCardsN_ok hc
    have hd : s1.rd.data = s.rd.data := by rw [h2]
    have hp : s1.rd.pos ≤ s1.rd.data.length := by rw [h2]; exact h4
    rw [← hd]
    unfold xtensionOf at hh
    split at hh <;> first
      | (obtain ⟨x, hx, rfl⟩ := wrap_ok.1 hh; exact Hdu.new_inside hp hx)
      | simp at hh
  · simp at hh
  · simp at hh

theorem newPrimary_inside {rd : Reader} {s' : HState} {h : HDU} (hh : HDU.newPrimary rd = (.ok h, s')) :
    h.dataOffset ≤ rd.data.length := by
  unfold HDU.newPrimary at hh
  split at hh
  · rename_i cards s1 hc
    obtain ⟨h1, h2, h3, h4, h5, h6⟩ := consumeCardsN_ok hc
    have hd : s1.rd.data = rd.data := by rw [h2]
    have hp : s1.rd.pos ≤ s1.rd.data.length := by rw [h2]; exact h4
    rw [← hd]
    unfold primaryOf at hh
    split at hh
    · split at hh
      · obtain ⟨x, hx, rfl⟩ := wrap_ok.1 hh
        exact Hdu.new_inside hp hx
      · simp at hh
    · simp at hh
    · simp at hh
  · simp at hh
  · simp at hh

/-- The data unit of an HDU that is returned starts in the file, or at its end. -/
theorem next_ok_inside {p : Profile} {f f' : Fits} {h : HDU} (hn : f.next p = (some (.ok h), f')) :
    h.dataOffset ≤ f.rd.data.length := by
  unfold Fits.next at hn
  split at hn
  · cases hn
  split at hn
  · dsimp only at hn
    have h1 := (record_ok hn).1
    simp only [Option.some.injEq] at h1
    exact newPrimary_inside (s' := (HDU.newPrimary f.rd).2) (by rw [← h1])
  split at hn
  · rename_i rd hc
    have hd : rd.data = f.rd.data := by
      have h2 : (f.consumeUntilNextHdu p).2.data = f.rd.data := by
        unfold consumeUntilNextHdu
        split
        · exact seekRelative_data _ _
        · rfl
        · rfl
      rw [hc] at h2
      exact h2
    dsimp only at hn
    have h1 := (record_ok hn).1
    have h3 : (HDU.newXtension p { rd, nread := 0 }).1 = .ok h := by
      split at h1
      · split at h1
        · cases h1
        · simpa using h1
      · simpa using h1
    rw [← hd]
    exact newXtension_inside (s := { rd, nread := 0 }) (s' := (HDU.newXtension p { rd, nread := 0 }).2) (by rw [← h3])
  · have h1 := (record_ok hn).1
    simp at h1
  · have h1 := (record_ok hn).1
    simp at h1

theorem History.data {p : Profile} {data : List UInt8} {hs : List HDU} {f : Fits} (h : History p data hs f) :
    f.rd.data = data := by
  induction h with
  | start => rfl
  | @hdu hs f h f' k hist hn ih =>
    have := Fits.next_data (p := p) (f := f)
    rw [hn] at this
    exact this.trans ih
  | @none hs f f' hist hn ih =>
    have := Fits.next_data (p := p) (f := f)
    rw [hn] at this
    exact this.trans ih
  | @error hs f f' e hist hn ih =>
    have := Fits.next_data (p := p) (f := f)
    rw [hn] at this
    exact this.trans ih

theorem History.inside {p : Profile} {data : List UInt8} {hs : List HDU} {f : Fits} (hist : History p data hs f) :
    ∀ h ∈ hs, h.dataOffset ≤ data.length := by
  induction hist with
  | start => intro h hh; cases hh
  | @hdu hs f h f' k hist hn ih =>
    intro x hx
    rcases List.mem_append.1 hx with hx | hx
    · exact ih x hx
    · obtain rfl := List.mem_singleton.1 hx
      rw [← hist.data]
      exact next_ok_inside hn
  | none hist hn ih => exact ih
  | error hist hn ih => exact ih

/-- **C64, partial.** In any history of calls and of reads of the data, there are at most as many HDUs as blocks of 2880
bytes in the file.  Missing: files with data units announced to end after byte `2^63`. -/
theorem C64_history_partial {p : Profile} {data : List UInt8} {hs : List HDU} {f : Fits}
    (hist : History p data hs f) (hfit : SizesFit p hs) (hl : data.length < 2 ^ 63) :
    hs.length ≤ data.length / 2880 := by
  obtain ⟨T, hp⟩ := (hist.inv hfit hl).placed
  have key : ∀ i h, hs[i]? = some h → 2880 * (i + 1) ≤ h.dataOffset := by
    intro i
    induction i with
    | zero =>
      intro h hi
      have hx := hp.get 0 h hi
      have h0 := hx.header.nonempty
      rw [hx.offset]
      unfold roundUp2880
      omega
    | succ i ih =>
      intro h hi
      have hx := hp.get (i + 1) h hi
      have h0 := hx.header.nonempty
      cases hg : hs[i]? with
      | none =>
        rw [List.getElem?_eq_none_iff] at hg
        have := (List.getElem?_eq_some_iff.1 hi).1
        omega
      | some g =>
        have h1 := ih g hg
        obtain ⟨n, hn, h2⟩ := C55_partial hist hfit hl i g h hg hi
        unfold roundUp2880 at h2
        omega
  by_cases h0 : hs.length = 0
  · omega
  · have hlt : hs.length - 1 < hs.length := by omega
    have h1 := key (hs.length - 1) hs[hs.length - 1] (List.getElem?_eq_getElem hlt)
    have h2 := hist.inside _ (List.getElem_mem hlt)
    omega

/-- A history of two HDUs, on a file of three blocks. -/
example (p : Profile) : ∃ hs f, History p sampleFile hs f ∧ SizesFit p hs ∧ hs.length = 2 ∧
    sampleFile.length / 2880 = 3 := by
  obtain ⟨f, hf⟩ := sample_history p 0 0
  exact ⟨_, f, hf, (sample_fit p).2, rfl, by decide +kernel⟩

/-- The HDUs returned by `n` calls, up to the first call that returns none. -/
def hdusOfCalls (p : Profile) : Nat → Fits → List HDU
  | 0, _ => []
  | n + 1, f =>
    match f.next p with
    | (some (.ok h), f') => h :: hdusOfCalls p n f'
    | _ => []

theorem readData_after_next {p : Profile} {f f' : Fits} {h : HDU} (hn : f.next p = (some (.ok h), f')) :
    readData 0 f' = f' := by
  obtain ⟨-, h2, h3, -⟩ := next_ok_state hn
  have h4 : f'.posStart = f'.rd.pos := h3.trans h2.symm
  cases f' with
  | mk a b c d rd =>
    cases rd
    dsimp only at h4
    subst h4
    unfold readData
    rw [Nat.zero_min]
    rfl

/-- **C64, partial.** One of the first `n / 2880 + 1` calls returns no HDU, if the data units announced end before byte
`2^63`. -/
theorem C64_partial (p : Profile) (data : List UInt8) (hl : data.length < 2 ^ 63)
    (hfit : SizesFit p (hdusOfCalls p (data.length / 2880 + 1) (fromReader ⟨data, 0⟩))) :
    ∃ r ∈ calls p (data.length / 2880 + 1) (fromReader ⟨data, 0⟩), ∀ h, r ≠ some (.ok h) := by
  have key : ∀ n hs f, History p data hs f → (∀ r ∈ calls p n f, ∃ h, r = some (.ok h)) →
      ∃ f', History p data (hs ++ hdusOfCalls p n f) f' ∧ (hdusOfCalls p n f).length = n := by
    intro n
    induction n with
    | zero => intro hs f hist _; exact ⟨f, by simpa [hdusOfCalls] using hist, rfl⟩
    | succ n ih =>
      intro hs f hist hall
      obtain ⟨h, hh⟩ := hall _ (List.mem_cons_self ..)
      have hn : f.next p = (some (.ok h), (f.next p).2) := by rw [← hh]
      have h2 := History.hdu 0 hist hn
      rw [readData_after_next hn] at h2
      obtain ⟨f', h3, h4⟩ := ih _ _ h2 (fun r hr => hall r (List.mem_cons_of_mem _ hr))
      unfold hdusOfCalls
      rw [hn]
      exact ⟨f', by simpa using h3, by simp [h4]⟩
  refine Classical.byContradiction fun hno => ?_
  have hall : ∀ r ∈ calls p (data.length / 2880 + 1) (fromReader ⟨data, 0⟩), ∃ h, r = some (.ok h) := by
    intro r hr
    refine Classical.byContradiction fun hc => hno ⟨r, hr, fun h hh => hc ⟨h, hh⟩⟩
  obtain ⟨f', h1, h2⟩ := key _ _ _ .start hall
  have := C64_history_partial h1 hfit hl
  rw [List.nil_append, h2] at this
  omega

set_option maxRecDepth 20000 in
example (p : Profile) : SizesFit p (hdusOfCalls p (sampleFile.length / 2880 + 1) (fromReader ⟨sampleFile, 0⟩)) ∧
    (hdusOfCalls p (sampleFile.length / 2880 + 1) (fromReader ⟨sampleFile, 0⟩)).length = 2 := by
  unfold SizesFit
  cases p <;> decide +kernel

/-! ### A file without end -/

/-- An image extension that announces `2^64 - 2176` bytes (`2^64 - 2176 - 31680` if `last`). -/
def endlessRecords (last : Bool) : List (List UInt8) :=
  [rec80 "XTENSION= 'IMAGE   '", rec80 "BITPIX  =                   64", rec80 "NAXIS   =                    1",
   rec80 (if last then "NAXIS1  =  2305843009213689720" else "NAXIS1  =  2305843009213693680"), rec80 "END"]

/-- Its records, and blanks up to the next header. -/
def endlessUnit (last : Bool) : List UInt8 := (endlessRecords last).flatten ++ blanks 304

def endlessPrimary : List UInt8 :=
  [rec80 "SIMPLE  =                    T", rec80 "BITPIX  =                    8",
   rec80 "NAXIS   =                    0", rec80 "END"].flatten ++ blanks 2560

/-- A file of 36736 bytes: a primary header and the headers of 45 extensions, 704 bytes apart. -/
def endlessFile : List UInt8 :=
  endlessPrimary ++ (List.replicate 44 (endlessUnit false)).flatten ++ endlessUnit true ++ blanks 2176

def endlessSize (last : Bool) : Nat := if last then 2 ^ 64 - 2176 - 31680 else 2 ^ 64 - 2176

def endlessHeader (last : Bool) : Header Image :=
  { cards := [.xtension .image none, .value "BITPIX".toList (.integer 64 none), .value "NAXIS".toList (.integer 1 none),
      .value "NAXIS1".toList (.integer (endlessSize last / 8) none), .end_]
    values := [("XTENSION".toList, .string "IMAGE".toList none), ("BITPIX".toList, .integer 64 none),
      ("NAXIS".toList, .integer 1 none), ("NAXIS1".toList, .integer (endlessSize last / 8) none)]
    xtension := { bitpix := .i64, naxisn := [endlessSize last / 8] } }

theorem endless_cards (last : Bool) : CardsOf (endlessRecords last) (endlessHeader last).cards := by
  unfold CardsOf
  cases last <;> decide +kernel

theorem endless_parse (last : Bool) :
    Header.parse Image.parse (endlessHeader last).cards = .ok (endlessHeader last) := by
  cases last <;> decide +kernel

theorem endless_numBytes (p : Profile) (last : Bool) :
    (endlessHeader last).xtension.numBytes p = .ok (endlessSize last) := by
  cases p <;> cases last <;> decide +kernel

theorem endless_length (last : Bool) : (endlessUnit last).length = 704 := by
  cases last <;> decide +kernel

theorem endless_split (i : Nat) (hi : i ≤ 44) : ∃ A B, A.length = 2880 + 704 * i ∧ 2176 ≤ B.length ∧
    endlessFile = A ++ endlessUnit (i = 44) ++ B := by
  have hp : endlessPrimary.length = 2880 := by decide +kernel
  have hr : ∀ n, (List.replicate n (endlessUnit false)).flatten.length = 704 * n := by
    intro n
    rw [List.length_flatten, List.map_replicate, endless_length, List.sum_replicate_nat]
    omega
  by_cases h : i = 44
  · subst h
    refine ⟨endlessPrimary ++ (List.replicate 44 (endlessUnit false)).flatten, blanks 2176, ?_, ?_, ?_⟩
    · rw [List.length_append, hp, hr]
    · exact Nat.le_of_eq List.length_replicate.symm
    · rfl
  · refine ⟨endlessPrimary ++ (List.replicate i (endlessUnit false)).flatten,
      (List.replicate (43 - i) (endlessUnit false)).flatten ++ (endlessUnit true ++ blanks 2176), ?_, ?_, ?_⟩
    · rw [List.length_append, hp, hr]
    · rw [List.length_append, List.length_append]
      have : (blanks 2176).length = 2176 := List.length_replicate
      omega
    · have e : (44 : Nat) = i + (1 + (43 - i)) := by omega
      unfold endlessFile
      rw [decide_eq_false h, e, ← List.replicate_append_replicate, ← List.replicate_append_replicate]
      simp only [List.flatten_append, List.replicate_one, List.flatten_cons, List.flatten_nil, List.append_nil,
        List.append_assoc]

/-- Reading the header of the `i`-th extension. -/
theorem endless_extension (p : Profile) (i : Nat) (hi : i ≤ 44) :
    extensionAt p endlessFile (2880 + 704 * i) =
      (.ok (.image { header := endlessHeader (i = 44), dataOffset := 2880 + 704 * i + 2880 }),
        { rd := ⟨endlessFile, 2880 + 704 * i + 2880⟩, nread := 2880 }) := by
  obtain ⟨A, B, hA, hB, e⟩ := endless_split i hi
  generalize hl : decide (i = 44) = last at e ⊢
  have e2 : endlessFile = A ++ ((endlessRecords last).flatten ++ (blanks 304 ++ B.take 2176)) ++ B.drop 2176 := by
    rw [e]
    unfold endlessUnit
    simp only [List.append_assoc, List.take_append_drop]
  have h80 : ∀ r ∈ endlessRecords last, r.length = 80 := by cases last <;> decide +kernel
  let s : Segment := { records := endlessRecords last, headerFill := blanks 304 ++ B.take 2176, data := [], dataFill := [] }
  have hlen : s.header.length = 2880 := by
    show ((endlessRecords last).flatten ++ (blanks 304 ++ B.take 2176)).length = 2880
    rw [List.length_append, flatten_length_80 h80, List.length_append, List.length_take]
    have : (endlessRecords last).length = 5 := rfl
    simp only [blanks, List.length_replicate]
    omega
  have hok : s.HeaderOk := by
    refine ⟨h80, ⟨(endlessRecords last).take 4, rec80 "END", rfl, ?_, ?_⟩, ?_⟩
    · exact recordCard_end_iff.1 (by decide +kernel)
    · intro r hr he
      have h1 := recordCard_end_iff.2 he
      have h2 : ∀ r ∈ (endlessRecords last).take 4, recordCard r ≠ .ok .end_ := by cases last <;> decide +kernel
      exact h2 r hr h1
    · rw [hlen]
      show 2880 = roundUp2880 (80 * 5)
      decide
  have hc : CardsOf s.records (endlessHeader last).cards := endless_cards last
  have hn := Hdu.new_segment (A := A) (C := B.drop 2176) (s := s)
    (h := { header := endlessHeader last, dataOffset := A.length + 2880 }) hok hc (endless_parse last)
    (by rw [hlen])
  have h1 := consumeCards_segment (A := A) (C := B.drop 2176) hok hc
  have e3 : A ++ s.header ++ B.drop 2176 = endlessFile := e2.symm
  rw [e3, hA] at hn h1
  unfold extensionAt HDU.newXtension
  rw [h1]
  show wrap .image (Hdu.new Image.parse (endlessHeader last).cards _) = _
  rw [hn, hlen]
  rfl

/-- After the `i`-th extension has been returned. -/
def endlessState (i : Nat) : Fits :=
  { start := false, posStart := 2880 + 704 * i + 2880, numBytes := endlessSize (i = 44), errored := false
    rd := ⟨endlessFile, 2880 + 704 * i + 2880⟩ }

/-- The extension that is read after the `i`-th one. -/
def endlessNext (i : Nat) : Nat := if i = 44 then 0 else i + 1

theorem endless_skip (p : Profile) (i : Nat) (hi : i ≤ 44) : (endlessState i).consumeUntilNextHdu p =
    (.ok (), { (endlessState i).rd with pos := 2880 + 704 * endlessNext i }) := by
  have hs : (endlessState i).skipBytes p = .ok (endlessSize (i = 44)) := by
    unfold skipBytes
    have h1 : (endlessState i).rd.pos = 2880 + 704 * i + 2880 := rfl
    have h2 : (endlessState i).posStart = 2880 + 704 * i + 2880 := rfl
    have h3 : (endlessState i).numBytes = endlessSize (i = 44) := rfl
    rw [h1, h2, h3, usub_ok (Nat.le_refl _), Nat.sub_self, Res.bind_ok, usub_ok (Nat.zero_le _), Res.bind_ok,
      if_pos (by cases decide (i = 44) <;> decide)]
    rfl
  unfold consumeUntilNextHdu
  rw [hs]
  show Reader.seekRelative (asI64 (endlessSize (i = 44))) _ = _
  unfold Reader.seekRelative endlessNext
  by_cases h : i = 44
  · subst h
    rfl
  · rw [decide_eq_false h, if_neg h]
    have e : asI64 (endlessSize false) = -2176 := by decide
    rw [e]
    have e2 : ((endlessState i).rd.pos : Int) + -2176 = ((2880 + 704 * (i + 1) : Nat) : Int) := by
      show ((2880 + 704 * i + 2880 : Nat) : Int) + -2176 = _
      omega
    dsimp only
    have e3 : ((2880 + 704 * (i + 1) : Nat) : Int) < two64 := by
      have : (two64 : Int) = 18446744073709551616 := by decide
      omega
    rw [e2, if_pos ⟨Int.natCast_nonneg _, e3⟩]
    rfl

theorem record_of {p : Profile} {h : HDU} {n : Nat} {f : Fits} (hz : h.dataSize p = .ok n) :
    record p (some (.ok h)) f = (some (.ok h), { f with numBytes := n, posStart := h.dataOffset }) := by
  unfold record
  dsimp only
  rw [hz]

theorem endless_step (p : Profile) (i : Nat) (hi : i ≤ 44) : ∃ h,
    (endlessState i).next p = (some (.ok h), endlessState (endlessNext i)) := by
  have hj : endlessNext i ≤ 44 := by unfold endlessNext; split <;> omega
  rw [next_of_skip rfl rfl (endless_skip p i hi)]
  have hd : (endlessState i).rd.data = endlessFile := rfl
  rw [hd, endless_extension p _ hj]
  refine ⟨.image { header := endlessHeader (endlessNext i = 44), dataOffset := 2880 + 704 * endlessNext i + 2880 }, ?_⟩
  show record p (some (.ok (HDU.image { header := endlessHeader (endlessNext i = 44), dataOffset := 2880 + 704 * endlessNext i + 2880 }))) _ = _
  have hz : (HDU.image { header := endlessHeader (endlessNext i = 44), dataOffset := 2880 + 704 * endlessNext i + 2880 }).dataSize p =
      .ok (endlessSize (endlessNext i = 44)) := endless_numBytes p _
  rw [record_of hz]
  rfl

/-- The primary HDU, as a segment. -/
def endlessSegment : Segment :=
  { records := [rec80 "SIMPLE  =                    T", rec80 "BITPIX  =                    8",
      rec80 "NAXIS   =                    0", rec80 "END"]
    headerFill := blanks 2560, data := [], dataFill := [] }

def endlessPrimaryHdu : Hdu Image :=
  { header :=
      { cards := [.value "SIMPLE".toList (.logical true none), .value "BITPIX".toList (.integer 8 none),
          .value "NAXIS".toList (.integer 0 none), .end_]
        values := [("SIMPLE".toList, .logical true none), ("BITPIX".toList, .integer 8 none),
          ("NAXIS".toList, .integer 0 none)]
        xtension := { bitpix := .u8, naxisn := [] } }
    dataOffset := 2880 }

theorem endless_first (p : Profile) : (fromReader ⟨endlessFile, 0⟩).next p =
    (some (.ok (.primary endlessPrimaryHdu)), { start := false, posStart := 2880, numBytes := 0, errored := false, rd := ⟨endlessFile, 2880⟩ }) := by
  have hlen : endlessSegment.header.length = 2880 := by decide +kernel
  have hok : endlessSegment.HeaderOk := by
    refine ⟨by decide +kernel, ⟨endlessSegment.records.take 3, rec80 "END", rfl, recordCard_end_iff.1 (by decide +kernel), ?_⟩, ?_⟩
    · intro r hr he
      have h1 := recordCard_end_iff.2 he
      have h2 : ∀ r ∈ endlessSegment.records.take 3, recordCard r ≠ .ok .end_ := by decide +kernel
      exact h2 r hr h1
    · decide +kernel
  have hd : Describes p 0 endlessSegment true (.primary endlessPrimaryHdu) :=
    .primary (by unfold CardsOf; decide +kernel) rfl (by decide +kernel) (by rw [hlen]; rfl) (by cases p <;> decide +kernel)
  have e : endlessFile = endlessSegment.header ++
      ((List.replicate 44 (endlessUnit false)).flatten ++ endlessUnit true ++ blanks 2176) := by
    unfold endlessFile
    simp only [List.append_assoc]
    rfl
  have h1 := newPrimary_segment
    (C := (List.replicate 44 (endlessUnit false)).flatten ++ endlessUnit true ++ blanks 2176) hok hd
  rw [← e] at h1
  unfold Fits.next
  rw [if_neg (by decide), if_pos (show (fromReader ⟨endlessFile, 0⟩).start = true from rfl)]
  have e2 : (fromReader ⟨endlessFile, 0⟩).rd = ⟨endlessFile, 0⟩ := rfl
  rw [e2, h1]
  exact record_of (Describes.size hd)

theorem endless_second (p : Profile) : ∃ h,
    Fits.next p { start := false, posStart := 2880, numBytes := 0, errored := false, rd := ⟨endlessFile, 2880⟩ } =
      (some (.ok h), endlessState 0) := by
  rw [next_inside rfl rfl (Nat.le_refl _) (Nat.le_refl _) (by decide)]
  have e : (2880 : Nat) + roundUp2880 0 = 2880 + 704 * 0 := rfl
  dsimp only
  rw [e, endless_extension p 0 (by decide)]
  refine ⟨.image { header := endlessHeader (decide (0 = 44)), dataOffset := 2880 + 704 * 0 + 2880 }, ?_⟩
  have hz : (HDU.image { header := endlessHeader (decide (0 = 44)), dataOffset := 2880 + 704 * 0 + 2880 }).dataSize p =
      .ok (endlessSize (decide (0 = 44))) := endless_numBytes p _
  exact record_of hz

/-- The iteration never ends: each call returns an HDU. -/
theorem endless_calls (p : Profile) (n : Nat) :
    ∀ r ∈ calls p n (fromReader ⟨endlessFile, 0⟩), ∃ h, r = some (.ok h) := by
  have key : ∀ n i, i ≤ 44 → ∀ r ∈ calls p n (endlessState i), ∃ h, r = some (.ok h) := by
    intro n
    induction n with
    | zero => intro i hi r hr; cases hr
    | succ n ih =>
      intro i hi r hr
      obtain ⟨h, hh⟩ := endless_step p i hi
      unfold calls at hr
      rw [hh] at hr
      rcases List.mem_cons.1 hr with rfl | hr
      · exact ⟨h, rfl⟩
      · exact ih _ (by unfold endlessNext; split <;> omega) r hr
  have h1 := endless_first p
  obtain ⟨h', h2⟩ := endless_second p
  intro r hr
  match n, hr with
  | 0, hr => cases hr
  | 1, hr =>
    unfold calls at hr
    rw [h1] at hr
    rcases List.mem_cons.1 hr with rfl | hr
    · exact ⟨_, rfl⟩
    · cases hr
  | n + 2, hr =>
    unfold calls at hr
    rw [h1] at hr
    rcases List.mem_cons.1 hr with rfl | hr
    · exact ⟨_, rfl⟩
    · unfold calls at hr
      dsimp only at hr
      rw [h2] at hr
      rcases List.mem_cons.1 hr with rfl | hr
      · exact ⟨h', rfl⟩
      · exact key n 0 (by omega) r hr

/-- The length of the file. -/
theorem endless_size : endlessFile.length = 36736 := by
  have hp : endlessPrimary.length = 2880 := by decide +kernel
  have hb : (blanks 2176).length = 2176 := List.length_replicate
  unfold endlessFile
  rw [List.length_append, List.length_append, List.length_append, List.length_flatten, List.map_replicate,
    endless_length, endless_length, List.sum_replicate_nat, hp, hb]

/-- **C64 fails**, in all builds: on a file of 36736 bytes the iterator goes around 45 headers for ever. -/
theorem C64_fails : ¬ C64_statement := by
  intro h
  obtain ⟨r, hr, hn⟩ := h .wrapping endlessFile
  obtain ⟨h, hh⟩ := endless_calls .wrapping _ r hr
  exact hn h hh

end Fitsrs

import Verif.Spec.Writer
import Verif.Lemmas.WrittenTable
import Verif.Props.C07
import Verif.Props.C09_C16
import Verif.Props.C22_C24
import Verif.Props.C29_C32
import Verif.Props.C33_C34
import Verif.Props.C66_C68
import Verif.Lemmas.Walk
/-
Helper lemmas: the headers that are written are read back.
-/

namespace Fitsrs
open Spec

theorem parseValue_of_record {f : Str} {v : Value}
    (h : Card.tryFrom (valueRecord "A".toList f) = .ok (.value "A".toList v)) : parseValue (toBytes f) = .ok v := by
  rw [tryFrom_valueRecord ⟨by decide, by decide, by decide, by decide⟩] at h
  obtain ⟨w, hw, e⟩ := Res.map_eq_ok.1 h
  injection e with _ e
  rw [hw, e]

theorem parseValue_written {w : Written} (hw : w.Legal) (lead pad : Nat) {c : Option Str} (hc : Line.CommentOk c) :
    parseValue (toBytes (field lead w.text pad c)) = .ok (w.value c) := by
  have hk : Name "A".toList := ⟨by decide, by decide, by decide, by decide⟩
  apply parseValue_of_record
  cases w with
  | str s => exact C10_string_round_trip _ s lead pad c hk hw hc
  | int sign zeros n =>
    have := C11_integer_read "A".toList sign zeros n lead pad c hk hc
    rw [if_pos (show _ ∧ _ from hw)] at this
    exact this
  | real x => exact C12_real_read _ x lead pad c hk hw.1 hw.2 hc
  | bool b => exact C13_logical _ b lead pad c hk hc
  | nothing => exact C13_undefined _ lead pad c hk hc

theorem recordCard_of {r : List UInt8} {c : Card} (h : Card.tryFrom r = .ok c) : recordCard r = .ok c := by
  unfold recordCard
  rw [h]

theorem Spec.Line.Legal.read {l : Line} (h : l.Legal) : CardsOf l.records l.cards := by
  unfold CardsOf
  cases l with
  | value kw w lead pad c =>
    obtain ⟨-, hk, hw, hc⟩ := h
    simp only [Line.records, Line.cards, List.map_cons, List.map_nil]
    rw [recordCard_of (by rw [tryFrom_valueRecord hk, parseValue_written hw _ _ hc]; rfl)]
  | long kw first lead pad c rest =>
    obtain ⟨-, hk, hf, hc, hp, h0, he⟩ := h
    have hamp : amp rest = ['&'] := by cases rest with | nil => exact absurd rfl h0 | cons => rfl
    have := continueCards_read hp
    unfold CardsOf at this
    show recordCard _ :: (continueRecords rest).map recordCard = _
    rw [this, recordCard_of (C10_string_round_trip kw _ lead pad c hk (printable_amp hf rest) hc), hamp, fitsString_amp]
    rfl
  | hierarch name sep w lead pad c =>
    obtain ⟨-, ht, hw, hc⟩ := h
    simp only [Line.records, Line.cards, List.map_cons, List.map_nil]
    rw [recordCard_of (by rw [C15_hierarch _ _ _ ht, parseValue_written hw _ _ hc]; rfl)]
  | comment text =>
    simp only [Line.records, Line.cards, List.map_cons, List.map_nil]
    rw [recordCard_of (C14_commentary text).1]
  | history text =>
    simp only [Line.records, Line.cards, List.map_cons, List.map_nil]
    rw [recordCard_of (C14_commentary text).2]
  | blank text =>
    simp only [Line.records, Line.cards, List.map_cons, List.map_nil]
    rw [recordCard_of (C14_blank_keyword text)]

theorem continueCards_end (qs : List Piece) : Card.end_ ∉ continueCards qs := by
  induction qs with
  | nil => simp [continueCards]
  | cons q qs ih => simp [continueCards, ih]

theorem Spec.Line.end_notMem (l : Line) : Card.end_ ∉ l.cards := by
  cases l with
  | long kw first lead pad c rest =>
    simp only [Line.cards, List.mem_cons, reduceCtorEq, false_or]
    exact continueCards_end rest
  | blank text =>
    simp only [Line.cards]
    split <;> simp
  | _ => simp [Line.cards]

theorem xtensionName_read (x : XtensionType) :
    Printable (xtensionName x) ∧ ' ' ∉ xtensionName x ∧ XtensionType.fromStr (xtensionName x) = .ok x := by
  cases x <;> exact ⟨by unfold Printable; decide, by decide, by decide⟩

theorem Spec.FirstLine.Legal.read {l : FirstLine} (h : l.Legal) : recordCard l.record = .ok l.card := by
  cases l with
  | simple lead pad c =>
    exact recordCard_of (C13_logical _ true lead pad c ⟨by decide, by decide, by decide, by decide⟩ h.2)
  | xtension x inner lead pad c =>
    obtain ⟨h1, h2, h3⟩ := xtensionName_read x
    refine recordCard_of (((C07_records lead pad inner c h.2).1 _ h1 h2).trans ?_)
    rw [h3]
    rfl

theorem endRecord_isEnd : IsEndRecord Heading.endRecord :=
  ⟨[], toBytes (blank 5), by decide +kernel, by simp, by
    intro x hx
    have : x ∈ List.replicate 5 (0x20 : UInt8) := hx
    rw [(List.mem_replicate.1 this).2]
    exact .inl rfl⟩

theorem lines_read {ls : List Line} (h : ∀ l ∈ ls, l.Legal) : CardsOf (ls.flatMap Line.records) (ls.flatMap Line.cards) := by
  unfold CardsOf
  induction ls with
  | nil => rfl
  | cons l ls ih =>
    have h1 := (h l (by simp)).read
    unfold CardsOf at h1
    rw [List.flatMap_cons, List.flatMap_cons, List.map_append, List.map_append, h1, ih fun x hx => h x (by simp [hx])]

theorem Spec.Heading.Legal.read {h : Heading} (hl : h.Legal) : CardsOf h.records h.cards := by
  have h1 := lines_read hl.2
  unfold CardsOf at *
  simp only [Heading.records, Heading.cards, List.cons_append, List.map_cons, List.map_append, List.map_nil, h1,
    hl.1.read, recordCard_end_iff.2 endRecord_isEnd]

theorem CardsOf.mem {rs : List (List UInt8)} {cs : List Card} (h : CardsOf rs cs) {r : List UInt8} (hr : r ∈ rs) :
    ∃ c ∈ cs, recordCard r = .ok c := by
  have : recordCard r ∈ cs.map Res.ok := by
    rw [← show rs.map recordCard = _ from h]
    exact List.mem_map_of_mem hr
  obtain ⟨c, hc, e⟩ := List.mem_map.1 this
  exact ⟨c, hc, e.symm⟩

theorem Spec.WrittenHdu.Legal.headerOk {primary : Bool} {u : WrittenHdu} (hl : u.Legal primary) : u.segment.HeaderOk := by
  have h80 : ∀ r ∈ u.heading.records, r.length = 80 := by
    intro r hr
    simp only [Heading.records, List.cons_append, List.mem_cons, List.mem_append, List.mem_flatMap, List.not_mem_nil,
      or_false] at hr
    rcases hr with rfl | ⟨l, hm, hr⟩ | rfl
    · exact hl.heading.1.1
    · exact (hl.heading.2 l hm).1 r hr
    · decide +kernel
  refine ⟨h80, ⟨u.heading.first.record :: u.heading.lines.flatMap Line.records, Heading.endRecord, rfl, endRecord_isEnd,
    ?_⟩, ?_⟩
  · intro r hr he
    have hc := recordCard_end_iff.2 he
    rcases List.mem_cons.1 hr with rfl | hr
    · rw [hl.heading.1.read] at hc
      cases hf : u.heading.first <;> rw [hf] at hc <;> simp [FirstLine.card] at hc
    · obtain ⟨c, hm, hc'⟩ := (lines_read hl.heading.2).mem hr
      rw [hc] at hc'
      injection hc' with hc'
      obtain ⟨l, -, hm⟩ := List.mem_flatMap.1 hm
      rw [← hc'] at hm
      exact l.end_notMem hm
  · show (u.heading.records.flatten ++ u.headerFill).length = _
    rw [List.length_append, flatten_length_80 h80]
    exact hl.headerFill

/-! ### The entries of a written header -/

/-- No `CONTINUE` card follows, apart from cards without values. -/
def Settled : List Card → Prop
  | [] => True
  | .continuation _ _ :: _ => False
  | .value _ _ :: _ => True
  | .hierarch _ _ :: _ => True
  | .xtension _ _ :: _ => True
  | .end_ :: _ => True
  | _ :: cs => Settled cs

theorem extend_settled {cs : List Card} (h : Settled cs) (v : Value) : extend v cs = v := by
  induction cs with
  | nil => rfl
  | cons c cs ih =>
    cases c with
    | continuation => exact h.elim
    | value | hierarch | xtension | end_ => rfl
    | _ => exact ih h

theorem settled_lines (ls : List Line) : Settled (ls.flatMap Line.cards ++ [Card.end_]) := by
  induction ls with
  | nil => exact trivial
  | cons l ls ih =>
    rw [List.flatMap_cons, List.append_assoc]
    cases l with
    | value | long | hierarch => exact trivial
    | comment | history => exact ih
    | blank text =>
      simp only [Line.cards]
      split <;> exact ih

theorem entries_lines {ls : List Line} (h : ∀ l ∈ ls, l.Legal) :
    entries (ls.flatMap Line.cards ++ [Card.end_]) = ls.filterMap Line.entry := by
  induction ls with
  | nil => rfl
  | cons l ls ih =>
    have ih := ih fun x hx => h x (by simp [hx])
    have hs := settled_lines ls
    have hl := h l (by simp)
    rw [List.flatMap_cons, List.append_assoc, List.filterMap_cons]
    generalize ls.flatMap Line.cards ++ [Card.end_] = post at *
    cases l with
    | value kw w lead pad c =>
      simp only [Line.cards, Line.entry, List.cons_append, List.nil_append, entries]
      rw [extend_settled hs, ih]
    | long kw first lead pad c rest =>
      obtain ⟨-, hk, hf, hc, hp, h0, he⟩ := hl
      simp only [Line.cards, Line.entry, List.cons_append, entries]
      rw [extend_pieces hp h0 first hf _ post he, entries_continueCards, ih]
    | hierarch name sep w lead pad c =>
      simp only [Line.cards, Line.entry, List.cons_append, List.nil_append, entries]
      rw [extend_settled hs, ih]
    | comment text =>
      simp only [Line.cards, Line.entry, List.cons_append, List.nil_append, entries]
      exact ih
    | history text =>
      simp only [Line.cards, Line.entry, List.cons_append, List.nil_append, entries]
      exact ih
    | blank text =>
      simp only [Line.cards, Line.entry]
      by_cases ht : commentaryText text = []
      · rw [if_pos ht]
        simp only [List.cons_append, List.nil_append, entries]
        exact ih
      · rw [if_neg ht]
        simp only [List.cons_append, List.nil_append, entries]
        exact ih

theorem entries_heading {h : Heading} (hl : h.Legal) :
    entries h.cards = h.first.entry :: h.lines.filterMap Line.entry := by
  have h1 := entries_lines hl.2
  have h2 := settled_lines h.lines
  unfold Heading.cards
  rw [List.cons_append]
  generalize h.lines.flatMap Line.cards ++ [Card.end_] = post at *
  generalize h.lines.filterMap Line.entry = es at *
  cases h.first with
  | simple lead pad c =>
    show (_, extend _ post) :: entries post = _
    rw [extend_settled h2, h1]
    rfl
  | xtension x inner lead pad c =>
    show (_, _) :: entries post = _
    rw [h1]
    rfl

/-- The keywords of a written header are read. -/
theorem Spec.Heading.Legal.process {h : Heading} (hl : h.Legal) :
    ∃ m, processCards h.cards = .ok m ∧ (∀ k, m.get k = h.lookup k) ∧ m.keywords.Nodup := by
  have hb : Card.end_ ∉ h.first.card :: h.lines.flatMap Line.cards := by
    intro hm
    rcases List.mem_cons.1 hm with hm | hm
    · cases hf : h.first <;> rw [hf] at hm <;> simp [FirstLine.card] at hm
    · obtain ⟨l, -, hm⟩ := List.mem_flatMap.1 hm
      exact l.end_notMem hm
  obtain ⟨m, hm, -⟩ := processCards_spec _ hb
  refine ⟨m, hm, fun k => ?_, by rw [(processCards_observed hm).2]; exact addNames_nodup [] _ (by simp)⟩
  rw [(processCards_observed hm).1 k]
  have := entries_heading hl
  unfold Heading.cards at this
  unfold Heading.lookup
  rw [this]

theorem Spec.Heading.Says.hasInt {h : Heading} {m : ValueMap} (hm : ∀ k, m.get k = h.lookup k) {k : Str} {n : Int}
    (hs : h.Says k n) : HasInt m k n := by
  obtain ⟨c, hc⟩ := hs
  exact ⟨c, by rw [hm, hc]⟩

theorem Spec.Body.TableSays.keywords {h : Heading} {m : ValueMap} (hm : ∀ k, m.get k = h.lookup k) {w r pc f : Nat}
    (hs : Body.TableSays h w r pc f) : TableKeywords m w r pc f :=
  ⟨hs.bitpix.hasInt hm, hs.naxis.hasInt hm, hs.naxis1.hasInt hm, hs.naxis2.hasInt hm, hs.pcount_.hasInt hm,
    hs.gcount.hasInt hm, hs.tfields.hasInt hm⟩

theorem parse_of {X : Type} {parse : ValueMap → Res X} {cards : List Card} {m : ValueMap} {x : X}
    (h1 : processCards cards = .ok m) (h2 : parse m = .ok x) :
    Header.parse parse cards = .ok { cards, values := m, xtension := x } := by
  unfold Header.parse
  rw [h1]
  simp only [Res.bind_ok]
  rw [h2]
  rfl

/-- The header of an image. -/
theorem image_parsed {h : Heading} {m : ValueMap} (hm : ∀ k, m.get k = h.lookup k) {b : Bitpix} {axes : List Nat}
    {ps : List Pixel} (hd : (Body.image b axes ps).Described h) (hs : (arrayBytes ps).length < 2 ^ 63) (p : Profile) :
    Image.parse m = .ok { bitpix := b, naxisn := axes } ∧
      Image.numBytes p { bitpix := b, naxisn := axes } = .ok (arrayBytes ps).length := by
  obtain ⟨h1, h2, h3, h4, h5, h6⟩ := hd
  have hp : Image.parse m = .ok { bitpix := b, naxisn := axes } :=
    (C22_accepted m _).2 ⟨h1.hasInt hm, h2.hasInt hm, fun i hi => (h3 i hi).hasInt hm⟩
  have hb : imageBytes b axes = (arrayBytes ps).length := by
    rw [arrayBytes_length h4, h5, imageBytes_size]
  refine ⟨hp, ?_⟩
  by_cases h0 : 0 ∈ axes
  · rw [← hb]
    exact (C22_size p m _ hp (h6 h0) (by show imageBytes b axes < _; omega)).2
  · rw [← hb]
    exact (C22_size_nonempty p m _ hp h0 (by show imageBytes b axes < _; omega))

/-- The header of an ASCII table. -/
theorem ascii_parsed {h : Heading} {m : ValueMap} (hm : ∀ k, m.get k = h.lookup k) {w r f : Nat}
    {text : List UInt8} (hd : (Body.ascii w r f text).Described h) (hs : text.length < 2 ^ 63) (p : Profile) :
    ∃ x, AsciiTable.parse m = .ok x ∧ x.naxis1 = w ∧ x.naxis2 = r ∧ x.tfields = f ∧ x.numBytes p = .ok text.length := by
  obtain ⟨h1, h2, h3⟩ := hd
  have hp : AsciiTable.parse m = .ok
      { bitpix := .u8, naxis1 := w, naxis2 := r, tfields := f, tbcols := (asciiColumns m f).map Prod.fst
        tforms := (asciiColumns m f).map Prod.snd, pcount := 0, gcount := 1 } :=
    (C23_ascii_accepted m _).2 ⟨h1.keywords hm, by show f * 24 < _; omega, rfl⟩
  refine ⟨_, hp, rfl, rfl, rfl, ?_⟩
  rw [h3]
  exact (C23_ascii_size p m _ hp (by show w * r < _; omega)).2.2

/-- The format of a column is read. -/
theorem Spec.WrittenColumn.Text.read {col : WrittenColumn} {s : Str} (h : col.Text s) : TForm.ofStr s = some col.form := by
  cases col with
  | plain ty rep =>
    obtain ⟨ds, c, rest, rfl, g2, g3, g4, g5⟩ := h
    rw [C25_plain ds c _ rest g2 g4 g3, ← g5]
    rfl
  | array wide ty =>
    obtain ⟨-, ds, c, rest, rfl, g2, g3⟩ := h
    cases wide with
    | false => exact (C25_array ds c ty rest g2 g3).1
    | true => exact (C25_array ds c ty rest g2 g3).2

theorem Spec.Written.value_not_invalid (w : Written) (c : Option Str) (s : Str) : w.value c ≠ .invalid s := by
  cases w <;> simp [Written.value]

theorem Spec.FirstLine.entry_not_invalid (l : FirstLine) (s : Str) : l.entry.2 ≠ .invalid s := by
  cases l with
  | simple lead pad c => intro h; cases h
  | xtension x inner lead pad c => intro h; cases h

theorem Spec.Line.entry_not_invalid (l : Line) (k s : Str) : l.entry ≠ some (k, .invalid s) := by
  intro h
  cases l with
  | value kw w lead pad c =>
    injection h with h
    injection h with _ h
    exact w.value_not_invalid _ _ h
  | long kw first lead pad c rest =>
    injection h with h
    injection h with _ h
    cases h
  | hierarch name sep w lead pad c =>
    injection h with h
    injection h with _ h
    exact w.value_not_invalid _ _ h
  | _ => cases h

theorem Spec.Heading.lookup_not_invalid (h : Heading) (k s : Str) : h.lookup k ≠ some (.invalid s) := by
  intro hl
  unfold Heading.lookup lastValue at hl
  obtain ⟨⟨k', v⟩, he, hv⟩ := Option.map_eq_some_iff.1 hl
  dsimp only at hv
  subst hv
  have hm := (List.mem_filter.1 (List.mem_of_getLast? he)).1
  rcases List.mem_cons.1 hm with h1 | h1
  · exact h.first.entry_not_invalid s (by rw [← h1])
  · obtain ⟨l, -, hl⟩ := List.mem_filterMap.1 h1
    exact l.entry_not_invalid _ _ hl

theorem hasText_lookup {h : Heading} {m : ValueMap} (hm : ∀ k, m.get k = h.lookup k) {k s : Str} :
    HasText m k s ↔ h.SaysText k s := by
  unfold HasText Heading.SaysText
  rw [hm]
  constructor
  · rintro (h1 | h1)
    · exact h1
    · exact absurd h1 (h.lookup_not_invalid k s)
  · exact .inl

/-- The names of the columns are read. -/
theorem names_read {h : Heading} {m : ValueMap} (hm : ∀ k, m.get k = h.lookup k) {names : List (Option Str)} {n : Nat}
    (hl : names.length = n) (hn : ∀ i < n, ∀ s, names[i]? = some (some s) ↔ Named m i s) : names = h.names n := by
  apply List.ext_getElem?
  intro i
  by_cases hi : i < n
  · have hi' : i < names.length := by omega
    have h2 := hn i hi
    rw [List.getElem?_eq_getElem hi'] at h2 ⊢
    unfold Heading.names
    rw [List.getElem?_map, List.getElem?_range hi]
    show some _ = some _
    unfold Named at h2
    simp only [hasText_lookup hm, Heading.SaysText, Option.some.injEq] at h2
    congr 1
    dsimp only
    split
    · rename_i s c hs
      exact (h2 s).2 ⟨c, hs⟩
    · rename_i hs
      cases ho : names[i] with
      | none => rfl
      | some s =>
        obtain ⟨c, hc⟩ := (h2 s).1 ho
        exact absurd hc (hs s c)
  · rw [List.getElem?_eq_none (by omega), List.getElem?_eq_none (by simp [Heading.names]; omega)]

/-- The header of a binary table, compressed image or not. -/
theorem columns_parsed {h : Heading} {m : ValueMap} (hm : ∀ k, m.get k = h.lookup k) {t : WrittenTable}
    (hd : Body.TableDescribed h t) (hr : WholeBytes t.forms) (hz : ZNaxisFits m) (hs : t.data.length < 2 ^ 63)
    (p : Profile) : ∃ x, BinTable.parse p m = .ok x ∧ t.Shown h x ∧ x.numBytes p = .ok t.data.length := by
  obtain ⟨h1, h2, h3, h4, hth, h7⟩ := hd
  have hk := h1.keywords hm
  have hlen : t.forms.length = t.columns.length := by unfold WrittenTable.forms; rw [List.length_map]
  have hmain := main_length h7
  have hdl : t.data.length = t.main.length + t.gap.length + t.heap.length := by
    unfold WrittenTable.data
    rw [List.length_append, List.length_append]
  rw [hdl] at hs
  have hmul := Nat.mul_comm t.rows.length t.width
  have htot := total_whole hr
  have hcol : Spec.Columns m t.forms := by
    intro j hj
    rw [hlen] at hj
    obtain ⟨s, ⟨cm, g1⟩, g2⟩ := h4 j hj
    refine ⟨s, .inl ⟨cm, by rw [hm]; exact g1⟩, ?_⟩
    rw [g2.read]
    simp [WrittenTable.forms]
  have hcols : (binFields m 1 t.columns.length).map Prod.fst = t.forms := by
    have := binFields_columns (m := m) (i := 1) (fs := t.forms) (by
      intro j hj
      rw [Nat.add_comm]
      exact hcol j hj)
    rw [hlen] at this
    exact this
  obtain ⟨axes, ha⟩ := getZAxes_ok hz
  have ht : getTheap p m t.width t.rows.length = .ok (t.main.length + t.gap.length) := by
    unfold getTheap
    rcases hth with ⟨g1, g2⟩ | g1
    · have hno : ∀ v, m.getU64 "THEAP".toList ≠ .ok v := by
        intro v hv
        obtain ⟨cm, h0⟩ := getU64_iff.1 hv
        rw [hm, g1] at h0
        simp at h0
      cases hg : m.getU64 "THEAP".toList with
      | ok v => exact absurd hg (hno v)
      | panic => exact absurd hg getU64_no_panic
      | err e =>
        dsimp only
        rw [umul_ok (by unfold two64; omega), g2, hmain, hmul]
        rfl
    · rw [getU64_iff.2 (g1.hasInt hm)]
  have hbits : rowBits p t.forms 0 = .ok (8 * t.width) := by
    rw [rowBits_fits (by unfold two64; rw [htot]; show 0 + 8 * t.width < _; omega), htot, Nat.zero_add]
    rfl
  have hp : BinTable.parse p m = .ok
      { bitpix := .u8, naxis1 := t.width, naxis2 := t.rows.length, tfields := t.columns.length
        theap := t.main.length + t.gap.length, tforms := t.forms, ttypes := (binFields m 1 t.columns.length).map Prod.snd
        pcount := t.gap.length + t.heap.length, gcount := 1
        zImage := mkZImage m axes ((binFields m 1 t.columns.length).map Prod.snd) } := by
    rw [binParse_of hk]
    unfold binTail
    rw [ha]
    simp only [Res.bind_ok]
    rw [ht]
    simp only [Res.bind_ok]
    rw [hcols, hbits]
    simp only [Res.bind_ok]
    rw [if_neg (by
      rw [Nat.shiftRight_eq_div_pow]
      omega)]
  obtain ⟨-, n1, n2⟩ := C66_columns hp hcol hlen
  refine ⟨_, hp, ⟨rfl, names_read hm n1 n2, rfl, rfl, rfl, rfl, rfl⟩, ?_⟩
  rw [(C23_bintable_size p m _ hp (by
    show t.width * t.rows.length + (t.gap.length + t.heap.length) < _
    omega)).2.2.2, hdl, hmain, hmul, Nat.add_assoc]

/-- The header of a binary table. -/
theorem table_parsed {h : Heading} {m : ValueMap} (hm : ∀ k, m.get k = h.lookup k) {t : WrittenTable}
    (hd : (Body.table t).Described h) (hr : (Body.table t).Whole) (hs : t.data.length < 2 ^ 63) (p : Profile) :
    ∃ x, BinTable.parse p m = .ok x ∧ t.Shown h x ∧ x.zImage = none ∧ x.numBytes p = .ok t.data.length := by
  obtain ⟨h1, h5, h6⟩ := hd
  obtain ⟨x, g1, g2, g3⟩ := columns_parsed hm h1 hr (by
    rintro z ⟨c, hc⟩
    rw [hm, h6] at hc
    simp at hc) hs p
  refine ⟨x, g1, g2, ?_, g3⟩
  obtain ⟨axes, -, hz⟩ := parse_zImage g1
  rw [hz]
  unfold mkZImage getZCmpType
  rw [hm, h5]

/-- The algorithm is read. -/
theorem Spec.WrittenTiles.Algorithm.supported {h : Heading} {m : ValueMap} (hm : ∀ k, m.get k = h.lookup k)
    (hn : m.keywords.Nodup) {z : ZCmpType} (ha : WrittenTiles.Algorithm h z) : Supported m z := by
  cases z with
  | gzip1 =>
    obtain ⟨c, hc⟩ := ha
    exact ⟨_, c, by rw [hm, hc], .inl ⟨by decide +kernel, rfl⟩⟩
  | gzip2 =>
    obtain ⟨c, hc⟩ := ha
    exact ⟨_, c, by rw [hm, hc], .inr (.inl ⟨by decide +kernel, rfl⟩)⟩
  | rice n =>
    obtain ⟨h1, h2⟩ := ha
    have hb : riceBlocksize m = n := C27_blocksize m hn n (by
      rcases h2 with ⟨i, g1, g2, ⟨c, g3⟩, g4⟩ | ⟨rfl, g1⟩
      · exact .inl ⟨i, g1.hasInt hm, g2, ⟨c, by rw [hm, g3]⟩, fun t c ht => g4 t ⟨c, by rw [← hm, ht]⟩⟩
      · exact .inr ⟨rfl, fun t c ht => g1 t ⟨c, by rw [← hm, ht]⟩⟩)
    rcases h1 with ⟨c, hc⟩ | ⟨c, hc⟩
    · exact ⟨_, c, by rw [hm, hc], .inr (.inr ⟨.inl (by decide +kernel), by rw [hb]⟩)⟩
    · exact ⟨_, c, by rw [hm, hc], .inr (.inr ⟨.inr (by decide +kernel), by rw [hb]⟩)⟩
  | _ => exact ha.elim

/-- The header of a compressed image. -/
theorem tiles_parsed {h : Heading} {m : ValueMap} (hm : ∀ k, m.get k = h.lookup k) (hn : m.keywords.Nodup)
    {w : WrittenTiles} (hd : (Body.tiles w).Described h) (hr : (Body.tiles w).Whole) (hs : w.table.data.length < 2 ^ 63)
    (p : Profile) : ∃ x, BinTable.parse p m = .ok x ∧ w.table.Shown h x ∧
      (∃ z, x.zImage = some z ∧ z.zCmpType = w.cmp ∧ z.zBitpix = w.bitpix ∧ z.zNaxisn = w.axes ∧
        z.zTilen = w.tileAxes ∧ z.dataCompressedIdx = w.column ∧ z.zQuantiz = none) ∧
      x.numBytes p = .ok w.table.data.length := by
  obtain ⟨h1, h2⟩ := hd
  have hax := h2.znaxis
  obtain ⟨x, g1, g2, g3⟩ := columns_parsed hm h1 hr (by
    rintro z ⟨c, hc⟩
    obtain ⟨c', h3⟩ := hax.1
    rw [hm, h3] at hc
    injection hc with hc
    injection hc with hc
    have := hax.2
    omega) hs p
  refine ⟨x, g1, g2, ?_, g3⟩
  obtain ⟨z, k1, k2, k3, k4, k5, k6⟩ := (C27_recognised p m x g1).2.1
    { zCmpType := w.cmp, zBitpix := w.bitpix, zNaxisn := w.axes, zTilen := w.tileAxes, zQuantiz := none, zDither0 := none
      dataCompressedIdx := w.column } {
      algorithm := h2.algorithm.supported hm hn
      bitpix := h2.bitpix.hasInt hm
      bitpix64 := h2.bitpix64
      axes := ⟨hax.1.hasInt hm, h2.ztiles, fun i hi => (h2.znaxisn i hi).hasInt hm, fun i hi hi' => by
        rcases h2.ztilen i hi hi' with h | ⟨h, h'⟩
        · exact .inl (h.hasInt hm)
        · refine .inr ⟨?_, h'⟩
          rintro ⟨t, c, hc⟩
          rw [hm, h] at hc
          cases hc⟩
      column := by rw [g2.2.1]; exact h2.column }
  exact ⟨z, k1, k2, k3, k4, k5, k6, C28_never p m x z g1 k1⟩

/-- A written HDU is described by the HDU that is read. -/
theorem Spec.WrittenHdu.Legal.describes {p : Profile} {primary : Bool} {u : WrittenHdu} (hl : u.Legal primary)
    (hr : u.body.Whole) (hs : u.body.data.length < 2 ^ 63) (o : Nat) :
    ∃ h, Describes p o u.segment primary h ∧ ShownAs primary o u h := by
  obtain ⟨m, h1, h2, hn⟩ := hl.heading.process
  have hc := hl.heading.read
  have hk := hl.kind
  have hd := hl.described
  obtain ⟨⟨first, lines⟩, hfill, body, dfill⟩ := u
  dsimp only [WrittenHdu.segment] at *
  cases body with
  | image b axes ps =>
    obtain ⟨g1, g2⟩ := image_parsed h2 hd hs p
    have hp := parse_of h1 g1
    cases first with
    | simple lead pad c =>
      cases primary with
      | false => exact hk.elim
      | true =>
        refine ⟨.primary { header := { cards := _, values := m, xtension := _ }, dataOffset := _ },
          .primary (h := { header := { cards := _, values := m, xtension := _ }, dataOffset := _ }) hc rfl hp rfl g2,
          ⟨⟨fun _ => rfl, fun _ => ⟨_, rfl⟩⟩, rfl, h2, rfl, rfl⟩⟩
    | xtension x inner lead pad c =>
      cases x with
      | image =>
        cases primary with
        | true => exact hk.elim
        | false =>
          refine ⟨.image { header := { cards := _, values := m, xtension := _ }, dataOffset := _ },
            .image (h := { header := { cards := _, values := m, xtension := _ }, dataOffset := _ }) hc rfl hp rfl g2,
            ⟨⟨fun ⟨_, h⟩ => by simp at h, fun h => by simp at h⟩, rfl, h2, rfl, rfl⟩⟩
      | _ => cases primary <;> exact hk.elim
  | ascii w r f text =>
    obtain ⟨x, g1, g3, g4, g5, g2⟩ := ascii_parsed h2 hd hs p
    have hp := parse_of h1 g1
    cases first with
    | simple lead pad c => cases primary <;> exact hk.elim
    | xtension y inner lead pad c =>
      cases y with
      | asciiTable =>
        cases primary with
        | true => exact hk.elim
        | false =>
          refine ⟨.asciiTable { header := { cards := _, values := m, xtension := _ }, dataOffset := _ },
            .asciiTable (h := { header := { cards := _, values := m, xtension := _ }, dataOffset := _ }) hc rfl hp rfl g2,
            ⟨⟨fun ⟨_, h⟩ => by simp at h, fun h => by simp at h⟩, rfl, h2, ⟨g3, g4, g5⟩, rfl⟩⟩
      | _ => cases primary <;> exact hk.elim
  | table t =>
    obtain ⟨x, g1, g3, g4, g2⟩ := table_parsed h2 hd hr hs p
    have hp := parse_of h1 g1
    cases first with
    | simple lead pad c => cases primary <;> exact hk.elim
    | xtension y inner lead pad c =>
      cases y with
      | binTable =>
        cases primary with
        | true => exact hk.elim
        | false =>
          refine ⟨.binTable { header := { cards := _, values := m, xtension := _ }, dataOffset := _ },
            .binTable (h := { header := { cards := _, values := m, xtension := _ }, dataOffset := _ }) hc rfl hp rfl g2,
            ⟨⟨fun ⟨_, h⟩ => by simp at h, fun h => by simp at h⟩, rfl, h2, ⟨g3, g4⟩, rfl⟩⟩
      | _ => cases primary <;> exact hk.elim
  | tiles w =>
    obtain ⟨x, g1, g3, g4, g2⟩ := tiles_parsed h2 hn hd hr hs p
    have hp := parse_of h1 g1
    cases first with
    | simple lead pad c => cases primary <;> exact hk.elim
    | xtension y inner lead pad c =>
      cases y with
      | binTable =>
        cases primary with
        | true => exact hk.elim
        | false =>
          refine ⟨.binTable { header := { cards := _, values := m, xtension := _ }, dataOffset := _ },
            .binTable (h := { header := { cards := _, values := m, xtension := _ }, dataOffset := _ }) hc rfl hp rfl g2,
            ⟨⟨fun ⟨_, h⟩ => by simp at h, fun h => by simp at h⟩, rfl, h2, ⟨g3, g4⟩, rfl⟩⟩
      | _ => cases primary <;> exact hk.elim

/-- A written file consists of the HDUs that are read. -/
theorem Spec.File.fileOf {p : Profile} {primary : Bool} {us : List WrittenHdu} (hf : File primary us)
    (hw : ∀ u ∈ us, u.body.Whole) (hs : (fileBytes us).length < 2 ^ 63) (o : Nat) :
    ∃ hs, FileOf p primary o (us.map WrittenHdu.segment) hs ∧ ShownAll primary o us hs := by
  have hsize : ∀ (u : WrittenHdu) (vs : List WrittenHdu), (fileBytes (u :: vs)).length =
      u.segment.header.length + u.body.data.length + u.dataFill.length + (fileBytes vs).length := by
    intro u vs
    unfold fileBytes
    rw [List.map_cons, List.flatten_cons, List.length_append]
    unfold Segment.bytes
    rw [List.length_append, List.length_append]
    rfl
  induction hf generalizing o with
  | @last primary u hl hfill =>
    obtain ⟨h, h1, h2⟩ := hl.describes (p := p) (hw u (by simp)) (by have := hsize u []; omega) o
    exact ⟨[h], .last hl.headerOk h1 hfill, .cons h2 .nil⟩
  | @cons primary u us hl hfill hrest ih =>
    have hl2 := hsize u us
    obtain ⟨h, h1, h2⟩ := hl.describes (p := p) (hw u (by simp)) (by omega) o
    obtain ⟨hs, h3, h4⟩ := ih (fun v hv => hw v (by simp [hv])) (by omega) (o + u.segment.bytes.length)
    exact ⟨h :: hs, .cons hl.headerOk h1 hfill h3, .cons h2 h4⟩

end Fitsrs

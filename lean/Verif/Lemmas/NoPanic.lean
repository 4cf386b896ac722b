import Verif.Lemmas.Session
import Verif.Props.C22_C24
import Verif.Props.C17_C21
import Verif.Props.C09_C16
/-
Helper lemmas: what cannot panic in builds without overflow checks.
-/

namespace Fitsrs
open Spec

theorem usub_wraps (a b : Nat) : usub .wrapping a b ≠ .panic := by
  unfold usub
  by_cases h : b ≤ a
  · rw [if_pos h]; exact fun h => (by cases h)
  · rw [if_neg h]; exact fun h => (by cases h)

theorem uadd_wraps (a b : Nat) : uadd .wrapping a b ≠ .panic := by
  unfold uadd
  by_cases h : a + b < two64
  · rw [if_pos h]; exact fun h => (by cases h)
  · rw [if_neg h]; exact fun h => (by cases h)

theorem umul_wraps (a b : Nat) : umul .wrapping a b ≠ .panic := by
  unfold umul
  by_cases h : a * b < two64
  · rw [if_pos h]; exact fun h => (by cases h)
  · rw [if_neg h]; exact fun h => (by cases h)

theorem i64op_wraps (x : Int) : i64op .wrapping x ≠ .panic := by
  unfold i64op
  by_cases h : -(2 ^ 63) ≤ x ∧ x < 2 ^ 63
  · rw [if_pos h]; exact fun h => (by cases h)
  · rw [if_neg h]; exact fun h => (by cases h)

theorem Res.bind_no_panic {α β : Type} {r : Res α} {f : α → Res β} (h1 : r ≠ .panic)
    (h2 : ∀ a, r = .ok a → f a ≠ .panic) : (r >>= f) ≠ .panic := by
  intro h
  rcases Res.bind_eq_panic.1 h with h | ⟨a, ha, h⟩
  · exact h1 h
  · exact h2 a ha h

theorem Reader.readExact_no_panic (n : Nat) (r : Reader) : (r.readExact n).1 ≠ .panic := by
  unfold Reader.readExact
  dsimp only
  by_cases h : ((r.data.drop r.pos).take n).length = n
  · rw [if_pos h]; exact fun h => (by cases h)
  · rw [if_neg h]; exact fun h => (by cases h)

theorem Reader.seekRelative_no_panic (off : Int) (r : Reader) : (r.seekRelative off).1 ≠ .panic := by
  unfold Reader.seekRelative
  dsimp only
  by_cases h : 0 ≤ (r.pos : Int) + off ∧ (r.pos : Int) + off < two64
  · rw [if_pos h]; exact fun h => (by cases h)
  · rw [if_neg h]; exact fun h => (by cases h)

/-! ### Sizes -/

theorem uprod_wraps (l : List Nat) (a : Nat) : uprod .wrapping l a ≠ .panic := by
  induction l generalizing a with
  | nil => unfold uprod; exact fun h => (by cases h)
  | cons n ns ih =>
    unfold uprod
    exact Res.bind_no_panic (umul_wraps _ _) fun b _ => ih b

theorem Image.numBytes_wraps (x : Image) : x.numBytes .wrapping ≠ .panic := by
  unfold Image.numBytes
  refine Res.bind_no_panic ?_ fun b _ => umul_wraps _ _
  unfold Image.numPixels
  by_cases h : x.naxisn = []
  · rw [if_pos h]; exact fun h => (by cases h)
  · rw [if_neg h]; exact uprod_wraps _ _

theorem BinTable.numBytes_wraps (x : BinTable) : x.numBytes .wrapping ≠ .panic := by
  unfold BinTable.numBytes
  exact Res.bind_no_panic (umul_wraps _ _) fun b _ => uadd_wraps _ _

theorem HDU.dataSize_wraps (h : HDU) : h.dataSize .wrapping ≠ .panic := by
  cases h with
  | primary h => exact Image.numBytes_wraps _
  | image h => exact Image.numBytes_wraps _
  | binTable h => exact BinTable.numBytes_wraps _
  | asciiTable h => exact umul_wraps _ _

/-! ### The HDU iterator -/

theorem Fits.skipBytes_wraps (f : Fits) : f.skipBytes .wrapping ≠ .panic := by
  unfold Fits.skipBytes
  refine Res.bind_no_panic (usub_wraps _ _) fun d _ => Res.bind_no_panic (usub_wraps _ _) fun n _ => ?_
  by_cases h : f.numBytes % 2880 = 0
  · rw [if_pos h]; exact fun h => (by cases h)
  · rw [if_neg h]; exact uadd_wraps _ _

theorem Fits.consume_wraps (f : Fits) : (f.consumeUntilNextHdu .wrapping).1 ≠ .panic := by
  unfold Fits.consumeUntilNextHdu
  cases h : f.skipBytes .wrapping with
  | ok n => exact Reader.seekRelative_no_panic _ _
  | err e => exact fun h => (by cases h)
  | panic => exact absurd h f.skipBytes_wraps

theorem record_wraps {n : Option (Res HDU)} {f : Fits} (h : (Fits.record .wrapping n f).1 = some .panic) :
    n = some .panic := by
  unfold Fits.record at h
  cases n with
  | none => cases h
  | some r =>
    cases r with
    | panic => rfl
    | err e => cases h
    | ok x =>
      dsimp only at h
      cases hs : x.dataSize .wrapping with
      | ok n => rw [hs] at h; cases h
      | err e => rw [hs] at h; cases h
      | panic => exact absurd hs x.dataSize_wraps

/-- The records of a header are parsed, and the header itself: when does it panic? -/
theorem Hdu.new_panic {X : Type} {parse : ValueMap → Res X} {cards : List Card} {s : HState}
    (h : (Hdu.new parse cards s).1 = .panic) : Header.parse parse cards = .panic := by
  unfold Hdu.new at h
  cases hp : Header.parse parse cards with
  | panic => rfl
  | err e => rw [hp] at h; cases h
  | ok x =>
    rw [hp] at h
    dsimp only at h
    by_cases hn : s.nread % 2880 ≠ 0
    · rw [if_pos hn] at h
      have hr := Reader.readExact_no_panic (2880 - s.nread % 2880) s.rd
      rcases hq : s.rd.readExact (2880 - s.nread % 2880) with ⟨r, rd⟩
      rw [hq] at h hr
      cases r with
      | ok _ => cases h
      | err _ => cases h
      | panic => exact absurd rfl hr
    · rw [if_neg hn] at h; cases h

theorem Header.parse_panic {X : Type} {parse : ValueMap → Res X} {cards : List Card} {data : List UInt8} {o : Nat}
    (ha : HeaderAt data o cards) (h : Header.parse parse cards = .panic) :
    ∃ m, processCards cards = .ok m ∧ parse m = .panic := by
  obtain ⟨m, hm⟩ := C19_total data o cards ha
  unfold Header.parse at h
  rw [hm] at h
  rw [Res.bind_ok] at h
  rcases Res.bind_eq_panic.1 h with h | ⟨y, -, h⟩
  · exact ⟨m, hm, h⟩
  · cases h

theorem recordCard_panic {r : List UInt8} (h : recordCard r = .panic) : Card.tryFrom r = .panic := by
  unfold recordCard at h
  cases hc : Card.tryFrom r with
  | ok c => rw [hc] at h; cases h
  | err e => rw [hc] at h; cases h
  | panic => rfl

namespace Spec

/-- The header that begins at `o` has, before its `END` record, a record whose value is a lone quote, and
whose keyword is UTF-8. -/
def QuoteIn (data : List UInt8) (o : Nat) : Prop :=
  ∃ k, o + 80 * (k + 1) ≤ data.length ∧ (∀ i < k, ¬ IsEndRecord (recordAt data o i)) ∧
    utf8Strict (trimAscii ((recordAt data o k).take 8)) ≠ none ∧ ∃ f, ValueField (recordAt data o k) f ∧ LoneQuote f

/-- The header that begins at `o` announces more columns, or more axes of a compressed image, than can be
allocated. -/
def HugeIn (data : List UInt8) (o : Nat) : Prop :=
  ∃ cards m, HeaderAt data o cards ∧ processCards cards = .ok m ∧
    ((∃ n : Nat, HasInt m "TFIELDS".toList n ∧ 2 ^ 63 ≤ n * 24) ∨ ∃ n : Nat, HasInt m "ZNAXIS".toList n ∧ 2 ^ 63 ≤ n * 8)

end Spec

theorem consumeCards_quote {s s' : HState} (h : consumeCards s = (.panic, s')) : QuoteIn s.rd.data s.rd.pos := by
  obtain ⟨k, h1, h2, h3⟩ := consumeCards_panic h
  exact ⟨k, h1, h3, (C09_panic_iff _).1 (recordCard_panic h2)⟩

theorem wrap_fst_panic {X : Type} {f : Hdu X → HDU} {r : Res (Hdu X) × HState} (h : (wrap f r).1 = .panic) :
    r.1 = .panic := Res.map_eq_panic.1 h

theorem xtensionOf_huge {cards : List Card} {s : HState} {data : List UInt8} {o : Nat} (ha : HeaderAt data o cards)
    (h : (xtensionOf .wrapping cards s).1 = .panic) : HugeIn data o := by
  unfold xtensionOf at h
  have h0 := ha.nonempty
  split at h
  · obtain ⟨m, -, hm⟩ := Header.parse_panic ha (Hdu.new_panic (wrap_fst_panic h))
    exact absurd hm (C26_image m)
  · obtain ⟨m, hc, hm⟩ := Header.parse_panic ha (Hdu.new_panic (wrap_fst_panic h))
    obtain ⟨w, r, pc, tf, -, h | ⟨h, -⟩⟩ := (C26_bintable .wrapping m).1 hm
    · unfold ZNaxisFits at h
      refine ⟨_, m, ha, hc, .inr ?_⟩
      by_cases hz : ∃ n : Nat, HasInt m "ZNAXIS".toList n ∧ 2 ^ 63 ≤ n * 8
      · exact hz
      · refine absurd (fun z hi => ?_) h
        by_cases hl : z * 8 < 2 ^ 63
        · exact hl
        · exact absurd ⟨z, hi, Nat.le_of_not_lt hl⟩ hz
    · cases h
  · obtain ⟨m, hc, hm⟩ := Header.parse_panic ha (Hdu.new_panic (wrap_fst_panic h))
    obtain ⟨w, r, tf, hk, h⟩ := (C26_ascii m).1 hm
    exact ⟨_, m, ha, hc, .inl ⟨tf, hk.tfields, h⟩⟩
  · cases h
  · simp at h0

theorem newXtension_cause {s : HState} (h : (HDU.newXtension .wrapping s).1 = .panic) :
    QuoteIn s.rd.data s.rd.pos ∨ HugeIn s.rd.data s.rd.pos := by
  unfold HDU.newXtension at h
  rcases hc : consumeCards s with ⟨r, s1⟩
  rw [hc] at h
  cases r with
  | panic => exact .inl (consumeCards_quote hc)
  | err e => cases h
  | ok cards =>
    obtain ⟨h1, h2, h3, h4, h5, h6⟩ := consumeCardsN_ok hc
    exact .inr (xtensionOf_huge ⟨h1, h4, h5, h6⟩ h)

theorem newPrimary_cause {rd : Reader} (h : (HDU.newPrimary rd).1 = .panic) : QuoteIn rd.data rd.pos := by
  unfold HDU.newPrimary at h
  rcases hc : consumeCards { rd, nread := 0 } with ⟨r, s1⟩
  rw [hc] at h
  cases r with
  | panic => exact consumeCards_quote hc
  | err e => cases h
  | ok cards =>
    obtain ⟨h1, h2, h3, h4, h5, h6⟩ := consumeCardsN_ok hc
    have ha : HeaderAt rd.data rd.pos cards := ⟨h1, h4, h5, h6⟩
    dsimp only at h
    unfold primaryOf at h
    split at h
    · split at h
      · obtain ⟨m, -, hm⟩ := Header.parse_panic ha (Hdu.new_panic (wrap_fst_panic h))
        exact absurd hm (C26_image m)
      · cases h
    · cases h
    · simp at h1

/-- Where the next header is looked for. -/
def Spec.headerPos (f : Fits) : Nat :=
  if f.start then f.rd.pos else (f.consumeUntilNextHdu .wrapping).2.pos

theorem Fits.consume_data (p : Profile) (f : Fits) : (f.consumeUntilNextHdu p).2.data = f.rd.data := by
  unfold Fits.consumeUntilNextHdu
  cases f.skipBytes p with
  | ok n => exact seekRelative_data _ _
  | err e => rfl
  | panic => rfl

theorem Fits.next_cause {f : Fits} (h : (f.next .wrapping).1 = some .panic) :
    QuoteIn f.rd.data (headerPos f) ∨ HugeIn f.rd.data (headerPos f) := by
  unfold Fits.next at h
  by_cases he : f.errored = true
  · rw [if_pos he] at h; cases h
  rw [if_neg he] at h
  unfold headerPos
  by_cases hs : f.start = true
  · rw [if_pos hs] at h ⊢
    dsimp only at h
    exact .inl (newPrimary_cause (Option.some.inj (record_wraps h)))
  · rw [if_neg hs] at h ⊢
    have hw := f.consume_wraps
    have hd := Fits.consume_data .wrapping f
    rcases hc : f.consumeUntilNextHdu .wrapping with ⟨r, rd⟩
    rw [hc] at h hw hd
    dsimp only at hd
    cases r with
    | panic => exact absurd rfl hw
    | err e => exact absurd (record_wraps h) (by simp)
    | ok u =>
      dsimp only at h
      have h := record_wraps h
      have key : (HDU.newXtension .wrapping { rd, nread := 0 }).1 = .panic := by
        generalize HDU.newXtension .wrapping { rd, nread := 0 } = q at h ⊢
        rcases q with ⟨r, s⟩
        dsimp only at h ⊢
        split at h
        · split at h
          · cases h
          · cases h
        · exact Option.some.inj h
      have := newXtension_cause key
      dsimp only at this
      rw [hd] at this
      exact this

/-! ### Tables -/

/-- The columns of a table in use are columns of the table. -/
structure Steady (t : TableData) : Prop where
  offsets : t.offsets.length = t.ctx.tforms.length
  names : t.ctx.ttypes.length = t.ctx.tforms.length
  cols : ∀ c ∈ t.cols, c < t.ctx.tforms.length
  col : t.col < t.cols.length
  width : 0 < t.ctx.naxis1

theorem Steady.congr {t u : TableData} (h : Steady t) (h1 : u.offsets = t.offsets) (h2 : u.ctx = t.ctx)
    (h3 : u.cols = t.cols) (h4 : u.col = t.col) : Steady u :=
  ⟨by rw [h1, h2]; exact h.offsets, by rw [h2]; exact h.names, by rw [h2, h3]; exact h.cols,
    by rw [h3, h4]; exact h.col, by rw [h2]; exact h.width⟩

namespace TableData

theorem columnOffsets_wraps (l : List TForm) (a : Nat) : columnOffsets .wrapping l a ≠ .panic := by
  induction l generalizing a with
  | nil => unfold columnOffsets; exact fun h => (by cases h)
  | cons t ts ih =>
    unfold columnOffsets
    refine Res.bind_no_panic ?_ fun n _ => Res.bind_no_panic (uadd_wraps _ _) fun b _ =>
      Res.bind_no_panic (ih b) fun r _ => fun h => (by cases h)
    unfold TForm.numBytes TForm.numBits
    cases t with
    | plain ty rep => exact fun h => umul_wraps _ _ (Res.map_eq_panic.1 h)
    | P ty => exact fun h => (by cases h)
    | Q ty => exact fun h => (by cases h)

theorem columnOffsets_length {p : Profile} {l : List TForm} {a : Nat} {os : List Nat}
    (h : columnOffsets p l a = .ok os) : os.length = l.length := by
  induction l generalizing a os with
  | nil => unfold columnOffsets at h; cases h; rfl
  | cons t ts ih =>
    unfold columnOffsets at h
    obtain ⟨n, -, h⟩ := Res.bind_eq_ok.1 h
    obtain ⟨b, -, h⟩ := Res.bind_eq_ok.1 h
    obtain ⟨r, hr, h⟩ := Res.bind_eq_ok.1 h
    cases h
    rw [List.length_cons, List.length_cons, ih hr]

theorem new_wraps (rd : Reader) (x : BinTable) (s : Nat) : TableData.new .wrapping rd x s ≠ .panic := by
  unfold TableData.new
  exact Res.bind_no_panic (columnOffsets_wraps _ _) fun o _ => Res.bind_no_panic (umul_wraps _ _) fun m _ =>
    fun h => (by cases h)

theorem new_steady {p : Profile} {rd : Reader} {x : BinTable} {s : Nat} {t : TableData}
    (h : TableData.new p rd x s = .ok t) (h1 : x.ttypes.length = x.tforms.length) (h2 : x.tforms ≠ [])
    (h3 : 0 < x.naxis1) : Steady t := by
  unfold TableData.new at h
  obtain ⟨o, ho, h⟩ := Res.bind_eq_ok.1 h
  obtain ⟨m, -, h⟩ := Res.bind_eq_ok.1 h
  cases h
  refine ⟨columnOffsets_length ho, h1, fun c hc => List.mem_range.1 hc, ?_, h3⟩
  show 0 < (List.range x.tforms.length).length
  rw [List.length_range]
  exact List.length_pos_iff.2 h2

theorem advance_steady {off : Int} {t : TableData} (h : Steady t) :
    Steady (t.advance .wrapping off).2 ∧ (t.advance .wrapping off).1 ≠ .panic := by
  unfold advance
  have hs := Reader.seekRelative_no_panic off t.rd
  generalize t.rd.seekRelative off = w at hs ⊢
  rcases w with ⟨r, rd⟩
  cases r with
  | panic => exact absurd rfl hs
  | err e => exact ⟨h.congr rfl rfl rfl rfl, fun h => (by cases h)⟩
  | ok u =>
    dsimp only
    cases ha : uadd .wrapping t.byteOffset (asU64 off) with
    | ok b => exact ⟨h.congr rfl rfl rfl rfl, fun h => (by cases h)⟩
    | err e => exact ⟨h.congr rfl rfl rfl rfl, fun h => (by cases h)⟩
    | panic => exact absurd ha (uadd_wraps _ _)

theorem nextOffset_wraps {t : TableData} {col : Nat} (h : Steady t) (hc : col < t.cols.length) :
    t.nextOffset .wrapping col ≠ .panic := by
  unfold nextOffset
  rw [List.getElem?_eq_getElem hc]
  dsimp only
  have h1 := h.cols _ (List.getElem_mem hc)
  rw [← h.offsets] at h1
  rw [List.getElem?_eq_getElem h1]
  dsimp only
  have := h.width
  rw [if_neg (by omega)]
  refine Res.bind_no_panic (i64op_wraps _) fun rel _ => ?_
  by_cases hr : rel < 0
  · rw [if_pos hr]; exact i64op_wraps _
  · rw [if_neg hr]; exact fun h => (by cases h)

theorem seekNext_steady {a b : Bool} {t : TableData} (h : Steady t) :
    Steady (t.seekNext .wrapping a b).2 ∧ (t.seekNext .wrapping a b).1 ≠ .panic := by
  unfold seekNext
  dsimp only
  have h1 : Steady (if a then { t with row := t.row + 1 } else t) := by
    cases a
    · exact h
    · exact h.congr rfl rfl rfl rfl
  generalize (if a then { t with row := t.row + 1 } else t) = u at h1
  by_cases hl : (a && b) = true
  · rw [if_pos hl]
    cases hi : i64op .wrapping (asI64 u.mainSize - asI64 u.byteOffset) with
    | ok off => exact advance_steady h1
    | err e => exact ⟨h1, fun h => (by cases h)⟩
    | panic => exact absurd hi (i64op_wraps _)
  · rw [if_neg hl]
    have hc : (u.col + 1) % u.cols.length < u.cols.length := Nat.mod_lt _ (by have := h1.col; omega)
    have h2 : Steady { u with col := (u.col + 1) % u.cols.length, item := 0 } :=
      ⟨h1.offsets, h1.names, h1.cols, hc, h1.width⟩
    have h3 := nextOffset_wraps h2 hc
    generalize ({ u with col := (u.col + 1) % u.cols.length, item := 0 } : TableData) = v at h2 h3 ⊢
    cases hi : v.nextOffset .wrapping ((u.col + 1) % u.cols.length) with
    | ok off => exact advance_steady h2
    | err e => exact ⟨h2, fun h => (by cases h)⟩
    | panic => exact absurd hi h3

theorem seekToNextCol_steady {t : TableData} (h : Steady t) :
    Steady (t.seekToNextCol .wrapping).2 ∧ (t.seekToNextCol .wrapping).1 ≠ .panic := by
  unfold seekToNextCol
  have h1 := usub_wraps t.cols.length 1
  have h2 := usub_wraps t.ctx.naxis2 1
  cases ha : usub .wrapping t.cols.length 1 with
  | panic => exact absurd ha h1
  | err e => exact absurd ha usub_not_err
  | ok a =>
    cases hb : usub .wrapping t.ctx.naxis2 1 with
    | panic => exact absurd hb h2
    | err e => exact absurd hb usub_not_err
    | ok b => exact seekNext_steady h

theorem seekToRow_steady {r : Nat} {t : TableData} (h : Steady t) :
    Steady (t.seekToRow .wrapping r).2 ∧ (t.seekToRow .wrapping r).1 ≠ .panic := by
  unfold seekToRow
  by_cases hr : r ≥ t.ctx.naxis2
  · rw [if_pos hr]; exact ⟨h, fun h => (by cases h)⟩
  rw [if_neg hr]
  dsimp only
  have h0 : 0 < t.cols.length := by have := h.col; omega
  have hu : Steady { t with col := 0, row := r, item := 0 } := ⟨h.offsets, h.names, h.cols, h0, h.width⟩
  have h1 := h.cols _ (List.getElem_mem h0)
  rw [← h.offsets] at h1
  rw [List.getElem?_eq_getElem h0]
  simp only [Option.bind_some]
  rw [List.getElem?_eq_getElem h1]
  dsimp only
  generalize t.offsets[t.cols[0]] = o
  cases hx : (i64op .wrapping (asI64 r * asI64 t.ctx.naxis1) >>= fun a => i64op .wrapping (a + asI64 o)) with
  | panic => exact absurd hx (Res.bind_no_panic (i64op_wraps _) fun _ _ => i64op_wraps _)
  | err e => exact ⟨hu, fun h => (by cases h)⟩
  | ok new =>
    dsimp only
    cases hy : (i64op .wrapping (- asI64 t.byteOffset) >>= fun a => i64op .wrapping (a + new)) with
    | panic => exact absurd hy (Res.bind_no_panic (i64op_wraps _) fun _ _ => i64op_wraps _)
    | err e => exact ⟨hu, fun h => (by cases h)⟩
    | ok off =>
      dsimp only
      have hs := Reader.seekRelative_no_panic off t.rd
      generalize t.rd.seekRelative off = w at hs ⊢
      rcases w with ⟨q, rd⟩
      cases q with
      | panic => exact absurd rfl hs
      | err e => exact ⟨hu.congr rfl rfl rfl rfl, fun h => (by cases h)⟩
      | ok u => exact ⟨hu.congr rfl rfl rfl rfl, fun h => (by cases h)⟩

theorem finish_steady {v : DataValue} {r : Res Unit × TableData} (h : Steady r.2 ∧ r.1 ≠ .panic) :
    Steady (finish v r).2 ∧ (finish v r).1 ≠ .panic := by
  rcases r with ⟨q, t⟩
  cases q with
  | panic => exact absurd rfl h.2
  | err e => exact ⟨h.1, fun h => (by cases h)⟩
  | ok u => exact ⟨h.1, fun h => (by cases h)⟩

theorem jumpToMainTable_steady {t : TableData} (h : Steady t) : Steady t.jumpToMainTable := by
  unfold jumpToMainTable
  cases t.inHeap with
  | none => exact h
  | some x => exact h.congr rfl rfl rfl rfl

theorem nextInHeap_steady {c : Nat} {x : HeapState} {t : TableData} (h : Steady t) :
    Steady (t.nextInHeap .wrapping c x).2 ∧ (t.nextInHeap .wrapping c x).1 ≠ .panic := by
  unfold nextInHeap
  cases ha : usub .wrapping x.num (x.left / x.size) with
  | panic => exact absurd ha (usub_wraps _ _)
  | err e => exact absurd ha usub_not_err
  | ok idx =>
    dsimp only
    rcases t.rd.readExact x.ty.bytes with ⟨r, rd⟩
    cases r with
    | panic => exact ⟨h.congr rfl rfl rfl rfl, fun h => (by cases h)⟩
    | err e => exact ⟨h.congr rfl rfl rfl rfl, fun h => (by cases h)⟩
    | ok bs =>
      dsimp only
      cases hb : usub .wrapping x.left x.ty.bytes with
      | panic => exact absurd hb (usub_wraps _ _)
      | err e => exact absurd hb usub_not_err
      | ok left =>
        dsimp only
        have h1 : Steady { t with rd, inHeap := some { x with left } } := h.congr rfl rfl rfl rfl
        by_cases h0 : left = 0
        · rw [if_pos h0]
          exact finish_steady (seekToNextCol_steady (jumpToMainTable_steady h1))
        · rw [if_neg h0]
          exact ⟨h1, fun h => (by cases h)⟩

theorem nextPlain_steady {c : Nat} {ty : ElemTy} {rep : Nat} {t : TableData} (h : Steady t) :
    Steady (t.nextPlain .wrapping c ty rep).2 ∧ (t.nextPlain .wrapping c ty rep).1 ≠ .panic := by
  unfold nextPlain
  rcases t.rd.readExact ty.bytes with ⟨r, rd⟩
  cases r with
  | panic => exact ⟨h.congr rfl rfl rfl rfl, fun h => (by cases h)⟩
  | err e => exact ⟨h.congr rfl rfl rfl rfl, fun h => (by cases h)⟩
  | ok bs =>
    dsimp only
    have h1 : Steady { t with rd, byteOffset := t.byteOffset + ty.bytes, item := t.item + 1 } :=
      h.congr rfl rfl rfl rfl
    by_cases h0 : t.item + 1 = itemCount ty rep
    · rw [if_pos h0]
      exact finish_steady (seekToNextCol_steady h1)
    · rw [if_neg h0]
      exact ⟨h1, fun h => (by cases h)⟩

theorem jumpToHeap_steady {ty : ElemTy} {o n k : Nat} {t : TableData} (h : Steady t) :
    Steady (t.jumpToHeap .wrapping ty o n k).2 ∧ (t.jumpToHeap .wrapping ty o n k).1 ≠ .panic := by
  unfold jumpToHeap
  cases t.inHeap with
  | some x => exact ⟨h, fun h => (by cases h)⟩
  | none =>
    dsimp only
    have hh : heapOffset .wrapping t.byteOffset t.ctx.theap o ≠ .panic := by
      unfold heapOffset
      exact Res.bind_no_panic (i64op_wraps _) fun _ _ => Res.bind_no_panic (i64op_wraps _) fun _ _ => i64op_wraps _
    cases hx : heapOffset .wrapping t.byteOffset t.ctx.theap o with
    | panic => exact absurd hx hh
    | err e => exact ⟨h, fun h => (by cases h)⟩
    | ok off =>
      dsimp only
      have hs := Reader.seekRelative_no_panic off t.rd
      generalize t.rd.seekRelative off = w at hs ⊢
      rcases w with ⟨q, rd⟩
      cases q with
      | panic => exact absurd rfl hs
      | err e => exact ⟨h.congr rfl rfl rfl rfl, fun h => (by cases h)⟩
      | ok u =>
        dsimp only
        cases hm : umul .wrapping n k with
        | panic => exact absurd hm (umul_wraps _ _)
        | err e => exact ⟨h.congr rfl rfl rfl rfl, fun h => (by cases h)⟩
        | ok left => exact ⟨h.congr rfl rfl rfl rfl, fun h => (by cases h)⟩

theorem nextArray_steady {c : Nat} {ty : ElemTy} {k : Nat} {mk : Nat → Nat → DataValue} {t : TableData} (h : Steady t) :
    Steady (t.nextArray .wrapping c ty k mk).2 ∧ (t.nextArray .wrapping c ty k mk).1 ≠ .panic := by
  unfold nextArray
  rcases t.rd.readExact (k + k) with ⟨r, rd⟩
  cases r with
  | panic => exact ⟨h.congr rfl rfl rfl rfl, fun h => (by cases h)⟩
  | err e => exact ⟨h.congr rfl rfl rfl rfl, fun h => (by cases h)⟩
  | ok bs =>
    dsimp only
    have h1 : Steady { t with rd, byteOffset := t.byteOffset + (k + k) } := h.congr rfl rfl rfl rfl
    generalize beNat (bs.take k) = num
    generalize beNat (bs.drop k) = offset
    by_cases h0 : t.heap = true
    · rw [if_pos h0]
      have h2 := jumpToHeap_steady (ty := ty) (o := offset) (n := num) (k := ty.bytes) h1
      generalize TableData.jumpToHeap .wrapping ty offset num ty.bytes
        { t with rd, byteOffset := t.byteOffset + (k + k) } = q at h2 ⊢
      rcases q with ⟨r, u⟩
      cases r with
      | panic => exact absurd rfl h2.2
      | err e => exact ⟨h2.1, fun h => (by cases h)⟩
      | ok v =>
        dsimp only at h2 ⊢
        cases u.inHeap with
        | none => exact ⟨h2.1, fun h => (by cases h)⟩
        | some x => exact nextInHeap_steady h2.1
    · rw [if_neg h0]
      exact finish_steady (seekToNextCol_steady h1)

theorem toFirstCol_steady {c : Nat} {t : TableData} (h : Steady t) (hc : c < t.ctx.tforms.length) :
    Steady (t.toFirstCol .wrapping c).2 ∧ (t.toFirstCol .wrapping c).1 ≠ some .panic := by
  unfold toFirstCol
  by_cases h0 : t.seekFirst = true
  · rw [if_pos h0]
    dsimp only
    rw [← h.offsets] at hc
    rw [List.getElem?_eq_getElem hc]
    dsimp only
    have h1 : Steady { t with seekFirst := false } := h.congr rfl rfl rfl rfl
    have h2 := advance_steady (off := asI64 t.offsets[c]) h1
    generalize TableData.advance .wrapping (asI64 t.offsets[c]) { t with seekFirst := false } = q at h2
    rcases q with ⟨r, u⟩
    cases r with
    | panic => exact absurd rfl h2.2
    | err e => exact ⟨h2.1, fun h => (by cases h)⟩
    | ok v => exact ⟨h2.1, fun h => (by cases h)⟩
  · rw [if_neg h0]
    exact ⟨h, fun h => (by cases h)⟩

theorem toFirstCol_ctx (p : Profile) (c : Nat) (t : TableData) : (t.toFirstCol p c).2.ctx = t.ctx := by
  unfold toFirstCol advance
  split
  · dsimp only
    split
    · rfl
    · rename_i o ho
      rcases t.rd.seekRelative (asI64 o) with ⟨q, rd⟩
      cases q with
      | panic => rfl
      | err e => rfl
      | ok v =>
        dsimp only
        cases uadd p t.byteOffset (asU64 (asI64 o)) <;> rfl
  · rfl

theorem nextAt_steady {c : Nat} {t : TableData} (h : Steady t) (hc : c < t.ctx.tforms.length) :
    Steady (t.nextAt .wrapping c).2 ∧ (t.nextAt .wrapping c).1 ≠ .panic := by
  unfold nextAt
  cases t.inHeap with
  | some x => exact nextInHeap_steady h
  | none =>
    dsimp only
    by_cases h0 : t.byteOffset = t.mainSize
    · rw [if_pos h0]; exact ⟨h, fun h => (by cases h)⟩
    · rw [if_neg h0, List.getElem?_eq_getElem hc]
      generalize t.ctx.tforms[c] = tf
      cases tf with
      | plain ty rep => exact nextPlain_steady h
      | P ty => exact nextArray_steady h
      | Q ty => exact nextArray_steady h

theorem next_steady {t : TableData} (h : Steady t) :
    Steady (t.next .wrapping).2 ∧ (t.next .wrapping).1 ≠ .panic := by
  unfold TableData.next
  rw [List.getElem?_eq_getElem h.col]
  dsimp only
  have hc := h.cols _ (List.getElem_mem h.col)
  generalize t.cols[t.col]'h.col = c at hc ⊢
  have h1 := toFirstCol_steady h hc
  have h2 := toFirstCol_ctx .wrapping c t
  generalize t.toFirstCol .wrapping c = w at h1 h2 ⊢
  rcases w with ⟨r, u⟩
  dsimp only at h1 h2
  cases r with
  | some r => exact ⟨h1.1, fun e => h1.2 (by rw [show r = .panic from e])⟩
  | none =>
    dsimp only
    rw [← h2] at hc
    exact nextAt_steady h1.1 hc

end TableData

theorem TableRows.collect_steady {fuel row : Nat} {t u : TableData} {acc : List DataValue}
    {r : Res (Option (List DataValue))} (h : Steady t)
    (hc : TableRows.collect .wrapping fuel row t acc = some (r, u)) : Steady u ∧ r ≠ .panic := by
  induction fuel generalizing t acc with
  | zero => cases hc
  | succ fuel ih =>
    unfold TableRows.collect at hc
    by_cases h0 : t.row = row
    · rw [if_pos h0] at hc
      have h1 := TableData.next_steady h
      rcases hq : t.next .wrapping with ⟨q, v⟩
      rw [hq] at hc h1
      dsimp only at h1
      cases q with
      | panic => exact absurd rfl h1.2
      | err e => cases hc; exact ⟨h1.1, fun h => (by cases h)⟩
      | ok w =>
        cases w with
        | none => cases hc; exact ⟨h1.1, fun h => (by cases h)⟩
        | some w => exact ih h1.1 hc
    · rw [if_neg h0] at hc
      cases hc
      exact ⟨h, fun h => (by cases h)⟩

theorem TableRows.next_steady {fuel : Nat} {t u : TableRows} {r : Res (Option (List DataValue))}
    (h : Steady t.data) (hc : t.next .wrapping fuel = some (r, u)) : Steady u.data ∧ r ≠ .panic := by
  unfold TableRows.next at hc
  cases hq : TableRows.collect .wrapping fuel t.row t.data [] with
  | none => rw [hq] at hc; cases hc
  | some q =>
    rcases q with ⟨q, v⟩
    have h1 := TableRows.collect_steady h hq
    rw [hq] at hc
    cases q with
    | panic => exact absurd rfl h1.2
    | err e => cases hc; exact ⟨h1.1, fun h => (by cases h)⟩
    | ok w =>
      cases w with
      | none => cases hc; exact ⟨h1.1, fun h => (by cases h)⟩
      | some w => cases hc; exact ⟨h1.1, fun h => (by cases h)⟩

end Fitsrs

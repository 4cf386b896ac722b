import Verif.Lemmas.Extension
/-
C22, C23, C24 and C26: the mandatory keywords of images and tables, and the size of their data.
-/

namespace Fitsrs
open Spec

/-! ## C22 -/

/-- **C22, parsing.** An image header is accepted exactly when `BITPIX`, `NAXIS` and all the `NAXISn` are present
and legal, and the pixel type and axes are those of the keywords. -/
theorem C22_accepted (m : ValueMap) (x : Image) :
    Image.parse m = .ok x ↔ ImageKeywords m x.bitpix x.naxisn := by
  unfold Image.parse
  simp only [Res.bind_eq_ok, Res.ok.injEq]
  constructor
  · rintro ⟨b, hb, n, hn, ns, hns, rfl⟩
    obtain ⟨h1, h2⟩ := collectAxes_iff.1 hns
    refine ⟨getBitpix_iff.1 hb, ?_, ?_⟩
    · dsimp only; rw [h1]; exact getU64_iff.1 hn
    · intro i hi
      rw [Nat.add_comm]
      exact h2 i hi
  · intro h
    refine ⟨_, getBitpix_iff.2 h.bitpix, _, getU64_iff.2 h.naxis, _, collectAxes_iff.2 ⟨rfl, ?_⟩, rfl⟩
    intro i hi
    rw [Nat.add_comm]
    exact h.axes i hi

/-- **C22, size.** The size of the data is `|BITPIX|/8` times the product of the axes (nothing without axes),
provided the products of the leading axes, and the size, fit in 64 bits. -/
theorem C22_size (p : Profile) (m : ValueMap) (x : Image) (h : Image.parse m = .ok x)
    (hf : ∀ k ≤ x.naxisn.length, product (x.naxisn.take k) < 2 ^ 64)
    (hs : imageBytes x.bitpix x.naxisn < 2 ^ 64) :
    ImageKeywords m x.bitpix x.naxisn ∧ x.numBytes p = .ok (imageBytes x.bitpix x.naxisn) := by
  refine ⟨(C22_accepted m x).1 h, ?_⟩
  unfold Image.numBytes Image.numPixels
  unfold imageBytes at *
  rw [← code_shift] at *
  by_cases h0 : x.naxisn = []
  · rw [if_pos h0, if_pos h0]
    simp [umul]
  · rw [if_neg h0] at *
    rw [if_neg h0, uprod_fits (by intro k hk; rw [Nat.one_mul]; exact hf k hk)]
    simp only [Res.bind_ok, Nat.one_mul]
    exact umul_ok hs

/-- **C22, size, without empty axes.** If no axis is empty it is enough that the size fits. -/
theorem C22_size_nonempty (p : Profile) (m : ValueMap) (x : Image) (h : Image.parse m = .ok x) (h0 : 0 ∉ x.naxisn)
    (hs : imageBytes x.bitpix x.naxisn < 2 ^ 64) :
    x.numBytes p = .ok (imageBytes x.bitpix x.naxisn) := by
  refine (C22_size p m x h ?_ hs).2
  intro k hk
  have h1 := product_take_le h0 k
  by_cases hn : x.naxisn = []
  · rw [hn]; simp [product]
  · unfold imageBytes at hs
    rw [if_neg hn] at hs
    have : 1 ≤ x.bitpix.code.natAbs / 8 := by cases x.bitpix <;> decide
    have : 1 * product x.naxisn ≤ x.bitpix.code.natAbs / 8 * product x.naxisn := Nat.mul_le_mul_right _ this
    omega

/-- **C22, size, without overflow checks.** In release builds it is enough that the size fits, even with empty
axes. -/
theorem C22_size_release (m : ValueMap) (x : Image) (_ : Image.parse m = .ok x)
    (hs : imageBytes x.bitpix x.naxisn < 2 ^ 64) :
    x.numBytes .wrapping = .ok (imageBytes x.bitpix x.naxisn) := by
  unfold Image.numBytes Image.numPixels
  unfold imageBytes at *
  rw [← code_shift] at *
  by_cases h0 : x.naxisn = []
  · rw [if_pos h0, if_pos h0]
    simp [umul]
  · rw [if_neg h0] at *
    rw [if_neg h0, uprod_wrapping (by decide)]
    simp only [Res.bind_ok, Nat.one_mul]
    rw [umul_wrapping, Nat.mul_mod_mod, Nat.mod_eq_of_lt hs]

/-- The keywords of an image of 3 by 2 pixels of 16 bits. -/
def imageMap : ValueMap :=
  [("BITPIX".toList, .integer 16 none), ("NAXIS".toList, .integer 2 none), ("NAXIS1".toList, .integer 3 none),
   ("NAXIS2".toList, .integer 2 none)]

example : Image.parse imageMap = .ok ⟨.i16, [3, 2]⟩ ∧ imageBytes .i16 [3, 2] = 12 ∧ 0 ∉ [3, 2] := by
  decide +kernel

example : (⟨.i16, [3, 2]⟩ : Image).numBytes .checked = .ok 12 :=
  C22_size_nonempty .checked imageMap _ (by decide +kernel) (by decide) (by decide)

/-- With an empty axis after large ones, the product overflows though the size is zero: a panic in checked
builds. -/
theorem C22_empty_axis_panics :
    let m : ValueMap := [("BITPIX".toList, .integer 8 none), ("NAXIS".toList, .integer 3 none),
      ("NAXIS1".toList, .integer (2 ^ 40) none), ("NAXIS2".toList, .integer (2 ^ 40) none),
      ("NAXIS3".toList, .integer 0 none)]
    ∃ x, Image.parse m = .ok x ∧ imageBytes x.bitpix x.naxisn = 0 ∧ x.numBytes .checked = .panic :=
  ⟨⟨.u8, [2 ^ 40, 2 ^ 40, 0]⟩, by decide +kernel, by decide +kernel, by decide +kernel⟩

/-! ## C23 -/

/-- The columns of an ASCII table whose start and format can be read. -/
def Spec.asciiColumns (m : ValueMap) (fields : Nat) : List (Nat × TFormAscii) :=
  (List.range fields).filterMap fun i =>
    match m.getU64 (kwN "TBCOL" (i + 1)), m.getTFormAscii (kwN "TFORM" (i + 1)) with
    | .ok b, .ok f => some (b, f)
    | _, _ => none

theorem asciiFields_eq (m : ValueMap) (i k : Nat) :
    asciiFields m (i + 1) k =
      (((List.range' i k).filterMap fun i =>
        match m.getU64 (kwN "TBCOL" (i + 1)), m.getTFormAscii (kwN "TFORM" (i + 1)) with
        | .ok b, .ok f => some (b, f)
        | _, _ => none).map Prod.fst,
      ((List.range' i k).filterMap fun i =>
        match m.getU64 (kwN "TBCOL" (i + 1)), m.getTFormAscii (kwN "TFORM" (i + 1)) with
        | .ok b, .ok f => some (b, f)
        | _, _ => none).map Prod.snd) := by
  induction k generalizing i with
  | zero => rfl
  | succ k ih =>
    unfold asciiFields
    rw [ih (i + 1), List.range'_succ, List.filterMap_cons]
    dsimp only
    cases m.getU64 (kwN "TBCOL" (i + 1)) with
    | ok b => cases m.getTFormAscii (kwN "TFORM" (i + 1)) <;> rfl
    | err e => cases m.getTFormAscii (kwN "TFORM" (i + 1)) <;> rfl
    | panic => cases m.getTFormAscii (kwN "TFORM" (i + 1)) <;> rfl

/-- **C23, ASCII tables.** The header is accepted exactly when `BITPIX` is 8, `NAXIS` 2, `PCOUNT` 0, `GCOUNT` 1 and
`NAXIS1`, `NAXIS2` and `TFIELDS` are present and legal (and memory for so many columns can be addressed); the
columns are those that can be read. -/
theorem C23_ascii_accepted (m : ValueMap) (x : AsciiTable) :
    AsciiTable.parse m = .ok x ↔
      TableKeywords m x.naxis1 x.naxis2 0 x.tfields ∧ x.tfields * 24 < 2 ^ 63 ∧
      x = { bitpix := .u8, naxis1 := x.naxis1, naxis2 := x.naxis2, tfields := x.tfields,
            tbcols := (asciiColumns m x.tfields).map Prod.fst, tforms := (asciiColumns m x.tfields).map Prod.snd
            pcount := 0, gcount := 1 } := by
  have hcols : ∀ n, asciiFields m 1 n = ((asciiColumns m n).map Prod.fst, (asciiColumns m n).map Prod.snd) := by
    intro n
    rw [asciiFields_eq m 0 n, ← List.range_eq_range']
    rfl
  constructor
  · intro h
    unfold AsciiTable.parse at h
    obtain ⟨b, hb, h⟩ := Res.bind_eq_ok.1 h
    by_cases h1 : b ≠ .u8
    · rw [if_pos h1] at h; simp at h
    rw [if_neg h1] at h
    have h1 : b = .u8 := by simpa using h1
    subst h1
    obtain ⟨n, hn, h⟩ := Res.bind_eq_ok.1 h
    by_cases h2 : n ≠ 2
    · rw [if_pos h2] at h; simp at h
    rw [if_neg h2] at h
    have h2 : n = 2 := by omega
    subst h2
    obtain ⟨n1, hn1, h⟩ := Res.bind_eq_ok.1 h
    obtain ⟨n2, hn2, h⟩ := Res.bind_eq_ok.1 h
    obtain ⟨pc, hpc, h⟩ := Res.bind_eq_ok.1 h
    by_cases h3 : pc ≠ 0
    · rw [if_pos h3] at h; simp at h
    rw [if_neg h3] at h
    have h3 : pc = 0 := by omega
    subst h3
    obtain ⟨gc, hgc, h⟩ := Res.bind_eq_ok.1 h
    by_cases h4 : gc ≠ 1
    · rw [if_pos h4] at h; simp at h
    rw [if_neg h4] at h
    have h4 : gc = 1 := by omega
    subst h4
    obtain ⟨tf, htf, h⟩ := Res.bind_eq_ok.1 h
    obtain ⟨u, -, h⟩ := Res.bind_eq_ok.1 h
    obtain ⟨u', hcap, h⟩ := Res.bind_eq_ok.1 h
    rw [withCapacity_eq] at hcap
    injection h with h
    subst h
    refine ⟨⟨getBitpix_iff.1 hb, getU64_iff.1 hn, getU64_iff.1 hn1, getU64_iff.1 hn2, getU64_iff.1 hpc,
      getU64_iff.1 hgc, getU64_iff.1 htf⟩, ?_, ?_⟩
    · dsimp only
      by_cases hc : tf * 24 < 2 ^ 63
      · exact hc
      · rw [if_neg hc] at hcap; simp at hcap
    · dsimp only; rw [hcols]
  · rintro ⟨hk, hc, hx⟩
    unfold AsciiTable.parse
    rw [(getBitpix_iff (b := .u8)).2 hk.bitpix]
    simp only [Res.bind_ok, ne_eq, not_true_eq_false, if_false]
    rw [(getU64_iff (n := 2)).2 hk.naxis]
    simp only [Res.bind_ok, ne_eq, not_true_eq_false, if_false]
    rw [getU64_iff.2 hk.naxis1, getU64_iff.2 hk.naxis2, getU64_iff.2 hk.pcount_, (getU64_iff (n := 1)).2 hk.gcount,
      getU64_iff.2 hk.tfields]
    simp only [Res.bind_ok, ne_eq, not_true_eq_false, if_false]
    rw [withCapacity_eq, withCapacity_eq, if_pos (by omega), if_pos hc]
    simp only [Res.bind_ok]
    rw [hcols]
    exact congrArg Res.ok hx.symm

/-- **C23, ASCII tables, size.** -/
theorem C23_ascii_size (p : Profile) (m : ValueMap) (x : AsciiTable) (h : AsciiTable.parse m = .ok x)
    (hs : x.naxis1 * x.naxis2 < 2 ^ 64) :
    HasInt m "NAXIS1".toList x.naxis1 ∧ HasInt m "NAXIS2".toList x.naxis2 ∧
      x.numBytes p = .ok (x.naxis1 * x.naxis2) := by
  have := ((C23_ascii_accepted m x).1 h).1
  exact ⟨this.naxis1, this.naxis2, umul_ok hs⟩

/-! ## C24 and C26: the outcome of parsing a binary table header -/

/-- The number of axes of the compressed image can be allocated. -/
def Spec.ZNaxisFits (m : ValueMap) : Prop := ∀ z : Nat, HasInt m "ZNAXIS".toList z → z * 8 < 2 ^ 63

/-- Start of the heap when it can be computed. -/
def Spec.HeapStart (p : Profile) (m : ValueMap) (width rows t : Nat) : Prop :=
  HasInt m "THEAP".toList t ∨
    (¬ (∃ t : Nat, HasInt m "THEAP".toList t)) ∧
      ((width * rows < 2 ^ 64 ∧ t = width * rows) ∨ (p = .wrapping ∧ t = width * rows % 2 ^ 64))

theorem getZAxes_ok {m : ValueMap} (h : ZNaxisFits m) : ∃ a, getZAxes m = .ok a := by
  unfold getZAxes
  split
  · rename_i z hz
    rw [withCapacity_eq, if_pos (h z (getU64_iff.1 hz))]
    simp only [Res.bind_ok]
    split <;> exact ⟨_, rfl⟩
  · exact ⟨_, rfl⟩

theorem getZAxes_panic {m : ValueMap} (h : ¬ ZNaxisFits m) : getZAxes m = .panic := by
  unfold ZNaxisFits at h
  simp only [Classical.not_forall] at h
  obtain ⟨z, hz, hc⟩ := h
  unfold getZAxes
  rw [getU64_iff.2 hz]
  dsimp only
  rw [withCapacity_eq, if_neg hc]
  rfl

theorem getTheap_cases (p : Profile) (m : ValueMap) (w r : Nat) :
    (∃ t, getTheap p m w r = .ok t ∧ HeapStart p m w r t) ∨
    (getTheap p m w r = .panic ∧ p = .checked ∧ (¬ ∃ t : Nat, HasInt m "THEAP".toList t) ∧ 2 ^ 64 ≤ w * r) := by
  unfold getTheap
  cases hg : m.getU64 "THEAP".toList with
  | ok t => exact .inl ⟨t, rfl, .inl (getU64_iff.1 hg)⟩
  | panic => exact absurd hg getU64_no_panic
  | err e =>
    have hn : ¬ ∃ t : Nat, HasInt m "THEAP".toList t := by
      rintro ⟨t, ht⟩
      rw [getU64_iff.2 ht] at hg
      simp at hg
    dsimp only
    unfold umul
    by_cases h : w * r < two64
    · rw [if_pos h]; exact .inl ⟨_, rfl, .inr ⟨hn, .inl ⟨h, rfl⟩⟩⟩
    · rw [if_neg h]
      cases p with
      | checked => exact .inr ⟨rfl, rfl, hn, by unfold two64 at h; omega⟩
      | wrapping => exact .inl ⟨_, rfl, .inr ⟨hn, .inr ⟨rfl, rfl⟩⟩⟩

/-- The part of `BinTable::parse` after the mandatory keywords. -/
def binTail (p : Profile) (m : ValueMap) (width rows pcount fields : Nat) : Res BinTable := do
  let axes ← getZAxes m
  let cols := binFields m 1 fields
  let theap ← getTheap p m width rows
  let bits ← rowBits p (cols.map Prod.fst) 0
  if bits >>> 3 ≠ width then
    .err (.static "BinTable NAXIS1 and TFORMS does not give the same amount of bytes the table should have per row.")
  else
    .ok { bitpix := .u8, naxis1 := width, naxis2 := rows, tfields := fields, theap, tforms := cols.map Prod.fst
          ttypes := cols.map Prod.snd, pcount, gcount := 1, zImage := mkZImage m axes (cols.map Prod.snd) }

theorem binParse_of {p : Profile} {m : ValueMap} {w r pc tf : Nat} (hk : TableKeywords m w r pc tf) :
    BinTable.parse p m = binTail p m w r pc tf := by
  unfold BinTable.parse binTail
  rw [(getBitpix_iff (b := .u8)).2 hk.bitpix]
  simp only [Res.bind_ok, ne_eq, not_true_eq_false, if_false]
  rw [(getU64_iff (n := 2)).2 hk.naxis]
  simp only [Res.bind_ok, ne_eq, not_true_eq_false, if_false]
  rw [getU64_iff.2 hk.naxis1, getU64_iff.2 hk.naxis2, getU64_iff.2 hk.pcount_, (getU64_iff (n := 1)).2 hk.gcount,
    getU64_iff.2 hk.tfields]
  simp only [Res.bind_ok, ne_eq, not_true_eq_false, if_false]

theorem binParse_else {p : Profile} {m : ValueMap} :
    (∃ w r pc tf, TableKeywords m w r pc tf) ∨ ∃ e, BinTable.parse p m = .err e := by
  unfold BinTable.parse
  cases hb : m.getBitpix "BITPIX".toList with
  | panic => exact absurd hb getBitpix_no_panic
  | err e => exact .inr ⟨e, rfl⟩
  | ok b =>
  simp only [Res.bind_ok]
  by_cases h1 : b ≠ .u8
  · rw [if_pos h1]; exact .inr ⟨_, rfl⟩
  rw [if_neg h1]
  have h1 : b = .u8 := by simpa using h1
  subst h1
  cases hn : m.getU64 "NAXIS".toList with
  | panic => exact absurd hn getU64_no_panic
  | err e => exact .inr ⟨e, rfl⟩
  | ok n =>
  simp only [Res.bind_ok]
  by_cases h2 : n ≠ 2
  · rw [if_pos h2]; exact .inr ⟨_, rfl⟩
  rw [if_neg h2]
  have h2 : n = 2 := by omega
  subst h2
  cases hn1 : m.getU64 (kwN "NAXIS" 1) with
  | panic => exact absurd hn1 getU64_no_panic
  | err e => exact .inr ⟨e, rfl⟩
  | ok n1 =>
  simp only [Res.bind_ok]
  cases hn2 : m.getU64 (kwN "NAXIS" 2) with
  | panic => exact absurd hn2 getU64_no_panic
  | err e => exact .inr ⟨e, rfl⟩
  | ok n2 =>
  simp only [Res.bind_ok]
  cases hpc : m.getU64 "PCOUNT".toList with
  | panic => exact absurd hpc getU64_no_panic
  | err e => exact .inr ⟨e, rfl⟩
  | ok pc =>
  simp only [Res.bind_ok]
  cases hgc : m.getU64 "GCOUNT".toList with
  | panic => exact absurd hgc getU64_no_panic
  | err e => exact .inr ⟨e, rfl⟩
  | ok gc =>
  simp only [Res.bind_ok]
  by_cases h4 : gc ≠ 1
  · rw [if_pos h4]; exact .inr ⟨_, rfl⟩
  rw [if_neg h4]
  have h4 : gc = 1 := by omega
  subst h4
  cases htf : m.getU64 "TFIELDS".toList with
  | panic => exact absurd htf getU64_no_panic
  | err e => exact .inr ⟨e, rfl⟩
  | ok tf =>
  simp only [Res.bind_ok]
  exact .inl ⟨n1, n2, pc, tf, getBitpix_iff.1 hb, getU64_iff.1 hn, getU64_iff.1 hn1, getU64_iff.1 hn2,
    getU64_iff.1 hpc, getU64_iff.1 hgc, getU64_iff.1 htf⟩

/-- **C23, binary tables.** An accepted binary table has the mandatory keywords, and its fields are theirs. -/
theorem C23_bintable_accepted (p : Profile) (m : ValueMap) (x : BinTable) (h : BinTable.parse p m = .ok x) :
    TableKeywords m x.naxis1 x.naxis2 x.pcount x.tfields ∧ x.bitpix = .u8 ∧ x.gcount = 1 ∧
      HeapStart p m x.naxis1 x.naxis2 x.theap := by
  rcases binParse_else (p := p) (m := m) with ⟨w, r, pc, tf, hk⟩ | ⟨e, he⟩
  · rw [binParse_of hk] at h
    unfold binTail at h
    obtain ⟨axes, -, h⟩ := Res.bind_eq_ok.1 h
    dsimp only at h
    obtain ⟨t, ht, h⟩ := Res.bind_eq_ok.1 h
    obtain ⟨bits, -, h⟩ := Res.bind_eq_ok.1 h
    split at h
    · simp at h
    · injection h with h
      subst h
      refine ⟨hk, rfl, rfl, ?_⟩
      rcases getTheap_cases p m w r with ⟨t', h1, h2⟩ | ⟨h1, -⟩
      · rw [ht] at h1
        injection h1 with h1
        rw [← h1] at h2
        exact h2
      · rw [ht] at h1; simp at h1
  · rw [he] at h; simp at h

/-- **C23, binary tables, size.** -/
theorem C23_bintable_size (p : Profile) (m : ValueMap) (x : BinTable) (h : BinTable.parse p m = .ok x)
    (hs : x.naxis1 * x.naxis2 + x.pcount < 2 ^ 64) :
    HasInt m "NAXIS1".toList x.naxis1 ∧ HasInt m "NAXIS2".toList x.naxis2 ∧ HasInt m "PCOUNT".toList x.pcount ∧
      x.numBytes p = .ok (x.naxis1 * x.naxis2 + x.pcount) := by
  have hk := (C23_bintable_accepted p m x h).1
  refine ⟨hk.naxis1, hk.naxis2, hk.pcount_, ?_⟩
  unfold BinTable.numBytes
  rw [umul_ok (by unfold two64; omega)]
  simp only [Res.bind_ok]
  exact uadd_ok hs

/-- The exact condition on the width of the rows: the number of *bits*, divided by eight and rounded down. -/
theorem C24_exact (p : Profile) (m : ValueMap) (w r pc : Nat) (fs : List TForm) (t : Nat)
    (hk : TableKeywords m w r pc fs.length) (hz : ZNaxisFits m) (hh : HeapStart p m w r t) (hc : Columns m fs)
    (hb : total (fs.map TForm.bits) < 2 ^ 64) :
    ((∃ x, BinTable.parse p m = .ok x) ↔ w = total (fs.map TForm.bits) / 8) ∧
    (w ≠ total (fs.map TForm.bits) / 8 → ∃ e, BinTable.parse p m = .err e) := by
  have hcols : (binFields m 1 fs.length).map Prod.fst = fs := by
    apply binFields_columns
    intro j hj
    rw [Nat.add_comm]
    exact hc j hj
  obtain ⟨axes, ha⟩ := getZAxes_ok hz
  have htheap : ∃ t, getTheap p m w r = .ok t := by
    rcases getTheap_cases p m w r with ⟨t, ht, -⟩ | ⟨-, hp, hn, hle⟩
    · exact ⟨t, ht⟩
    · rcases hh with hh | ⟨-, hh | ⟨hp', -⟩⟩
      · exact absurd ⟨t, hh⟩ hn
      · omega
      · rw [hp] at hp'; simp at hp'
  obtain ⟨t', ht⟩ := htheap
  have hrow : rowBits p ((binFields m 1 fs.length).map Prod.fst) 0 = .ok (total (fs.map TForm.bits)) := by
    rw [hcols, rowBits_fits (by rw [Nat.zero_add]; exact hb), Nat.zero_add]
  have hshift : total (fs.map TForm.bits) >>> 3 = total (fs.map TForm.bits) / 8 := by
    rw [Nat.shiftRight_eq_div_pow]
  have key : BinTable.parse p m = if total (fs.map TForm.bits) / 8 ≠ w then
      .err (.static "BinTable NAXIS1 and TFORMS does not give the same amount of bytes the table should have per row.")
      else .ok { bitpix := .u8, naxis1 := w, naxis2 := r, tfields := fs.length, theap := t', tforms := (binFields m 1 fs.length).map Prod.fst
                 ttypes := (binFields m 1 fs.length).map Prod.snd, pcount := pc, gcount := 1
                 zImage := mkZImage m axes ((binFields m 1 fs.length).map Prod.snd) } := by
    rw [binParse_of hk]
    unfold binTail
    rw [ha]
    simp only [Res.bind_ok]
    rw [ht]
    simp only [Res.bind_ok]
    rw [hrow]
    simp only [Res.bind_ok]
    rw [hshift]
  rw [key]
  constructor
  · constructor
    · rintro ⟨x, hx⟩
      split at hx
      · simp at hx
      · rename_i h; simpa using (Classical.not_not.1 h).symm
    · intro h
      exact ⟨_, by rw [if_neg (by simp [h])]⟩
  · intro h
    exact ⟨_, by rw [if_pos (Ne.symm h)]⟩

/-- C24 as stated: acceptance exactly when `NAXIS1` is the sum of the widths of the columns. -/
def C24_statement (p : Profile) : Prop :=
  ∀ (m : ValueMap) (w r pc : Nat) (fs : List TForm) (t : Nat),
    TableKeywords m w r pc fs.length → ZNaxisFits m → HeapStart p m w r t → Columns m fs →
    total (fs.map TForm.bits) < 2 ^ 64 →
    (((∃ x, BinTable.parse p m = .ok x) ↔ w = total (fs.map colBytes)) ∧
    (w ≠ total (fs.map colBytes) → ∃ e, BinTable.parse p m = .err e))

/-- **C24**, when the bit columns fill whole bytes.  Missing: bit columns whose count is not a multiple of eight,
for which the statement is false. -/
theorem C24_partial (p : Profile) (m : ValueMap) (w r pc : Nat) (fs : List TForm) (t : Nat)
    (hk : TableKeywords m w r pc fs.length) (hz : ZNaxisFits m) (hh : HeapStart p m w r t) (hc : Columns m fs)
    (hb : total (fs.map TForm.bits) < 2 ^ 64) (hw : WholeBytes fs) :
    ((∃ x, BinTable.parse p m = .ok x) ↔ w = total (fs.map colBytes)) ∧
    (w ≠ total (fs.map colBytes) → ∃ e, BinTable.parse p m = .err e) := by
  have := C24_exact p m w r pc fs t hk hz hh hc hb
  rw [total_whole hw, Nat.mul_div_cancel_left _ (by decide)] at this
  exact this

/-- The keywords of a table with the given width and formats. -/
def tableMap (w : Int) (formats : List Str) : ValueMap :=
  [("BITPIX".toList, .integer 8 none), ("NAXIS".toList, .integer 2 none), ("NAXIS1".toList, .integer w none),
   ("NAXIS2".toList, .integer 3 none), ("PCOUNT".toList, .integer 5 none), ("GCOUNT".toList, .integer 1 none),
   ("TFIELDS".toList, .integer formats.length none)] ++
  formats.zipIdx.map fun (f, i) => (kwN "TFORM" (i + 1), .string f none)

theorem tableMap_keywords (w : Nat) (formats : List Str) : TableKeywords (tableMap w formats) w 3 5 formats.length :=
  ⟨⟨none, rfl⟩, ⟨none, rfl⟩, ⟨none, rfl⟩, ⟨none, rfl⟩, ⟨none, rfl⟩, ⟨none, rfl⟩, ⟨none, rfl⟩⟩

theorem noInt {m : ValueMap} {k : Str} (h : m.get k = none) (n : Int) : ¬ HasInt m k n := by
  rintro ⟨c, hc⟩; rw [h] at hc; simp at hc

/-- **C24, negation.** A table with two columns `1X` needs two bytes per row; it is refused with `NAXIS1 = 2`, and
accepted with `NAXIS1 = 0`. -/
theorem C24_fails (p : Profile) : ¬ C24_statement p := by
  intro h
  have := (h (tableMap 2 ["1X".toList, "1X".toList]) 2 3 5 [.plain .X 1, .plain .X 1] 6 (tableMap_keywords 2 _)
    (fun z hz => absurd hz (noInt (by decide +kernel) _))
    (.inr ⟨fun ⟨t, ht⟩ => noInt (by decide +kernel) _ ht, .inl ⟨by decide, rfl⟩⟩)
    (by
      intro i hi
      match i, hi with
      | 0, _ => exact ⟨"1X".toList, .inl ⟨none, by decide +kernel⟩, (by decide +kernel : TForm.ofStr "1X".toList = some (.plain .X 1))⟩
      | 1, _ => exact ⟨"1X".toList, .inl ⟨none, by decide +kernel⟩, (by decide +kernel : TForm.ofStr "1X".toList = some (.plain .X 1))⟩)
    (by decide +kernel)).1.2 (by decide +kernel)
  obtain ⟨x, hx⟩ := this
  have he : ∀ p, (BinTable.parse p (tableMap 2 ["1X".toList, "1X".toList])).toOption = .ok none := by
    intro p; cases p <;> decide +kernel
  have := he p
  rw [hx] at this
  simp [Res.toOption] at this

example : ∃ x, BinTable.parse .checked (tableMap 0 ["1X".toList, "1X".toList]) = .ok x ∧
    x.tforms = [.plain .X 1, .plain .X 1] ∧ x.naxis1 = 0 := by
  exact ⟨⟨.u8, 0, 3, 2, 0, [.plain .X 1, .plain .X 1], [none, none], 5, 1, none⟩, by decide +kernel, rfl, rfl⟩

/-- A table with columns `2J`, `PE(9)`, `16X`, `D` meets the hypotheses. -/
example : ((∃ x, BinTable.parse .checked (tableMap 26 ["2J".toList, "PE(9)".toList, "16X".toList, "D".toList]) = .ok x) ↔
    26 = total ([.plain .J 2, .P .E, .plain .X 16, .plain .D 1].map colBytes)) :=
  (C24_partial .checked _ 26 3 5 [.plain .J 2, .P .E, .plain .X 16, .plain .D 1] 78 (tableMap_keywords 26 _)
    (fun z hz => absurd hz (noInt (by decide +kernel) _))
    (.inr ⟨fun ⟨t, ht⟩ => noInt (by decide +kernel) _ ht, .inl ⟨by decide, rfl⟩⟩)
    (by
      intro i hi
      match i, hi with
      | 0, _ => exact ⟨"2J".toList, .inl ⟨none, by decide +kernel⟩, (by decide +kernel : TForm.ofStr "2J".toList = some (.plain .J 2))⟩
      | 1, _ => exact ⟨"PE(9)".toList, .inl ⟨none, by decide +kernel⟩, (by decide +kernel : TForm.ofStr "PE(9)".toList = some (.P .E))⟩
      | 2, _ => exact ⟨"16X".toList, .inl ⟨none, by decide +kernel⟩, (by decide +kernel : TForm.ofStr "16X".toList = some (.plain .X 16))⟩
      | 3, _ => exact ⟨"D".toList, .inl ⟨none, by decide +kernel⟩, (by decide +kernel : TForm.ofStr "D".toList = some (.plain .D 1))⟩)
    (by decide +kernel) (by intro r hr; simp at hr; omega)).1

/-! ## C26 -/

/-- C26 as stated: parsing never panics. -/
def C26_statement (p : Profile) : Prop :=
  ∀ m, Image.parse m ≠ .panic ∧ AsciiTable.parse m ≠ .panic ∧ BinTable.parse p m ≠ .panic

/-- **C26, images.** -/
theorem C26_image (m : ValueMap) : Image.parse m ≠ .panic := by
  intro h
  unfold Image.parse at h
  rcases Res.bind_eq_panic.1 h with h | ⟨b, -, h⟩
  · exact getBitpix_no_panic h
  rcases Res.bind_eq_panic.1 h with h | ⟨n, -, h⟩
  · exact getU64_no_panic h
  rcases Res.bind_eq_panic.1 h with h | ⟨ns, -, h⟩
  · exact collectAxes_no_panic h
  simp at h

/-- **C26, ASCII tables.** Parsing panics exactly when the mandatory keywords are legal and `TFIELDS` is so large
that the vector of columns cannot be addressed. -/
theorem C26_ascii (m : ValueMap) :
    AsciiTable.parse m = .panic ↔ ∃ w r tf, TableKeywords m w r 0 tf ∧ 2 ^ 63 ≤ tf * 24 := by
  constructor
  · intro h
    unfold AsciiTable.parse at h
    rcases Res.bind_eq_panic.1 h with h | ⟨b, hb, h⟩
    · exact absurd h getBitpix_no_panic
    by_cases h1 : b ≠ .u8
    · rw [if_pos h1] at h; simp at h
    rw [if_neg h1] at h
    have h1 : b = .u8 := by simpa using h1
    subst h1
    rcases Res.bind_eq_panic.1 h with h | ⟨n, hn, h⟩
    · exact absurd h getU64_no_panic
    by_cases h2 : n ≠ 2
    · rw [if_pos h2] at h; simp at h
    rw [if_neg h2] at h
    have h2 : n = 2 := by omega
    subst h2
    rcases Res.bind_eq_panic.1 h with h | ⟨n1, hn1, h⟩
    · exact absurd h getU64_no_panic
    rcases Res.bind_eq_panic.1 h with h | ⟨n2, hn2, h⟩
    · exact absurd h getU64_no_panic
    rcases Res.bind_eq_panic.1 h with h | ⟨pc, hpc, h⟩
    · exact absurd h getU64_no_panic
    by_cases h3 : pc ≠ 0
    · rw [if_pos h3] at h; simp at h
    rw [if_neg h3] at h
    have h3 : pc = 0 := by omega
    subst h3
    rcases Res.bind_eq_panic.1 h with h | ⟨gc, hgc, h⟩
    · exact absurd h getU64_no_panic
    by_cases h4 : gc ≠ 1
    · rw [if_pos h4] at h; simp at h
    rw [if_neg h4] at h
    have h4 : gc = 1 := by omega
    subst h4
    rcases Res.bind_eq_panic.1 h with h | ⟨tf, htf, h⟩
    · exact absurd h getU64_no_panic
    refine ⟨n1, n2, tf, ⟨getBitpix_iff.1 hb, getU64_iff.1 hn, getU64_iff.1 hn1, getU64_iff.1 hn2, getU64_iff.1 hpc,
      getU64_iff.1 hgc, getU64_iff.1 htf⟩, ?_⟩
    by_cases hc : tf * 24 < 2 ^ 63
    · rw [withCapacity_eq, withCapacity_eq, if_pos (by omega), if_pos hc] at h
      simp at h
    · omega
  · rintro ⟨w, r, tf, hk, hc⟩
    unfold AsciiTable.parse
    rw [(getBitpix_iff (b := .u8)).2 hk.bitpix]
    simp only [Res.bind_ok, ne_eq, not_true_eq_false, if_false]
    rw [(getU64_iff (n := 2)).2 hk.naxis]
    simp only [Res.bind_ok, ne_eq, not_true_eq_false, if_false]
    rw [getU64_iff.2 hk.naxis1, getU64_iff.2 hk.naxis2, getU64_iff.2 hk.pcount_, (getU64_iff (n := 1)).2 hk.gcount,
      getU64_iff.2 hk.tfields]
    simp only [Res.bind_ok, ne_eq, not_true_eq_false, if_false]
    rw [withCapacity_eq, withCapacity_eq, if_neg (c := tf * 24 < 2 ^ 63) (by omega)]
    split <;> rfl

/-- The columns of a binary table that can be read. -/
def Spec.readable (m : ValueMap) (fields : Nat) : List TForm := (binFields m 1 fields).map Prod.fst

/-- **C26, binary tables.** Parsing panics exactly when the mandatory keywords are legal, and `ZNAXIS` cannot be
allocated, or (in checked builds) the size of the main table, without `THEAP`, or the number of bits of a row,
overflows. -/
theorem C26_bintable (p : Profile) (m : ValueMap) :
    BinTable.parse p m = .panic ↔ ∃ w r pc tf, TableKeywords m w r pc tf ∧
      (¬ ZNaxisFits m ∨ (p = .checked ∧
        ((¬ (∃ t : Nat, HasInt m "THEAP".toList t) ∧ 2 ^ 64 ≤ w * r) ∨
          2 ^ 64 ≤ total ((readable m tf).map TForm.bits)))) := by
  have key : ∀ w r pc tf, TableKeywords m w r pc tf → (BinTable.parse p m = .panic ↔
      (¬ ZNaxisFits m ∨ (p = .checked ∧
        ((¬ (∃ t : Nat, HasInt m "THEAP".toList t) ∧ 2 ^ 64 ≤ w * r) ∨
          2 ^ 64 ≤ total ((readable m tf).map TForm.bits))))) := by
    intro w r pc tf hk
    rw [binParse_of hk]
    unfold binTail
    by_cases hz : ZNaxisFits m
    · obtain ⟨axes, ha⟩ := getZAxes_ok hz
      rw [ha]
      simp only [Res.bind_ok, hz, not_true_eq_false, false_or]
      rcases getTheap_cases p m w r with ⟨t, ht, hs⟩ | ⟨ht, hp, hn, hle⟩
      · rw [ht]
        simp only [Res.bind_ok]
        have hno : ¬ (p = .checked ∧ (¬ ∃ t : Nat, HasInt m "THEAP".toList t) ∧ 2 ^ 64 ≤ w * r) := by
          rintro ⟨hp, hn, hle⟩
          rcases hs with hs | ⟨-, hs | ⟨hp', -⟩⟩
          · exact hn ⟨t, hs⟩
          · omega
          · rw [hp] at hp'; simp at hp'
        by_cases hb : total ((readable m tf).map TForm.bits) < 2 ^ 64
        · have := rowBits_fits (p := p) (fs := readable m tf) (acc := 0) (by rw [Nat.zero_add]; exact hb)
          unfold readable at this
          rw [this]
          simp only [Res.bind_ok]
          constructor
          · intro h; split at h <;> simp at h
          · rintro ⟨hp, h | h⟩
            · exact absurd ⟨hp, h⟩ hno
            · omega
        · cases p with
          | checked =>
            have := rowBits_checked (fs := readable m tf) (acc := 0) (by rw [Nat.zero_add]; exact hb) (by decide)
            unfold readable at this
            rw [this]
            simp only [Res.bind_panic, true_iff]
            exact ⟨trivial, .inr (by omega)⟩
          | wrapping =>
            rw [rowBits_wrapping (by decide)]
            simp only [Res.bind_ok]
            constructor
            · intro h; split at h <;> simp at h
            · rintro ⟨hp, -⟩; simp at hp
      · rw [ht]
        simp only [Res.bind_panic, true_iff]
        exact ⟨hp, .inl ⟨hn, hle⟩⟩
    · rw [getZAxes_panic hz]
      simp [hz]
  constructor
  · intro h
    rcases binParse_else (p := p) (m := m) with ⟨w, r, pc, tf, hk⟩ | ⟨e, he⟩
    · exact ⟨w, r, pc, tf, hk, (key w r pc tf hk).1 h⟩
    · rw [he] at h; simp at h
  · rintro ⟨w, r, pc, tf, hk, h⟩
    exact (key w r pc tf hk).2 h

/-- **C26**, for headers whose counts are of reasonable size.  Missing: the headers of `C26_ascii` and
`C26_bintable`, for which the statement is false. -/
theorem C26_partial (p : Profile) (m : ValueMap)
    (h1 : ∀ n : Nat, HasInt m "TFIELDS".toList n → n * 24 < 2 ^ 63) (h2 : ZNaxisFits m)
    (h3 : ∀ w r : Nat, HasInt m "NAXIS1".toList w → HasInt m "NAXIS2".toList r → w * r < 2 ^ 64)
    (h4 : ∀ n : Nat, HasInt m "TFIELDS".toList n → total ((readable m n).map TForm.bits) < 2 ^ 64) :
    Image.parse m ≠ .panic ∧ AsciiTable.parse m ≠ .panic ∧ BinTable.parse p m ≠ .panic := by
  refine ⟨C26_image m, ?_, ?_⟩
  · rw [ne_eq, C26_ascii]
    rintro ⟨w, r, tf, hk, h⟩
    have := h1 tf hk.tfields
    omega
  · rw [ne_eq, C26_bintable]
    rintro ⟨w, r, pc, tf, hk, h | ⟨-, ⟨-, h⟩ | h⟩⟩
    · exact h h2
    · have := h3 w r hk.naxis1 hk.naxis2
      omega
    · have := h4 tf hk.tfields
      omega

/-- **C26, negation.** An ASCII table announcing `2^62` columns makes the parser panic, in all builds. -/
theorem C26_fails (p : Profile) : ¬ C26_statement p := by
  intro h
  refine (h [("BITPIX".toList, .integer 8 none), ("NAXIS".toList, .integer 2 none), ("NAXIS1".toList, .integer 1 none),
    ("NAXIS2".toList, .integer 1 none), ("PCOUNT".toList, .integer 0 none), ("GCOUNT".toList, .integer 1 none),
    ("TFIELDS".toList, .integer (2 ^ 62) none)]).2.1 ?_
  rw [C26_ascii]
  exact ⟨1, 1, 2 ^ 62, ⟨⟨none, rfl⟩, ⟨none, rfl⟩, ⟨none, rfl⟩, ⟨none, rfl⟩, ⟨none, rfl⟩, ⟨none, rfl⟩,
    ⟨none, by decide +kernel⟩⟩, by decide⟩

end Fitsrs

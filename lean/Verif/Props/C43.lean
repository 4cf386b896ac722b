import Verif.Lemmas.Tile
/-
C43 the bytes of GZIP_2 tiles.
-/

namespace Fitsrs
open Spec

/-- Gzip decompresses to the bytes of a tile of `size` bytes with `gz`, and with `gz'` to the same bytes, shuffled. -/
def Shuffled (size : Nat) (gz gz' : Gunzip) : Prop :=
  ∀ bytes, (size ≤ (gz bytes).length → gz' bytes = shuffle ((gz bytes).take size)) ∧
    ((gz bytes).length < size → (gz' bytes).length < size)

/-- **C43**, the full statement, which the code does not meet: the iterator over a GZIP_2 image gives what the iterator
over the GZIP_1 image gives, in any number of calls up to the first `None`, when the tiles hold the same bytes, shuffled by
significance. -/
def C43_statement (ty : Bitpix) : Prop :=
  ∀ (p : Profile) (t : TableData) (h : Header BinTable) (z : TileCompressedImage) (it it' : TileIt)
    (gz gz' : Gunzip) (fuel n : Nat), z.zBitpix = ty → z.zCmpType = .gzip1 →
    TileIt.new p t h z = .ok it → TileIt.new p t h { z with zCmpType := .gzip2 } = .ok it' →
    Shuffled it.buf.length gz gz' → untilNone (it'.run p gz' fuel n) = untilNone (it.run p gz fuel n)

/-- The iterator over the shuffled image in the same state. -/
def TileIt.twin (it : TileIt) : TileIt := { it with cmp := .gzip2, buf := shuffle it.buf }

/-- A state of an iterator over a GZIP_1 image. -/
def TileIt.IsGzip (size : Nat) (it : TileIt) : Prop :=
  it.cmp = .gzip1 ∧ it.ty ≠ .u8 ∧ it.buf.length = size ∧ ∃ k, size = 4 * k

/-- The results of a call on the iterator over the shuffled image and on the other one: the same, with the same state unless the
result is `stop`. -/
inductive Twin (size : Nat) {α : Type} (stop : α) : Option (α × TileIt) → Option (α × TileIt) → Prop
  | none : Twin size stop none none
  | go (a : α) {it : TileIt} : it.IsGzip size → Twin size stop (some (a, it.twin)) (some (a, it))
  | stop (it it' : TileIt) : Twin size stop (some (stop, it')) (some (stop, it))

theorem fill_twin {p : Profile} {gz gz' : Gunzip} {fuel size : Nat} {off : Int} {it : TileIt}
    (hi : it.IsGzip size) (hg : Shuffled size gz gz') :
    Twin size (.ok false) (it.twin.fill p gz' fuel off) (it.fill p gz fuel off) := by
  obtain ⟨h1, h2, h3, k, hk⟩ := hi
  have hl : it.twin.buf.length = size := by
    unfold TileIt.twin
    rw [hk]
    exact shuffle_length (by omega)
  unfold TileIt.fill
  dsimp only
  have er : it.twin.rows = it.rows := rfl
  have en : it.twin.nPixels = it.nPixels := rfl
  have ec : it.twin.cmp = .gzip2 := rfl
  rw [er]
  cases hs : it.rows.data.rd.seekRelative off with
  | mk r rd =>
    cases r with
    | err e => exact .stop _ _
    | panic => exact .go _ (it := { it with rows := { it.rows with data := { it.rows.data with rd } } }) ⟨h1, h2, h3, k, hk⟩
    | ok u =>
      dsimp only
      rw [hl, ec, h1, h3]
      unfold TileIt.decompress
      dsimp only
      obtain ⟨g1, g2⟩ := hg (rd.data.drop rd.pos)
      by_cases hsz : size ≤ (gz (rd.data.drop rd.pos)).length
      · have ht : ((gz (rd.data.drop rd.pos)).take size).length = size := by
          rw [List.length_take]; omega
        have hsl : (shuffle ((gz (rd.data.drop rd.pos)).take size)).length = size := by
          rw [hk]; exact shuffle_length (by rw [← hk]; exact ht)
        rw [if_pos hsz, g1 hsz, hsl, if_pos (Nat.le_refl _)]
        dsimp only
        rw [List.take_of_length_le (by omega)]
        exact .go _ (it := { it with cmp := .gzip1, buf := (gz (rd.data.drop rd.pos)).take size }) ⟨rfl, h2, ht, k, hk⟩
      · have := g2 (by omega)
        rw [if_neg hsz, if_neg (by omega)]
        exact .stop _ _

theorem openTile_twin {p : Profile} {gz gz' : Gunzip} {fuel size : Nat} {vs : List DataValue}
    {it : TileIt} (hi : it.IsGzip size) (hg : Shuffled size gz gz') :
    Twin size (.ok false) (it.twin.openTile p gz' fuel vs) (it.openTile p gz fuel vs) := by
  unfold TileIt.openTile
  have e1 : it.twin.dataIdx = it.dataIdx := rfl
  have e2 : it.twin.zTile = it.zTile := rfl
  have e3 : it.twin.rows = it.rows := rfl
  have e4 : it.twin.kw = it.kw := rfl
  rw [e1, e2]
  dsimp only
  rw [e3, e4]
  split
  · rename_i n _ _
    split
    · rename_i kw _
      split
      · rename_i off _
        exact fill_twin (it := { it with nPixels := n, remaining := n, kw := kw }) hi hg
      · exact .go _ (it := { it with nPixels := n, remaining := n, kw := kw }) hi
    · exact .go _ (it := { it with nPixels := n, remaining := n }) hi
  · exact .go _ hi

theorem load_twin {p : Profile} {gz gz' : Gunzip} {fuel size : Nat} {it : TileIt}
    (hi : it.IsGzip size) (hg : Shuffled size gz gz') :
    Twin size (.ok false) (it.twin.load p gz' fuel) (it.load p gz fuel) := by
  unfold TileIt.load
  have e3 : it.twin.rows = it.rows := rfl
  rw [e3]
  split
  · exact .none
  · rename_i vs rows _
    exact openTile_twin (it := { it with rows }) hi hg
  · exact .stop _ _
  · exact .stop _ _
  · rename_i rows _
    exact .go _ (it := { it with rows }) hi

theorem pixel_twin {p : Profile} {size : Nat} {it : TileIt} (hi : it.IsGzip size) :
    it.twin.pixel p = ((it.pixel p).1, (it.pixel p).2.twin) ∧ (it.pixel p).2.IsGzip size := by
  obtain ⟨h1, h2, h3, k, hk⟩ := hi
  unfold TileIt.pixel
  have e1 : it.twin.nPixels = it.nPixels := rfl
  have e2 : it.twin.remaining = it.remaining := rfl
  have e3 : it.twin.kw = it.kw := rfl
  have e4 : ∀ i, TileIt.rawValue it.twin.ty it.twin.cmp it.twin.buf i = TileIt.rawValue it.ty it.cmp it.buf i := by
    intro i
    rw [h1]
    exact rawValue_shuffle (k := k) h2 (by omega) i
  rw [e1, e2, e3]
  simp only [e4]
  split
  · split
    · exact ⟨rfl, h1, h2, h3, k, hk⟩
    · exact ⟨rfl, h1, h2, h3, k, hk⟩
  · exact ⟨rfl, h1, h2, h3, k, hk⟩

theorem next_twin {p : Profile} {gz gz' : Gunzip} {fuel size : Nat} {it : TileIt}
    (hi : it.IsGzip size) (hg : Shuffled size gz gz') :
    Twin size (.ok none) (it.twin.next p gz' fuel) (it.next p gz fuel) := by
  have pix : ∀ {it : TileIt}, it.IsGzip size → Twin size (.ok none) (some (it.twin.pixel p)) (some (it.pixel p)) := by
    intro it hi
    obtain ⟨h1, h2⟩ := pixel_twin (p := p) hi
    rw [h1]
    exact .go _ h2
  unfold TileIt.next
  have e2 : it.twin.remaining = it.remaining := rfl
  rw [e2]
  by_cases h0 : it.remaining = 0
  · rw [if_pos h0, if_pos h0]
    have hl := load_twin (p := p) (fuel := fuel) hi hg
    generalize it.twin.load p gz' fuel = x at hl ⊢
    generalize it.load p gz fuel = y at hl ⊢
    cases hl with
    | none => exact .none
    | stop it it' => exact .stop _ _
    | go a hi =>
      cases a with
      | err e => exact .stop _ _
      | panic => exact .go _ hi
      | ok b =>
        cases b with
        | false => exact .stop _ _
        | true => exact pix hi
  · rw [if_neg h0, if_neg h0]
    exact pix hi

theorem run_twin {p : Profile} {gz gz' : Gunzip} {fuel size : Nat} (hg : Shuffled size gz gz') (n : Nat)
    {it : TileIt} (hi : it.IsGzip size) : untilNone (it.twin.run p gz' fuel n) = untilNone (it.run p gz fuel n) := by
  induction n generalizing it with
  | zero => rfl
  | succ n ih =>
    have hn := next_twin (p := p) (fuel := fuel) hi hg
    rw [TileIt.run, TileIt.run]
    generalize it.twin.next p gz' fuel = x at hn ⊢
    generalize it.next p gz fuel = y at hn ⊢
    cases hn with
    | none => rfl
    | stop it it' => rfl
    | go a hi =>
      dsimp only
      rcases a with (_ | v) | e | _
      · rfl
      all_goals
        show _ :: untilNone _ = _ :: untilNone _
        rw [ih hi]

theorem umul4 {p : Profile} {n m : Nat} (h : umul p n 4 = .ok m) : ∃ k, m = 4 * k := by
  unfold umul at h
  split at h
  · cases h; exact ⟨n, by omega⟩
  · split at h
    · cases h
    · cases h
      refine ⟨n * 4 % two64 / 4, ?_⟩
      unfold two64
      omega

theorem shuffle_zeros (k : Nat) : shuffle (List.replicate (4 * k) 0) = List.replicate (4 * k) 0 := by
  refine List.ext_getElem? fun i => ?_
  by_cases hi : i < 4 * k
  · have hk : 0 < k := by omega
    have e : i = i / k * k + i % k := by rw [Nat.mul_comm]; exact (Nat.div_add_mod i k).symm
    have hq : i / k < 4 := (Nat.div_lt_iff_lt_mul hk).2 hi
    have hr := Nat.mod_lt i hk
    rw [e, shuffle_get (by simp) hr hq, ← e, List.getElem?_replicate, List.getElem?_replicate, if_pos hi, if_pos (by omega)]
  · rw [List.getElem?_eq_none (by rw [shuffle_length (k := k) (by simp)]; omega), List.getElem?_eq_none (by simp; omega)]

/-- **C43, partial**: 16- and 32-bit integers and floats.  Missing: 8-bit pixels, for which it is false. -/
theorem C43_partial {ty : Bitpix} (ht : ty ≠ .u8) : C43_statement ty := by
  intro p t h z it it' gz gz' fuel n hz hc h1 h2 hg
  unfold TileIt.new at h1 h2
  obtain ⟨a, ha, h1⟩ := Res.bind_eq_ok.1 h1
  obtain ⟨b, hb, h1⟩ := Res.bind_eq_ok.1 h1
  obtain ⟨a', ha', h2⟩ := Res.bind_eq_ok.1 h2
  obtain ⟨b', hb', h2⟩ := Res.bind_eq_ok.1 h2
  dsimp only at ha'
  rw [ha, Res.ok.injEq] at ha'
  subst ha'
  rw [hb, Res.ok.injEq] at hb'
  subst hb'
  obtain ⟨k, hk⟩ := umul4 hb
  by_cases hbig : 2 ^ 63 ≤ b
  · rw [if_pos hbig] at h1; cases h1
  · rw [if_neg hbig] at h1 h2
    obtain ⟨kw, hkw, h1⟩ := Res.bind_eq_ok.1 h1
    obtain ⟨kw', hkw', h2⟩ := Res.bind_eq_ok.1 h2
    have ekw : kw' = kw := by
      have : FloatKw.new h { z with zCmpType := .gzip2 } = FloatKw.new h z := rfl
      dsimp only at hkw'
      rw [this] at hkw'
      rw [hkw, Res.ok.injEq] at hkw'
      exact hkw'.symm
    subst ekw
    rw [Res.ok.injEq] at h1 h2
    have hi : it.IsGzip b := by
      rw [← h1]
      exact ⟨hc, by rw [hz]; exact ht, by simp, k, hk⟩
    have hb : it.buf.length = b := hi.2.2.1
    rw [hb] at hg
    rw [← run_twin hg n hi]
    congr 2
    rw [← h1, ← h2]
    unfold TileIt.twin
    dsimp only
    rw [hk, shuffle_zeros]

/-- A table of one row, with the descriptor of an empty array. -/
def gzipTable : BinTable :=
  { bitpix := .u8, naxis1 := 8, naxis2 := 1, tfields := 1, theap := 8, tforms := [.P .B]
    ttypes := [some "COMPRESSED_DATA".toList], pcount := 0, gcount := 1, zImage := none }

/-- An image of one tile of two pixels. -/
def gzipImage (ty : Bitpix) : TileCompressedImage :=
  { zCmpType := .gzip1, zBitpix := ty, zNaxisn := [2], zTilen := [2], zQuantiz := none, zDither0 := none
    dataCompressedIdx := 0 }

/-- The state of the table just opened. -/
def gzipState : TableData :=
  { rd := ⟨List.replicate 8 0, 0⟩, inHeap := none, cols := [0], offsets := [0], ctx := gzipTable, col := 0, item := 0
    byteOffset := 0, mainSize := 8, startPos := 0, seekFirst := false, row := 0, heap := true }

/-- The iterator over the image, given how it is compressed. -/
def gzipIt (ty : Bitpix) (cmp : ZCmpType) : TileIt :=
  { ty, rows := TableRows.new (gzipState.readTheHeap false), buf := List.replicate 8 0, nPixels := 0, remaining := 0
    kw := none, zTile := [2], cmp, dataIdx := 0 }

/-- The bytes of the pixels 258 and 3. -/
def gzipBytes : List UInt8 := [0, 0, 1, 2, 0, 0, 0, 3]

theorem gzip_shuffled : Shuffled 8 (.of fun _ => gzipBytes) (.of fun _ => shuffle gzipBytes) := by
  intro b
  refine ⟨fun _ => rfl, fun h => absurd (show 8 < 8 from h) (by decide)⟩

example (p : Profile) : untilNone ((gzipIt .i16 .gzip2).run p (.of fun _ => shuffle gzipBytes) 5 3) =
    [some (.ok (some (.int 258))), some (.ok (some (.int 3))), some (.ok none)] := by
  rw [C43_partial (ty := .i16) (by decide) p gzipState ⟨[], [], gzipTable⟩ (gzipImage .i16) (gzipIt .i16 .gzip1)
    (gzipIt .i16 .gzip2) (.of fun _ => gzipBytes) _ 5 3 rfl rfl (by cases p <;> rfl) (by cases p <;> rfl) gzip_shuffled]
  cases p <;> decide +kernel

/-- **C43 is false of 8-bit pixels**: the bytes are not put back in order. -/
theorem C43_fails : ¬ C43_statement .u8 := by
  intro h
  have := h .checked gzipState ⟨[], [], gzipTable⟩ (gzipImage .u8) (gzipIt .u8 .gzip1) (gzipIt .u8 .gzip2)
    (.of fun _ => gzipBytes) (.of fun _ => shuffle gzipBytes) 5 1 rfl rfl (by rfl) (by rfl) gzip_shuffled
  revert this
  decide +kernel

end Fitsrs

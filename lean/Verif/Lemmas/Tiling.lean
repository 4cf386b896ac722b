import Verif.Lemmas.Table
import Verif.Lemmas.Tile
/-
Iteration over the pixels of a tile-compressed image.
-/

namespace Fitsrs
open Spec TableData

/-- Tiles of `n` pixels, the first `m` of which can be read: where they are in the heap, the bytes decompressed, the
integers in these bytes, the keywords for each tile and the pixels. -/
structure Tiling (T : Tab) (gz : Gunzip) (fuel : Nat) (it0 : TileIt) where
  n : Nat
  m : Nat
  off : Nat → Nat
  bufs : Nat → List UInt8
  raw : Nat → List Int
  kws : Nat → Option FloatKw
  pix : Nat → Int → TilePixel
  mle : m ≤ T.x.naxis2
  prod : TileIt.product T.p it0.zTile 1 = .ok n
  npos : 0 < n
  nlt : n < two64
  offset : ∀ k < T.x.naxis2, TileIt.arrayOffset (T.rowAt k) it0.dataIdx = .ok (off k)
  inside : ∀ k < T.x.naxis2, T.start + T.x.theap + off k < 2 ^ 60
  dec : ∀ k < m, TileIt.decompress T.p gz fuel it0.cmp n (4 * n)
    (T.data.drop (T.start + T.x.theap + off k)) = some (.ok (bufs k))
  bufLen : ∀ k < m, (bufs k).length = 4 * n
  rawLen : ∀ k < m, (raw k).length = n
  value : ∀ k < m, ∀ j v, (raw k)[j]? = some v → TileIt.rawValue it0.ty it0.cmp (bufs k) j = .ok v
  kw : ∀ k < T.x.naxis2, TileIt.tileKw T.p (k + 1) (T.rowAt k) (kws k) = .ok (kws (k + 1))
  pixel : ∀ k < m, ∀ v ∈ raw k, TileIt.toPixel (kws (k + 1)) v = .ok (pix k v, kws (k + 1))

namespace Tiling

variable {T : Tab} {gz : Gunzip} {fuel : Nat} {it0 : TileIt}

/-- `k` tiles have been given. -/
structure Before (S : Tiling T gz fuel it0) (k : Nat) (it : TileIt) : Prop where
  ty : it.ty = it0.ty
  zTile : it.zTile = it0.zTile
  cmp : it.cmp = it0.cmp
  idx : it.dataIdx = it0.dataIdx
  remaining : it.remaining = 0
  row : it.rows.row = k
  state : T.State k (T.rowAt k) it.rows.data
  buf : it.buf.length = 4 * S.n
  kw : it.kw = S.kws k

/-- `j` pixels of tile `k` have been given. -/
structure Mid (S : Tiling T gz fuel it0) (k j : Nat) (it : TileIt) : Prop where
  ty : it.ty = it0.ty
  zTile : it.zTile = it0.zTile
  cmp : it.cmp = it0.cmp
  idx : it.dataIdx = it0.dataIdx
  tile : k < S.m
  le : j ≤ S.n
  nPixels : it.nPixels = S.n
  remaining : it.remaining = S.n - j
  row : it.rows.row = k + 1
  state : T.State (k + 1) (T.rowAt (k + 1)) it.rows.data
  buf : it.buf = S.bufs k
  kw : it.kw = S.kws (k + 1)

theorem Mid.before {S : Tiling T gz fuel it0} {k : Nat} {it : TileIt} (h : S.Mid k S.n it) : S.Before (k + 1) it :=
  ⟨h.ty, h.zTile, h.cmp, h.idx, by rw [h.remaining]; omega, h.row, h.state, by rw [h.buf]; exact S.bufLen k h.tile, h.kw⟩

/-- Where the reader is at the start of a row. -/
theorem state_pos (hT : T.Ok) (hc : T.cols = List.range T.x.tforms.length) {k : Nat} {t : TableData}
    (h : T.State k (T.rowAt k) t) :
    t.rd = ⟨T.data, T.start + k * T.x.naxis1⟩ ∧ t.ctx = T.x := by
  rcases h with ⟨h1, -, k', i, -, rfl⟩ | ⟨h1, k', c, i, hk', hi, hat, hcur⟩
  · subst h1
    refine ⟨?_, rfl⟩
    unfold Tab.main
    dsimp only
    rw [Nat.mul_comm]
  · -- the whole row is left, so the first cell has not been read
    have hne := hT.readable.nonempty
    have h0 : 0 < T.cols.length := List.length_pos_iff.2 hne
    have hval : ∀ c ∈ T.cols, 0 < (cellValues T.heap T.x T.unit k c).length := fun c hm => hT.cell_pos h1 hm
    have hrow : T.rowAt k = T.cols.flatMap (cellValues T.heap T.x T.unit k) := by
      unfold Tab.rowAt rowValues
      rw [if_pos h1]
    rw [hrow] at hcur
    have hlt : k' < T.cols.length := (List.getElem?_eq_some_iff.1 hk').1
    have hcc : T.cols[k'] = c := (List.getElem?_eq_some_iff.1 hk').2
    have hsplit : T.cols = T.cols.take k' ++ c :: T.cols.drop (k' + 1) := by
      rw [← hcc, ← List.drop_eq_getElem_cons hlt, List.take_append_drop]
    have hlen := congrArg List.length hcur
    rw [List.length_append, List.length_drop] at hlen
    conv at hlen => lhs; rw [hsplit]
    rw [List.flatMap_append, List.flatMap_cons, List.length_append, List.length_append] at hlen
    have hz : ((T.cols.take k').flatMap (cellValues T.heap T.x T.unit k)).length = 0 ∧ i = 0 := by omega
    have hk0 : k' = 0 := by
      by_cases hk0 : k' = 0
      · exact hk0
      · exfalso
        have hm : T.cols[0] ∈ T.cols.take k' := by
          rw [List.mem_take_iff_getElem]
          exact ⟨0, by omega, rfl⟩
        have h2 := hval _ (List.getElem_mem h0)
        have h3 := hz.1
        rw [List.length_eq_zero_iff, List.flatMap_eq_nil_iff] at h3
        have := h3 _ hm
        rw [this] at h2
        exact absurd h2 (by decide)
    subst hk0
    rw [hz.2] at hat
    have hc0 : c = 0 := by
      rw [← hcc]
      simp [hc]
    have hv : c < T.x.tforms.length := hT.readable.valid _ (mem_cols hk')
    rw [Tab.At_zero hv] at hat
    subst hat
    refine ⟨?_, rfl⟩
    unfold Tab.main Tab.cellStart
    dsimp only
    rw [hc0]
    rfl

theorem tileOffset_ok {p : Profile} {k naxis1 theap off : Nat} (h1 : k * naxis1 < 2 ^ 60) (h2 : theap + off < 2 ^ 60) :
    TileIt.tileOffset p k naxis1 theap off = .ok ((theap : Int) + off - (k * naxis1 : Nat)) := by
  unfold TileIt.tileOffset
  rw [umul_ok (by unfold two64; omega), Res.bind_ok]
  unfold TableData.heapOffset
  rw [asI64_lt (by omega), i64op_ok (by omega) (by omega), Res.bind_ok, asI64_lt (by omega), i64op_ok (by omega) (by omega),
    Res.bind_ok, asI64_lt (by omega), i64op_ok (by omega) (by omega)]
  congr 1
  omega

/-- The next tile. -/
theorem load_ok (S : Tiling T gz fuel it0) (hT : T.Ok) (hc : T.cols = List.range T.x.tforms.length)
    (hmain : T.start + T.x.naxis1 * T.x.naxis2 ≤ T.data.length)
    (hf : ∀ r < T.x.naxis2, (rowValues T.heap T.x T.unit T.cols r).length < fuel) {k : Nat} {it : TileIt}
    (hk : k < S.m) (h : S.Before k it) : ∃ it', it.load T.p gz fuel = some (.ok true, it') ∧ S.Mid k 0 it' := by
  have hkm := hk
  replace hk : k < T.x.naxis2 := Nat.lt_of_lt_of_le hk S.mle
  have e : T.rowAt k = rowValues T.heap T.x T.unit T.cols k := if_pos hk
  obtain ⟨t', h1, h2⟩ := collect_row (acc := []) hT hmain hk h.state (fuel := fuel) (by rw [e]; exact hf k hk)
  rw [List.nil_append] at h1
  have hn : it.rows.next T.p fuel = some (.ok (some (T.rowAt k)), ⟨t', k + 1⟩) := by
    unfold TableRows.next
    rw [h.row, h1]
  obtain ⟨hrd, hctx⟩ := state_pos hT hc h2
  have hmul : (k + 1) * T.x.naxis1 ≤ T.x.naxis1 * T.x.naxis2 := by
    rw [Nat.mul_comm]; exact Nat.mul_le_mul_left _ hk
  have hsz := hT.readable.size
  have hin := S.inside k hk
  have hs : (Reader.mk T.data (T.start + (k + 1) * T.x.naxis1)).seekRelative
      ((T.x.theap : Int) + S.off k - ((k + 1) * T.x.naxis1 : Nat)) =
      (.ok (), ⟨T.data, T.start + T.x.theap + S.off k⟩) := by
    exact seekRelative_nat (T.start + T.x.theap + S.off k) (by dsimp only; omega) (by unfold two64; omega)
  refine ⟨{ it with rows := ⟨t', k + 1⟩, nPixels := S.n, remaining := S.n, kw := S.kws (k + 1), buf := S.bufs k }, ?_, ?_⟩
  · unfold TileIt.load
    rw [hn]
    dsimp only
    unfold TileIt.openTile
    dsimp only
    rw [h.idx, S.offset k hk, h.zTile, S.prod]
    dsimp only
    rw [h.kw, S.kw k hk]
    dsimp only
    rw [hctx, tileOffset_ok (by omega) (by omega)]
    dsimp only
    unfold TileIt.fill
    dsimp only
    rw [hrd, hs]
    dsimp only
    rw [h.cmp, h.buf, S.dec k hkm]
  · exact ⟨h.ty, h.zTile, h.cmp, h.idx, hkm, Nat.zero_le _, rfl, rfl, rfl, h2, rfl, rfl⟩

/-- A pixel of a tile. -/
theorem pixel_ok (S : Tiling T gz fuel it0) {k j : Nat} {it : TileIt} (h : S.Mid k j it) {v : Int}
    (hv : (S.raw k)[j]? = some v) :
    ∃ it', it.pixel T.p = (.ok (some (S.pix k v)), it') ∧ S.Mid k (j + 1) it' := by
  have hj : j < S.n := by
    have := (List.getElem?_eq_some_iff.1 hv).1
    rw [S.rawLen k h.tile] at this
    exact this
  have hlt := S.nlt
  refine ⟨{ it with kw := S.kws (k + 1), remaining := S.n - (j + 1) }, ?_, ?_⟩
  · unfold TileIt.pixel
    rw [h.nPixels, h.remaining, usub_ok (by omega), Res.bind_ok, show S.n - (S.n - j) = j by omega, h.ty, h.cmp, h.buf,
      S.value k h.tile j v hv, Res.bind_ok, h.kw, S.pixel k h.tile v (List.mem_of_getElem? hv)]
    dsimp only
    rw [usub_ok (by omega)]
    dsimp only
    rw [show S.n - j - 1 = S.n - (j + 1) by omega]
  · exact ⟨h.ty, h.zTile, h.cmp, h.idx, h.tile, hj, h.nPixels, rfl, h.row, h.state, h.buf, rfl⟩

/-- The pixels of a tile. -/
def tile (S : Tiling T gz fuel it0) (k : Nat) : List TilePixel := (S.raw k).map (S.pix k)

/-- The pixels from tile `k` on. -/
def rest (S : Tiling T gz fuel it0) (k : Nat) : List TilePixel := ((List.range S.m).drop k).flatMap S.tile

theorem rest_eq (S : Tiling T gz fuel it0) {k : Nat} (hk : k < S.m) : S.rest k = S.tile k ++ S.rest (k + 1) := by
  unfold rest
  rw [List.drop_eq_getElem_cons (by simpa using hk), List.flatMap_cons, List.getElem_range]

theorem rest_end (S : Tiling T gz fuel it0) {k : Nat} (hk : S.m ≤ k) : S.rest k = [] := by
  unfold rest
  rw [List.drop_eq_nil_of_le (by simpa using hk)]
  rfl

/-- A call in the middle of a tile. -/
theorem next_mid (S : Tiling T gz fuel it0) {k j : Nat} {it : TileIt} (h : S.Mid k j it) (hj : j < S.n) :
    ∃ v it', (S.tile k)[j]? = some v ∧ it.next T.p gz fuel = some (.ok (some v), it') ∧ S.Mid k (j + 1) it' := by
  have hl : j < (S.raw k).length := by rw [S.rawLen k h.tile]; exact hj
  obtain ⟨it', h1, h2⟩ := S.pixel_ok h (List.getElem?_eq_getElem hl)
  refine ⟨S.pix k ((S.raw k)[j]), it', ?_, ?_, h2⟩
  · unfold tile
    rw [List.getElem?_map, List.getElem?_eq_getElem hl]
    rfl
  · unfold TileIt.next
    rw [if_neg (by rw [h.remaining]; omega), h1]

/-- A call between two tiles. -/
theorem next_before (S : Tiling T gz fuel it0) (hT : T.Ok) (hc : T.cols = List.range T.x.tforms.length)
    (hmain : T.start + T.x.naxis1 * T.x.naxis2 ≤ T.data.length)
    (hf : ∀ r < T.x.naxis2, (rowValues T.heap T.x T.unit T.cols r).length < fuel) {k : Nat} {it : TileIt}
    (hk : k < S.m) (h : S.Before k it) :
    ∃ v it', (S.tile k)[0]? = some v ∧ it.next T.p gz fuel = some (.ok (some v), it') ∧ S.Mid k 1 it' := by
  obtain ⟨it1, h1, h2⟩ := S.load_ok hT hc hmain hf hk h
  have hl : 0 < (S.raw k).length := by rw [S.rawLen k hk]; exact S.npos
  obtain ⟨it', h3, h4⟩ := S.pixel_ok h2 (List.getElem?_eq_getElem hl)
  refine ⟨S.pix k ((S.raw k)[0]), it', ?_, ?_, h4⟩
  · unfold tile
    rw [List.getElem?_map, List.getElem?_eq_getElem hl]
    rfl
  · unfold TileIt.next
    rw [if_pos h.remaining, h1]
    dsimp only
    rw [h3]

/-- A call after the last tile. -/
theorem next_end (S : Tiling T gz fuel it0) (hfuel : 0 < fuel) {it : TileIt} (h : S.Before T.x.naxis2 it) :
    it.next T.p gz fuel = some (.ok none, it) := by
  have e : T.rowAt T.x.naxis2 = [] := if_neg (Nat.lt_irrefl _)
  have hs := h.state
  rw [e] at hs
  have hn : it.rows.next T.p fuel = some (.ok none, it.rows) := by
    unfold TableRows.next
    rw [h.row, collect_end hs hfuel]
    dsimp only
    rw [← h.row]
  unfold TileIt.next
  rw [if_pos h.remaining]
  unfold TileIt.load
  rw [hn]

/-- A call before a tile that cannot be decompressed. -/
theorem next_stop (S : Tiling T gz fuel it0) (hT : T.Ok) (hc : T.cols = List.range T.x.tforms.length)
    (hmain : T.start + T.x.naxis1 * T.x.naxis2 ≤ T.data.length)
    (hf : ∀ r < T.x.naxis2, (rowValues T.heap T.x T.unit T.cols r).length < fuel) {k : Nat} {it : TileIt}
    (hk : k < T.x.naxis2) (h : S.Before k it) {e : Err} (hd : TileIt.decompress T.p gz fuel it0.cmp S.n (4 * S.n)
      (T.data.drop (T.start + T.x.theap + S.off k)) = some (.err e)) :
    ∃ it', it.next T.p gz fuel = some (.ok none, it') := by
  have e : T.rowAt k = rowValues T.heap T.x T.unit T.cols k := if_pos hk
  obtain ⟨t', h1, h2⟩ := collect_row (acc := []) hT hmain hk h.state (fuel := fuel) (by rw [e]; exact hf k hk)
  rw [List.nil_append] at h1
  have hn : it.rows.next T.p fuel = some (.ok (some (T.rowAt k)), ⟨t', k + 1⟩) := by
    unfold TableRows.next
    rw [h.row, h1]
  obtain ⟨hrd, hctx⟩ := state_pos hT hc h2
  have hmul : (k + 1) * T.x.naxis1 ≤ T.x.naxis1 * T.x.naxis2 := by
    rw [Nat.mul_comm]; exact Nat.mul_le_mul_left _ hk
  have hsz := hT.readable.size
  have hin := S.inside k hk
  have hs : (Reader.mk T.data (T.start + (k + 1) * T.x.naxis1)).seekRelative
      ((T.x.theap : Int) + S.off k - ((k + 1) * T.x.naxis1 : Nat)) =
      (.ok (), ⟨T.data, T.start + T.x.theap + S.off k⟩) := by
    exact seekRelative_nat (T.start + T.x.theap + S.off k) (by dsimp only; omega) (by unfold two64; omega)
  unfold TileIt.next
  rw [if_pos h.remaining]
  unfold TileIt.load
  rw [hn]
  dsimp only
  unfold TileIt.openTile
  dsimp only
  rw [h.idx, S.offset k hk, h.zTile, S.prod]
  dsimp only
  rw [h.kw, S.kw k hk]
  dsimp only
  rw [hctx, tileOffset_ok (by omega) (by omega)]
  dsimp only
  unfold TileIt.fill
  dsimp only
  rw [hrd, hs]
  dsimp only
  rw [h.cmp, h.buf, hd]
  exact ⟨_, rfl⟩

/-- The iterator still has to give the pixels `vs`. -/
def Left (S : Tiling T gz fuel it0) (vs : List TilePixel) (it : TileIt) : Prop :=
  (∃ k, k ≤ S.m ∧ S.Before k it ∧ vs = S.rest k) ∨
  (∃ k j, j < S.n ∧ S.Mid k j it ∧ vs = (S.tile k).drop j ++ S.rest (k + 1))

theorem tile_length (S : Tiling T gz fuel it0) {k : Nat} (hk : k < S.m) : (S.tile k).length = S.n := by
  unfold tile
  rw [List.length_map, S.rawLen k hk]

theorem left_mid (S : Tiling T gz fuel it0) {k j : Nat} {it : TileIt} (h : S.Mid k j it) :
    S.Left ((S.tile k).drop j ++ S.rest (k + 1)) it := by
  by_cases hj : j < S.n
  · exact .inr ⟨k, j, hj, h, rfl⟩
  · have hl := S.tile_length h.tile
    have hle := h.le
    have hjn : j = S.n := by omega
    subst hjn
    refine .inl ⟨k + 1, h.tile, h.before, ?_⟩
    rw [List.drop_eq_nil_of_le (by omega), List.nil_append]

/-- A call that gives a pixel. -/
theorem Left.cons {S : Tiling T gz fuel it0} (hT : T.Ok) (hc : T.cols = List.range T.x.tforms.length)
    (hmain : T.start + T.x.naxis1 * T.x.naxis2 ≤ T.data.length)
    (hf : ∀ r < T.x.naxis2, (rowValues T.heap T.x T.unit T.cols r).length < fuel)
    {x : TilePixel} {vs : List TilePixel} {it : TileIt} (h : S.Left (x :: vs) it) :
    ∃ it', it.next T.p gz fuel = some (.ok (some x), it') ∧ S.Left vs it' := by
  rcases h with ⟨k, hk, hb, e⟩ | ⟨k, j, hj, hm, e⟩
  · by_cases hlt : k < S.m
    · obtain ⟨v, it', h1, h2, h3⟩ := S.next_before hT hc hmain hf hlt hb
      have h0 := (List.getElem?_eq_some_iff.1 h1).1
      have h1' := (List.getElem?_eq_some_iff.1 h1).2
      have ht : S.tile k = v :: (S.tile k).drop 1 := by
        conv => lhs; rw [← List.drop_zero (l := S.tile k), List.drop_eq_getElem_cons h0, h1']
      rw [S.rest_eq hlt, ht, List.cons_append] at e
      obtain ⟨rfl, rfl⟩ := List.cons.inj e
      exact ⟨it', h2, S.left_mid h3⟩
    · rw [S.rest_end (by omega)] at e
      cases e
  · obtain ⟨v, it', h1, h2, h3⟩ := S.next_mid hm hj
    have h0 := (List.getElem?_eq_some_iff.1 h1).1
    have h1' := (List.getElem?_eq_some_iff.1 h1).2
    rw [List.drop_eq_getElem_cons h0, h1', List.cons_append] at e
    obtain ⟨rfl, rfl⟩ := List.cons.inj e
    exact ⟨it', h2, S.left_mid h3⟩

/-- No pixel is left. -/
theorem Left.nil {S : Tiling T gz fuel it0} {it : TileIt} (h : S.Left [] it) : S.Before S.m it := by
  rcases h with ⟨k, hk, hb, e⟩ | ⟨k, j, hj, hm, e⟩
  · by_cases hlt : k < S.m
    · exfalso
      have := congrArg List.length e
      rw [S.rest_eq hlt, List.length_append, S.tile_length hlt] at this
      have hp := S.npos
      rw [List.length_nil] at this
      omega
    · have : k = S.m := by omega
      exact this ▸ hb
  · exfalso
    have := congrArg List.length e
    rw [List.length_append, List.length_drop, S.tile_length hm.tile, List.length_nil] at this
    omega

/-- One call. -/
theorem Left.step {S : Tiling T gz fuel it0} (hT : T.Ok) (hc : T.cols = List.range T.x.tforms.length)
    (hmain : T.start + T.x.naxis1 * T.x.naxis2 ≤ T.data.length)
    (hf : ∀ r < T.x.naxis2, (rowValues T.heap T.x T.unit T.cols r).length < fuel) (hfuel : 0 < fuel)
    (hm : S.m = T.x.naxis2) {vs : List TilePixel} {it : TileIt} (h : S.Left vs it) :
    ∃ it', it.next T.p gz fuel = some (.ok vs.head?, it') ∧ S.Left vs.tail it' := by
  cases vs with
  | nil => exact ⟨it, S.next_end hfuel (hm ▸ h.nil), h⟩
  | cons v vs => exact h.cons hT hc hmain hf

/-- All the calls. -/
theorem Left.run {S : Tiling T gz fuel it0} (hT : T.Ok) (hc : T.cols = List.range T.x.tforms.length)
    (hmain : T.start + T.x.naxis1 * T.x.naxis2 ≤ T.data.length)
    (hf : ∀ r < T.x.naxis2, (rowValues T.heap T.x T.unit T.cols r).length < fuel) (hfuel : 0 < fuel)
    (hm : S.m = T.x.naxis2) (n : Nat) {vs : List TilePixel} {it : TileIt} (h : S.Left vs it) :
    it.run T.p gz fuel n = tileScan vs n := by
  induction n generalizing vs it with
  | zero => simp [TileIt.run, tileScan]
  | succ n ih =>
    obtain ⟨it', h1, h2⟩ := h.step hT hc hmain hf hfuel hm
    rw [TileIt.run, h1]
    dsimp only
    rw [ih h2]
    cases vs with
    | nil => simp [tileScan, List.replicate_succ]
    | cons v vs => simp [tileScan]

/-- The calls up to the one that finds a tile that cannot be decompressed. -/
theorem Left.run_stop {S : Tiling T gz fuel it0} (hT : T.Ok) (hc : T.cols = List.range T.x.tforms.length)
    (hmain : T.start + T.x.naxis1 * T.x.naxis2 ≤ T.data.length)
    (hf : ∀ r < T.x.naxis2, (rowValues T.heap T.x T.unit T.cols r).length < fuel)
    (hm : S.m < T.x.naxis2) {e : Err} (hd : TileIt.decompress T.p gz fuel it0.cmp S.n (4 * S.n)
      (T.data.drop (T.start + T.x.theap + S.off S.m)) = some (.err e))
    (n : Nat) {vs : List TilePixel} {it : TileIt} (h : S.Left vs it) (hn : n ≤ vs.length + 1) :
    it.run T.p gz fuel n = tileScan vs n := by
  induction n generalizing vs it with
  | zero => simp [TileIt.run, tileScan]
  | succ n ih =>
    cases vs with
    | nil =>
      obtain ⟨it', h1⟩ := S.next_stop hT hc hmain hf hm h.nil hd
      rw [TileIt.run, h1]
      dsimp only
      rw [List.length_nil] at hn
      have : n = 0 := by omega
      subst this
      simp [TileIt.run, tileScan]
    | cons v vs =>
      obtain ⟨it', h1, h2⟩ := h.cons hT hc hmain hf
      rw [TileIt.run, h1]
      dsimp only
      rw [ih h2 (by rw [List.length_cons] at hn; omega)]
      simp [tileScan]

/-- The reader is in the rows of the table. -/
theorem Left.place {S : Tiling T gz fuel it0} (hT : T.Ok) (hc : T.cols = List.range T.x.tforms.length)
    {vs : List TilePixel} {it : TileIt} (h : S.Left vs it) :
    it.rows.data.rd.data = T.data ∧ T.start ≤ it.rows.data.rd.pos ∧
      it.rows.data.rd.pos ≤ T.start + T.x.naxis1 * T.x.naxis2 := by
  have key : ∀ k, k ≤ T.x.naxis2 → it.rows.data.rd = ⟨T.data, T.start + k * T.x.naxis1⟩ →
      it.rows.data.rd.data = T.data ∧ T.start ≤ it.rows.data.rd.pos ∧
        it.rows.data.rd.pos ≤ T.start + T.x.naxis1 * T.x.naxis2 := by
    intro k hk e
    rw [e]
    have := Nat.mul_le_mul_right T.x.naxis1 hk
    rw [Nat.mul_comm T.x.naxis2] at this
    exact ⟨rfl, Nat.le_add_right _ _, Nat.add_le_add_left this _⟩
  rcases h with ⟨k, hk, hb, -⟩ | ⟨k, j, hj, hm, -⟩
  · exact key k (Nat.le_trans hk S.mle) (state_pos hT hc hb.state).1
  · exact key (k + 1) (Nat.le_trans hm.tile S.mle) (state_pos hT hc hm.state).1

/-- The state after `k` tiles and `j + 1` pixels. -/
theorem after_mid (S : Tiling T gz fuel it0) (hT : T.Ok) (hc : T.cols = List.range T.x.tforms.length)
    (hmain : T.start + T.x.naxis1 * T.x.naxis2 ≤ T.data.length)
    (hf : ∀ r < T.x.naxis2, (rowValues T.heap T.x T.unit T.cols r).length < fuel) (m : Nat) {it : TileIt}
    {k j : Nat} (h : (j = 0 ∧ S.Before k it) ∨ (0 < j ∧ S.Mid k j it))
    {k' j' : Nat} (hj' : j' < S.n) (hk' : k' < S.m) (hm : k * S.n + j + m = k' * S.n + j' + 1) (hm0 : 0 < m) :
    ∃ it', it.after T.p gz fuel m = some it' ∧ S.Mid k' (j' + 1) it' := by
  induction m generalizing it k j with
  | zero => exact absurd hm0 (Nat.lt_irrefl _)
  | succ m ih =>
    -- one call gives a state in the middle of a tile
    have key : ∃ v it1 k1 j1, it.next T.p gz fuel = some (.ok (some v), it1) ∧ S.Mid k1 (j1 + 1) it1 ∧
        k1 * S.n + j1 = k * S.n + j ∧ j1 < S.n := by
      have hnp := S.npos
      rcases h with ⟨rfl, h⟩ | ⟨hj, h⟩
      · have hk : k < S.m := by
          have : k * S.n < (k' + 1) * S.n := by rw [Nat.add_mul]; omega
          have := Nat.lt_of_mul_lt_mul_right this
          omega
        obtain ⟨v, it1, -, h2, h3⟩ := S.next_before hT hc hmain hf hk h
        exact ⟨v, it1, k, 0, h2, h3, rfl, hnp⟩
      · by_cases hjn : j < S.n
        · obtain ⟨v, it1, -, h2, h3⟩ := S.next_mid h hjn
          exact ⟨v, it1, k, j, h2, h3, rfl, hjn⟩
        · have hle := h.le
          have : j = S.n := by omega
          subst this
          have hk : k + 1 < S.m := by
            have : (k + 1) * S.n < (k' + 1) * S.n := by rw [Nat.add_mul, Nat.add_mul k']; omega
            have := Nat.lt_of_mul_lt_mul_right this
            omega
          obtain ⟨v, it1, -, h2, h3⟩ := S.next_before hT hc hmain hf hk h.before
          exact ⟨v, it1, k + 1, 0, h2, h3, by rw [Nat.add_mul]; omega, hnp⟩
    obtain ⟨v, it1, k1, j1, h2, h3, h4, h5⟩ := key
    rw [TileIt.after, h2]
    dsimp only
    by_cases hm1 : m = 0
    · subst hm1
      have hk : k1 = k' := by
        have e : k1 * S.n + j1 = k' * S.n + j' := by omega
        have hnp := S.npos
        have e2 := congrArg (· / S.n) e
        rw [Nat.mul_comm, Nat.mul_add_div hnp, Nat.div_eq_of_lt h5, Nat.mul_comm, Nat.mul_add_div hnp,
          Nat.div_eq_of_lt hj'] at e2
        omega
      subst hk
      have : j1 = j' := by omega
      subst this
      exact ⟨it1, rfl, h3⟩
    · exact ih (.inr ⟨Nat.succ_pos _, h3⟩) (by omega) (by omega)

end Tiling

end Fitsrs

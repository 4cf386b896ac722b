import Verif.Lemmas.Tiling
import Verif.Lemmas.TileBytes
import Verif.Lemmas.TileSamples
import Verif.Props.C40_C42
import Verif.Props.C33_C34
import Verif.Props.C17_C21
import Verif.Props.C25_C28
/-
C44 the pixels of a tile-compressed image, C45 the bytes used for a tile.
-/

namespace Fitsrs
open Spec

/-- The iterator of HDUs, in state `f`, returns the binary table `x`, which is the compressed image `z`, and `get_data`
gives `it`. -/
structure TilesOpened (p : Profile) (f f' : Fits) (x : Hdu BinTable) (z : TileCompressedImage) (it : TileIt) : Prop where
  next : f.next p = (some (.ok (.binTable x)), f')
  image : x.header.xtension.zImage = some z
  tiles : f'.getTiles p x z = .ok it

/-! ### Opening -/

theorem product_ok {p : Profile} {ts : List Nat} {acc : Nat} (h : acc * Spec.product ts < two64)
    (hp : ∀ t ∈ ts, 0 < t) : TileIt.product p ts acc = .ok (acc * Spec.product ts) := by
  induction ts generalizing acc with
  | nil => rw [TileIt.product]; congr 1; unfold Spec.product; simp
  | cons t ts ih =>
    have e : acc * Spec.product (t :: ts) = acc * t * Spec.product ts := by
      unfold Spec.product; rw [List.foldr_cons, Nat.mul_assoc]
    rw [e] at h ⊢
    have hpos : 0 < Spec.product ts := by
      have : ∀ l : List Nat, (∀ t ∈ l, 0 < t) → 0 < Spec.product l := by
        intro l
        induction l with
        | nil => intro _; exact Nat.one_pos
        | cons a l ih => intro h; exact Nat.mul_pos (h a (List.mem_cons_self ..)) (ih fun t ht => h t (List.mem_cons_of_mem _ ht))
      exact this ts fun t ht => hp t (List.mem_cons_of_mem _ ht)
    rw [TileIt.product, umul_ok (Nat.lt_of_le_of_lt (Nat.le_mul_of_pos_right _ hpos) h), Res.bind_ok]
    exact ih h fun t ht => hp t (List.mem_cons_of_mem _ ht)

theorem main_state {T : Tab} (hT : T.Ok) (hc : T.cols = List.range T.x.tforms.length) :
    T.State 0 (T.rowAt 0) (T.main 0 0 0 0) := by
  have hpos : 0 < T.cols.length := List.length_pos_iff.2 hT.readable.nonempty
  by_cases hn : 0 < T.x.naxis2
  · have := Tab.Left.start hT hn hpos
    have e : T.cellStart 0 T.cols[0] = 0 := by
      unfold Tab.cellStart
      simp [hc]
      rfl
    rw [e] at this
    exact this
  · have hz : T.x.naxis2 = 0 := by omega
    refine .inl ⟨hz.symm, if_neg hn, ⟨0, 0, hpos, ?_⟩⟩
    rw [hz, Nat.mul_zero]

/-! ### Rows of single values -/

theorem Spec.OneValue.aligned {x : BinTable} (h : OneValue x) (z : TileCompressedImage) : Aligned x z where
  cells ty rep hm := by
    obtain ⟨h1, h2⟩ := h ty rep hm
    exact ⟨by omega, fun h => absurd h h2⟩
  before c _ b _ ty rep hb := by
    obtain ⟨h1, h2⟩ := h ty rep (List.mem_of_getElem? hb)
    subst h1
    cases ty <;> first | rfl | exact absurd rfl h2

theorem flatMap_at {α : Type} {f : Nat → List α} {c : Nat} (h : ∀ b < c, ∃ v, f b = [v]) {n : Nat} {v : α} (hc : c < n)
    (hv : f c = [v]) : ((List.range n).flatMap f)[c]? = some v := by
  have key : ∀ m ≤ c, ((List.range m).flatMap f).length = m := by
    intro m
    induction m with
    | zero => intro _; rfl
    | succ m ih =>
      intro hm
      obtain ⟨w, hw⟩ := h m (by omega)
      rw [List.range_succ, List.flatMap_append, List.length_append, ih (by omega)]
      simp [hw]
  have hl := key c (Nat.le_refl _)
  obtain ⟨k, rfl⟩ : ∃ k, n = c + 1 + k := ⟨n - (c + 1), by omega⟩
  rw [List.range_add, List.flatMap_append, List.range_succ, List.flatMap_append, List.getElem?_append_left (by
    rw [List.length_append, hl]; simp [hv]), List.getElem?_append_right (by omega), hl]
  simp [hv]

/-- The value looked up for a column from which the tiles are read. -/
theorem Spec.Aligned.get {x : BinTable} {z : TileCompressedImage} (h : Aligned x z) {unit : List UInt8} {r c : Nat}
    {v : DataValue} (hu : Uses x z c) (hc : c < x.tforms.length) (hv : cellValues false x unit r c = [v]) :
    (rowValues false x unit (List.range x.tforms.length) r)[c]? = some v := by
  refine flatMap_at (fun b hb => ?_) hc hv
  unfold cellValues
  dsimp only
  rw [List.getElem?_eq_getElem (show b < x.tforms.length by omega)]
  cases hf : x.tforms[b] with
  | plain ty rep =>
    have := h.before c hu b hb ty rep (by rw [List.getElem?_eq_getElem (show b < x.tforms.length by omega), hf])
    dsimp only
    rw [this]
    exact ⟨_, rfl⟩
  | P ty => exact ⟨_, rfl⟩
  | Q ty => exact ⟨_, rfl⟩

theorem cellIn_of {x : BinTable} (h : ∀ ty rep, TForm.plain ty rep ∈ x.tforms → 0 < rep ∧ (ty = .X → rep % 8 ≠ 0))
    (unit : List UInt8) (r : Nat) {c : Nat} (hc : c < x.tforms.length) : CellIn false x unit r c := by
  unfold CellIn
  dsimp only
  rw [List.getElem?_eq_getElem hc]
  cases hf : x.tforms[c] with
  | plain ty rep => exact h ty rep (hf ▸ List.getElem_mem hc)
  | P ty => intro h; cases h
  | Q ty => intro h; cases h

theorem cellValues_le {x : BinTable} (unit : List UInt8) (r : Nat) {c : Nat} {t : TForm} (h : x.tforms[c]? = some t) :
    (cellValues false x unit r c).length ≤ colBytes t := by
  unfold cellValues
  dsimp only
  rw [h]
  cases t with
  | plain ty rep =>
    dsimp only
    rw [elements_length]
    cases ty <;> unfold count colBytes <;>
      first | exact Nat.le_refl _ | exact Nat.le_mul_of_pos_right _ (elemBytes_pos _)
  | P ty => exact (by decide : 1 ≤ 8)
  | Q ty => exact (by decide : 1 ≤ 16)

theorem rowValues_le {x : BinTable} (unit : List UInt8) (r : Nat) :
    (rowValues false x unit (List.range x.tforms.length) r).length ≤ total (x.tforms.map colBytes) := by
  have : ∀ n ≤ x.tforms.length, ((List.range n).flatMap (cellValues false x unit r)).length ≤
      total ((x.tforms.take n).map colBytes) := by
    intro n
    induction n with
    | zero => intro _; exact Nat.le_refl _
    | succ n ih =>
      intro hn
      have hg : x.tforms[n]? = some x.tforms[n] := List.getElem?_eq_getElem (by omega)
      have h1 := ih (by omega)
      have h2 := cellValues_le unit r hg
      rw [List.range_succ, List.flatMap_append, List.length_append, List.take_add_one, hg, Option.toList_some, List.map_append,
        total_append]
      simp only [List.flatMap_cons, List.flatMap_nil, List.append_nil, List.map_cons, List.map_nil]
      have h3 : total [colBytes x.tforms[n]] = colBytes x.tforms[n] := by unfold total; simp
      omega
  have h := this _ (Nat.le_refl _)
  rw [List.take_length] at h
  exact h

/-- The state of a compressed image just opened. -/
theorem TilesOpened.main {p : Profile} {f f' : Fits} {x : Hdu BinTable} {z : TileCompressedImage} {it : TileIt}
    (ho : TilesOpened p f f' x z it) (hl : Legal x.header.xtension f.rd.data x.dataOffset)
    (h1 : ∀ ty rep, TForm.plain ty rep ∈ x.header.xtension.tforms → 0 < rep ∧ (ty = .X → rep % 8 ≠ 0)) (hz : 4 * Spec.product z.zTilen < 2 ^ 63) (hp : ∀ t ∈ z.zTilen, 0 < t) :
    ∃ T : Tab, T.Ok ∧ T.p = p ∧ T.x = x.header.xtension ∧ T.data = f.rd.data ∧ T.start = x.dataOffset ∧
      T.cols = List.range x.header.xtension.tforms.length ∧ T.heap = false ∧ T.State 0 (T.rowAt 0) it.rows.data ∧
      it.rows.row = 0 ∧ it.ty = z.zBitpix ∧ it.zTile = z.zTilen ∧ it.cmp = z.zCmpType ∧ it.dataIdx = z.dataCompressedIdx ∧
      it.remaining = 0 ∧ it.buf.length = 4 * Spec.product z.zTilen ∧
      ((¬ IsFloat z.zBitpix ∧ it.kw = none) ∨
        (IsFloat z.zBitpix ∧ ∃ k, FloatKw.new x.header z = .ok k ∧ it.kw = some k)) := by
  obtain ⟨g1, g2, g3, -⟩ := next_ok_state ho.next
  replace g2 : f'.rd.pos = x.dataOffset := g2
  replace g3 : f'.posStart = x.dataOffset := g3
  obtain ⟨os, o1, o2⟩ := new_ok (p := p) (rd := f'.rd) hl.width hl.small (by rw [g2]; exact hl.size)
  have hT : Tab.Ok ⟨p, x.header.xtension, f.rd.data, x.dataOffset, List.range x.header.xtension.tforms.length,
      false, os⟩ :=
    ⟨⟨hl.width, hl.small, hl.file, hl.size, hl.range_ne, range_lt _, fun c hm => List.mem_range.1 hm,
      fun r _ c hm => cellIn_of h1 _ r (List.mem_range.1 hm)⟩, o1⟩
  have ht := ho.tiles
  unfold Fits.getTiles at ht
  rw [g3, ← g2, o2, Res.bind_ok] at ht
  unfold TileIt.new at ht
  rw [product_ok (by unfold two64; omega) hp, Nat.one_mul, Res.bind_ok, umul_ok (by unfold two64; omega), Res.bind_ok,
    if_neg (by omega)] at ht
  obtain ⟨kw, hkw, ht⟩ := Res.bind_eq_ok.1 ht
  rw [Res.ok.injEq] at ht
  refine ⟨_, hT, rfl, rfl, rfl, rfl, rfl, rfl, ?_, ?_, ?_, ?_, ?_, ?_, ?_, ?_, ?_⟩
  · have := main_state hT rfl
    have e : it.rows.data = Tab.main ⟨p, x.header.xtension, f.rd.data, x.dataOffset,
        List.range x.header.xtension.tforms.length, false, os⟩ 0 0 0 0 := by
      rw [← ht]
      unfold TableRows.new TableData.readTheHeap Tab.main
      dsimp only
      rw [g2]
      congr 1
      cases hr : f'.rd with
      | mk a b => rw [hr] at g2 g1; subst g2; rw [← g1]; rfl
    rw [e]
    exact this
  · rw [← ht]; rfl
  · rw [← ht]
  · rw [← ht]
  · rw [← ht]
  · rw [← ht]
  · rw [← ht]
  · rw [← ht]
    dsimp only
    rw [List.length_replicate, Nat.mul_comm]
  · have e : it.kw = kw := by rw [← ht]
    rw [e]
    have hfl : (IsFloat z.zBitpix → (FloatKw.new x.header z).map some = .ok kw) ∧
        (¬ IsFloat z.zBitpix → kw = none) := by
      unfold IsFloat
      cases hb : z.zBitpix <;> rw [hb] at hkw <;> dsimp only at hkw <;> simp
      · cases hkw; rfl
      · cases hkw; rfl
      · cases hkw; rfl
      · cases hkw
      · exact hkw
      · exact hkw
    by_cases hf : IsFloat z.zBitpix
    · refine .inr ⟨hf, ?_⟩
      have := hfl.1 hf
      cases hn : FloatKw.new x.header z with
      | panic => rw [hn] at this; cases this
      | err e => rw [hn] at this; cases this
      | ok k => rw [hn] at this; cases this; exact ⟨k, rfl, rfl⟩
    · exact .inl ⟨hf, hfl.2 hf⟩

/-! ### Keywords of floats -/

/-- The keywords for a tile. -/
def kwOf (k : FloatKw) (s : Scaling) : FloatKw :=
  { k with scale := s.scale, zero := s.zero, blank := s.blank, quantiz := .noDither }

theorem okOpt_iff {α : Type} {r : Res α} {a : α} : okOpt r = some a ↔ r = .ok a := by
  cases r <;> simp [okOpt]

theorem blank_keyword {h : Header BinTable} {unit : List UInt8} {r : Nat} {s : Scaling} (hs : HasScaling h unit r s)
    (hb : findFieldByTtype h.xtension.ttypes "ZBLANK".toList = none) :
    s.blank = okOpt (h.values.getInt (-(2 ^ 31)) (2 ^ 31 - 1) "ZBLANK".toList) := by
  refine Option.ext fun b => ?_
  rw [hs.keyword (findField_none.1 hb) b, okOpt_iff, (C21_integers h.values "ZBLANK".toList).2.1]
  unfold HasInt InI32
  constructor
  · rintro ⟨h1, h2, h3⟩; exact ⟨h1, h2, by omega⟩
  · rintro ⟨h1, h2, h3⟩; exact ⟨h1, h2, by omega⟩

theorem named_get {x : BinTable} {z : TileCompressedImage} (h1 : Aligned x z) (hz : IsFloat z.zBitpix)
    {unit : List UInt8} {r i : Nat} {name : Str} {v : Cell}
    (hm : name ∈ ["ZSCALE".toList, "ZZERO".toList, "ZBLANK".toList]) (hv : NamedValue x unit name r v) (hi : findFieldByTtype x.ttypes name = some i) :
    (rowValues false x unit (List.range x.tforms.length) r)[i]? = some (.cell i 0 v) := by
  obtain ⟨c, hc, hs, hcell⟩ := hv
  have e := findField_iff.2 hs
  rw [e, Option.some.injEq] at hi
  subst hi
  exact h1.get (.inr ⟨hz, name, hm, hs⟩) hc hcell

theorem scalarAt_named {x : BinTable} {z : TileCompressedImage} (h1 : Aligned x z) (hz : IsFloat z.zBitpix)
    {unit : List UInt8} {r i : Nat} {name : Str} {v : Cell} {s : Scalar}
    (hm : name ∈ ["ZSCALE".toList, "ZZERO".toList, "ZBLANK".toList]) (hv : NamedValue x unit name r v) (hs : IsScalar v s) (hi : findFieldByTtype x.ttypes name = some i) :
    FloatKw.scalarAt (rowValues false x unit (List.range x.tforms.length) r) i = .ok s := by
  unfold FloatKw.scalarAt
  rw [named_get h1 hz hm hv hi]
  cases v with
  | float n => exact congrArg Res.ok hs.symm
  | double n => exact congrArg Res.ok hs.symm
  | _ => exact False.elim hs

theorem blankAt_named {x : BinTable} {z : TileCompressedImage} (h1 : Aligned x z) (hz : IsFloat z.zBitpix)
    {unit : List UInt8} {r i : Nat} {name : Str} {v : Cell} {b : Int}
    (hm : name ∈ ["ZSCALE".toList, "ZZERO".toList, "ZBLANK".toList]) (hv : NamedValue x unit name r v) (hs : IsInteger v b) (hi : findFieldByTtype x.ttypes name = some i) :
    FloatKw.blankAt (rowValues false x unit (List.range x.tforms.length) r) i = .ok b := by
  unfold FloatKw.blankAt
  rw [named_get h1 hz hm hv hi]
  cases v with
  | ubyte n => exact congrArg Res.ok hs.symm
  | short n => exact congrArg Res.ok hs.symm
  | integer n => exact congrArg Res.ok hs.symm
  | long n =>
    obtain ⟨e, hn⟩ := hs
    dsimp only
    rw [toSigned_mod hn, e]
  | _ => exact False.elim hs

/-- The keywords of an iterator just opened or between two tiles. -/
theorem startTile_ok {p : Profile} {h : Header BinTable} {z : TileCompressedImage} {k0 k : FloatKw} {unit : List UInt8}
    {r row : Nat} {s : Scaling} (h1 : Aligned h.xtension z) (hf : IsFloat z.zBitpix)
    (hn : FloatKw.new h z = .ok k0)
    (hz : z.zQuantiz.getD .noDither = .noDither) (hs : HasScaling h unit r s)
    (hk : k = k0 ∨ ∃ r' s', HasScaling h unit r' s' ∧ k = kwOf k0 s') :
    k.startTile p row (rowValues false h.xtension unit (List.range h.xtension.tforms.length) r) = .ok (kwOf k0 s) := by
  unfold FloatKw.new at hn
  split at hn
  · rename_i si zi e1 e2
    dsimp only at hn
    rw [Res.ok.injEq] at hn
    obtain ⟨v1, g1, g2⟩ := hs.scale
    obtain ⟨v2, g3, g4⟩ := hs.zero
    have hsi : k.scaleIdx = si ∧ k.zeroIdx = zi ∧ k.zQuantiz = .noDither ∧ k.dither0 = k0.dither0 ∧
        k.blankIdx = findFieldByTtype h.xtension.ttypes "ZBLANK".toList ∧
        k0.blankIdx = findFieldByTtype h.xtension.ttypes "ZBLANK".toList ∧ kwOf k s = kwOf k0 s := by
      rcases hk with rfl | ⟨r', s', -, rfl⟩ <;> rw [← hn] <;> exact ⟨rfl, rfl, hz, rfl, rfl, rfl, rfl⟩
    obtain ⟨a1, a2, a3, -, a4, a4', a5⟩ := hsi
    unfold FloatKw.startTile
    have hq : k.startQuantiz p row = .ok .noDither := by unfold FloatKw.startQuantiz; rw [a3]
    rw [hq, Res.bind_ok, a1, scalarAt_named h1 hf (by simp) g1 g2 e1, Res.bind_ok, a2, scalarAt_named h1 hf (by simp) g3 g4 e2, Res.bind_ok, ← a5]
    cases hb : findFieldByTtype h.xtension.ttypes "ZBLANK".toList with
    | none =>
      have hbl : k.blank = s.blank := by
        rw [blank_keyword hs hb]
        rcases hk with rfl | ⟨r', s', hs', rfl⟩
        · rw [← hn]; dsimp only; rw [hb]; rfl
        · exact blank_keyword hs' hb
      rw [a4, hb]
      dsimp only
      unfold kwOf
      rw [hbl, a1, a2, a4, hb]
    | some i =>
      have hm : some "ZBLANK".toList ∈ h.xtension.ttypes :=
        Classical.byContradiction fun hc => by
          rw [findField_none.2 hc] at hb
          cases hb
      obtain ⟨v, b, c1, c2, c3⟩ := hs.column hm
      rw [a4, hb]
      dsimp only
      rw [blankAt_named h1 hf (by simp) c1 c2 hb, Res.bind_ok]
      unfold kwOf
      rw [c3, a1, a2, a4, hb]
  · cases hn

/-! ### Tiles -/

theorem drop_heap (x : BinTable) (data : List UInt8) (start r c : Nat) :
    data.drop (start + x.theap + (descriptor x (data.drop start) r c).2) =
      heapArray x (data.drop start) r c ++
        (data.drop start).drop (x.theap + (descriptor x (data.drop start) r c).2 + (descriptor x (data.drop start) r c).1) := by
  unfold heapArray bytesAt
  generalize (descriptor x (data.drop start) r c).1 = n
  generalize (descriptor x (data.drop start) r c).2 = o
  have e : (data.drop start).drop (x.theap + o + n) = ((data.drop start).drop (x.theap + o)).drop n := by
    rw [List.drop_drop (i := n)]
  rw [e, List.take_append_drop, List.drop_drop, Nat.add_assoc]

theorem arrayOffset_row {x : BinTable} {z : TileCompressedImage} (h1 : Aligned x z) (unit : List UInt8) (r : Nat) {c : Nat}
    (hu : Uses x z c) (hc : IsArray x c) :
    TileIt.arrayOffset (rowValues false x unit (List.range x.tforms.length) r) c = .ok (descriptor x unit r c).2 := by
  have hlt : c < x.tforms.length := by
    rcases hc with h | h <;> exact (List.getElem?_eq_some_iff.1 h).1
  unfold TileIt.arrayOffset
  have hv : cellValues false x unit r c = [.vla32 (descriptor x unit r c).1 (descriptor x unit r c).2] ∨
      cellValues false x unit r c = [.vla64 (descriptor x unit r c).1 (descriptor x unit r c).2] := by
    unfold cellValues descriptor
    dsimp only
    rcases hc with h | h <;> rw [h]
    · exact .inl rfl
    · exact .inr rfl
  rcases hv with hv | hv <;> rw [h1.get hu hlt hv]

/-- Tables of tiles: the compressed data are arrays of bytes in the file, floats have scalings and are not dithered. -/
structure TileTable (h : Header BinTable) (z : TileCompressedImage) (unit : List UInt8) (sc : Nat → Scaling) : Prop where
  array : IsArray h.xtension z.dataCompressedIdx
  heap : ∀ r < h.xtension.naxis2, h.xtension.theap + (descriptor h.xtension unit r z.dataCompressedIdx).2 +
    (descriptor h.xtension unit r z.dataCompressedIdx).1 ≤ unit.length
  axes : ∀ t ∈ z.zTilen, 0 < t
  small : 4 * Spec.product z.zTilen < 2 ^ 63
  scaled : IsFloat z.zBitpix → ∀ r < h.xtension.naxis2, HasScaling h unit r (sc r)
  plain : z.zQuantiz.getD .noDither = .noDither

/-- The bytes given to the decoder for tile `r`: those of its array and what follows it in the file. -/
def tileBytes (x : BinTable) (unit : List UInt8) (r c : Nat) : List UInt8 :=
  heapArray x unit r c ++ unit.drop (x.theap + (descriptor x unit r c).2 + (descriptor x unit r c).1)

theorem product_pos {ts : List Nat} (h : ∀ t ∈ ts, 0 < t) : 0 < Spec.product ts := by
  induction ts with
  | nil => exact Nat.one_pos
  | cons a l ih => exact Nat.mul_pos (h a (List.mem_cons_self ..)) (ih fun t ht => h t (List.mem_cons_of_mem _ ht))

/-- The tiles of an image, the first `m` of which can be read. -/
theorem tiling' {p : Profile} {f f' : Fits} {x : Hdu BinTable} {z : TileCompressedImage} {it : TileIt}
    {gz : Gunzip} {fuel : Nat} {sc : Nat → Scaling} {raw : Nat → List Int} {m : Nat}
    (hm : m ≤ x.header.xtension.naxis2)
    (ho : TilesOpened p f f' x z it) (hl : Legal x.header.xtension f.rd.data x.dataOffset)
    (one : Aligned x.header.xtension z) (ht : TileTable x.header z (f.rd.data.drop x.dataOffset) sc)
    (hraw : ∀ r < m, (raw r).length = Spec.product z.zTilen)
    (hdec : ∀ r < m, ∃ buf,
      TileIt.decompress p gz fuel z.zCmpType (Spec.product z.zTilen) (4 * Spec.product z.zTilen)
        (tileBytes x.header.xtension (f.rd.data.drop x.dataOffset) r z.dataCompressedIdx) = some (.ok buf) ∧
      buf.length = 4 * Spec.product z.zTilen ∧
      ∀ (i : Nat) (v : Int), (raw r)[i]? = some v → TileIt.rawValue z.zBitpix z.zCmpType buf i = .ok v) :
    ∃ (T : Tab) (S : Tiling T gz fuel it), T.Ok ∧ T.p = p ∧ T.x = x.header.xtension ∧ T.data = f.rd.data ∧
      T.start = x.dataOffset ∧ T.cols = List.range x.header.xtension.tforms.length ∧ T.heap = false ∧ S.Before 0 it ∧
      S.n = Spec.product z.zTilen ∧ S.m = m ∧ S.raw = raw ∧ (S.pix = fun r v => pixelOf z.zBitpix (sc r) v) ∧
      it.cmp = z.zCmpType ∧ it.dataIdx = z.dataCompressedIdx ∧
      ∀ r, S.off r = (descriptor x.header.xtension (f.rd.data.drop x.dataOffset) r z.dataCompressedIdx).2 := by
  obtain ⟨T, hT, t1, t2, t3, t4, t5, t6, hst, hrow, e1, e2, e3, e4, e5, e6, hkw⟩ := ho.main hl one.cells ht.small ht.axes
  have hunit : T.unit = f.rd.data.drop x.dataOffset := by unfold Tab.unit; rw [t3, t4]
  have hdec' : ∀ r, ∃ buf, r < m →
      TileIt.decompress p gz fuel z.zCmpType (Spec.product z.zTilen) (4 * Spec.product z.zTilen)
        (tileBytes x.header.xtension (f.rd.data.drop x.dataOffset) r z.dataCompressedIdx) = some (.ok buf) ∧
      buf.length = 4 * Spec.product z.zTilen ∧
      ∀ (i : Nat) (v : Int), (raw r)[i]? = some v → TileIt.rawValue z.zBitpix z.zCmpType buf i = .ok v := by
    intro r
    by_cases hr : r < m
    · obtain ⟨buf, h⟩ := hdec r hr
      exact ⟨buf, fun _ => h⟩
    · exact ⟨[], fun h => absurd h hr⟩
  obtain ⟨bufs, hbufs⟩ := Classical.axiomOfChoice hdec'
  have hrowAt : ∀ r < T.x.naxis2, T.rowAt r = rowValues false x.header.xtension (f.rd.data.drop x.dataOffset)
      (List.range x.header.xtension.tforms.length) r := by
    intro r hr
    unfold Tab.rowAt
    rw [if_pos hr, t2, t5, t6, hunit]
  obtain ⟨kws, k1, k2, k3⟩ : ∃ kws : Nat → Option FloatKw, it.kw = kws 0 ∧
      (∀ r < T.x.naxis2, TileIt.tileKw T.p (r + 1) (T.rowAt r) (kws r) = .ok (kws (r + 1))) ∧
      (∀ r < T.x.naxis2, ∀ v, TileIt.toPixel (kws (r + 1)) v = .ok (pixelOf z.zBitpix (sc r) v, kws (r + 1))) := by
    rcases hkw with ⟨hnf, hk⟩ | ⟨hf, k0, hk0, hk⟩
    · refine ⟨fun _ => none, hk, fun _ _ => rfl, fun r _ v => ?_⟩
      unfold pixelOf
      rw [if_neg hnf]
      rfl
    · refine ⟨fun r => match r with | 0 => some k0 | r + 1 => some (kwOf k0 (sc r)), hk, fun r hr => ?_, fun r _ v => ?_⟩
      · rw [hrowAt r hr]
        rw [t2] at hr
        have hs := ht.scaled hf
        cases r with
        | zero =>
          dsimp only [TileIt.tileKw]
          rw [startTile_ok one hf hk0 ht.plain (hs 0 hr) (.inl rfl)]
          rfl
        | succ r =>
          dsimp only [TileIt.tileKw]
          rw [startTile_ok one hf hk0 ht.plain (hs (r + 1) hr) (.inr ⟨r, sc r, hs r (by omega), rfl⟩)]
          rfl
      · dsimp only [TileIt.toPixel]
        unfold pixelOf
        rw [if_pos hf]
        unfold FloatKw.unquantize
        by_cases hb : (sc r).blank = some v
        · rw [if_pos hb, if_pos (show (kwOf k0 (sc r)).blank = some v from hb)]
          rfl
        · rw [if_neg hb, if_neg (show ¬ (kwOf k0 (sc r)).blank = some v from hb)]
          rfl
  have hlen : ∀ r < x.header.xtension.naxis2, T.start + T.x.theap +
      (descriptor x.header.xtension (f.rd.data.drop x.dataOffset) r z.dataCompressedIdx).2 < 2 ^ 60 := by
    intro r hr
    have h1 := ht.heap r hr
    rw [List.length_drop] at h1
    have h2 := hl.file
    have h3 := hl.size
    rw [t4, t2]
    omega
  have hsmall := ht.small
  refine ⟨T, ⟨Spec.product z.zTilen, m,
    fun r => (descriptor x.header.xtension (f.rd.data.drop x.dataOffset) r z.dataCompressedIdx).2, bufs, raw, kws,
    fun r v => pixelOf z.zBitpix (sc r) v, by rw [t2]; exact hm, ?_, product_pos ht.axes, ?_, ?_, ?_, ?_, ?_, ?_, ?_, k2,
      fun r hr v _ => k3 r (by rw [t2]; omega) v⟩,
    hT, t1, t2, t3, t4, t5, t6, ?_, rfl, rfl, rfl, rfl, e3, e4, fun r => rfl⟩
  · rw [e2, product_ok (by rw [Nat.one_mul]; unfold two64; omega) ht.axes, Nat.one_mul]
  · unfold two64; omega
  · intro r hr
    rw [hrowAt r hr, e4]
    exact arrayOffset_row one _ r (.inl rfl) ht.array
  · intro r hr
    rw [t2] at hr
    exact hlen r hr
  · intro r hr
    rw [t1, e3, t2, t3, t4, drop_heap]
    exact (hbufs r hr).1
  · intro r hr
    exact (hbufs r hr).2.1
  · intro r hr
    exact hraw r hr
  · intro r hr j v hj
    rw [e1, e3]
    exact (hbufs r hr).2.2 j v hj
  · exact ⟨rfl, rfl, rfl, rfl, e5, hrow, hst, e6, k1⟩

/-- The tiles of an image that can be read. -/
theorem tiling {p : Profile} {f f' : Fits} {x : Hdu BinTable} {z : TileCompressedImage} {it : TileIt}
    {gz : Gunzip} {fuel : Nat} {sc : Nat → Scaling} {raw : Nat → List Int}
    (ho : TilesOpened p f f' x z it) (hl : Legal x.header.xtension f.rd.data x.dataOffset)
    (one : Aligned x.header.xtension z) (ht : TileTable x.header z (f.rd.data.drop x.dataOffset) sc)
    (hraw : ∀ r < x.header.xtension.naxis2, (raw r).length = Spec.product z.zTilen)
    (hdec : ∀ r < x.header.xtension.naxis2, ∃ buf,
      TileIt.decompress p gz fuel z.zCmpType (Spec.product z.zTilen) (4 * Spec.product z.zTilen)
        (tileBytes x.header.xtension (f.rd.data.drop x.dataOffset) r z.dataCompressedIdx) = some (.ok buf) ∧
      buf.length = 4 * Spec.product z.zTilen ∧
      ∀ (i : Nat) (v : Int), (raw r)[i]? = some v → TileIt.rawValue z.zBitpix z.zCmpType buf i = .ok v) :
    ∃ (T : Tab) (S : Tiling T gz fuel it), T.Ok ∧ T.p = p ∧ T.x = x.header.xtension ∧ T.data = f.rd.data ∧
      T.start = x.dataOffset ∧ T.cols = List.range x.header.xtension.tforms.length ∧ T.heap = false ∧ S.Before 0 it ∧
      S.n = Spec.product z.zTilen ∧ S.m = x.header.xtension.naxis2 ∧ S.raw = raw ∧
      (S.pix = fun r v => pixelOf z.zBitpix (sc r) v) ∧ it.cmp = z.zCmpType ∧ it.dataIdx = z.dataCompressedIdx ∧
      ∀ r, S.off r = (descriptor x.header.xtension (f.rd.data.drop x.dataOffset) r z.dataCompressedIdx).2 :=
  tiling' (Nat.le_refl _) ho hl one ht hraw hdec

/-- What the partial theorems assume of the decoder of gzip: with more bytes it produces more bytes. -/
def Extends (gz : Gunzip) : Prop := ∀ a b, gz a <+: gz (a ++ b)

/-- The columns have values, which are not bits. -/
def Columns (x : BinTable) : Prop := ∀ ty rep, TForm.plain ty rep ∈ x.tforms → 0 < rep ∧ ty ≠ .X

/-! ## C45 -/

/-- **C45**, the full statement, which the code does not meet: when the decoder accepts the bytes of each tile, the
buffer from which the pixels of tile `r` are taken holds what it makes of the bytes of the heap described by row `r`,
and meanwhile the reader is at the start of row `r + 1`. -/
def C45_statement : Prop :=
  ∀ (p : Profile) (f f' : Fits) (x : Hdu BinTable) (z : TileCompressedImage) (it : TileIt)
    (gz : Gunzip) (fuel : Nat) (sc : Nat → Scaling),
    TilesOpened p f f' x z it → Legal x.header.xtension f.rd.data x.dataOffset →
    Complete x.header.xtension f.rd.data x.dataOffset → Columns x.header.xtension →
    TileTable x.header z (f.rd.data.drop x.dataOffset) sc → x.header.xtension.naxis1 < fuel →
    (∀ r < x.header.xtension.naxis2, ∃ buf,
      TileIt.decompress p gz fuel z.zCmpType (Spec.product z.zTilen) (4 * Spec.product z.zTilen)
        (tileBytes x.header.xtension (f.rd.data.drop x.dataOffset) r z.dataCompressedIdx) = some (.ok buf) ∧
      buf.length = 4 * Spec.product z.zTilen) →
    ∀ r < x.header.xtension.naxis2, ∀ j < Spec.product z.zTilen, ∃ it',
      it.after p gz fuel (r * Spec.product z.zTilen + j + 1) = some it' ∧
      TileIt.decompress p gz fuel z.zCmpType (Spec.product z.zTilen) (4 * Spec.product z.zTilen)
        (tileBytes x.header.xtension (f.rd.data.drop x.dataOffset) r z.dataCompressedIdx) = some (.ok it'.buf) ∧
      it'.rows.data.rd = ⟨f.rd.data, x.dataOffset + (r + 1) * x.header.xtension.naxis1⟩

theorem row_fuel {T : Tab} {x : BinTable} {fuel : Nat} (hx : T.x = x)
    (hc : T.cols = List.range x.tforms.length) (hh : T.heap = false) (hw : x.naxis1 = total (x.tforms.map colBytes))
    (hf : x.naxis1 < fuel) : ∀ r < T.x.naxis2, (rowValues T.heap T.x T.unit T.cols r).length < fuel := by
  intro r _
  rw [hx, hc, hh]
  have := rowValues_le (x := x) T.unit r
  omega

/-- **C45, partial.**  Missing: tables with columns of several values before one that is used. -/
theorem C45_partial {p : Profile} {f f' : Fits} {x : Hdu BinTable} {z : TileCompressedImage} {it : TileIt}
    {gz : Gunzip} {fuel : Nat} {sc : Nat → Scaling} (ho : TilesOpened p f f' x z it)
    (hl : Legal x.header.xtension f.rd.data x.dataOffset) (hc : Complete x.header.xtension f.rd.data x.dataOffset)
    (one : Aligned x.header.xtension z) (ht : TileTable x.header z (f.rd.data.drop x.dataOffset) sc)
    (hf : x.header.xtension.naxis1 < fuel)
    (hdec : ∀ r < x.header.xtension.naxis2, ∃ buf,
      TileIt.decompress p gz fuel z.zCmpType (Spec.product z.zTilen) (4 * Spec.product z.zTilen)
        (tileBytes x.header.xtension (f.rd.data.drop x.dataOffset) r z.dataCompressedIdx) = some (.ok buf) ∧
      buf.length = 4 * Spec.product z.zTilen)
    {r j : Nat} (hr : r < x.header.xtension.naxis2) (hj : j < Spec.product z.zTilen) :
    ∃ it', it.after p gz fuel (r * Spec.product z.zTilen + j + 1) = some it' ∧
      TileIt.decompress p gz fuel z.zCmpType (Spec.product z.zTilen) (4 * Spec.product z.zTilen)
        (tileBytes x.header.xtension (f.rd.data.drop x.dataOffset) r z.dataCompressedIdx) = some (.ok it'.buf) ∧
      it'.rows.data.rd = ⟨f.rd.data, x.dataOffset + (r + 1) * x.header.xtension.naxis1⟩ := by
  -- the integers in the buffers, whatever they are
  have hraw : ∀ r, ∃ raw : List Int, r < x.header.xtension.naxis2 → raw.length = Spec.product z.zTilen ∧ ∃ buf,
      TileIt.decompress p gz fuel z.zCmpType (Spec.product z.zTilen) (4 * Spec.product z.zTilen)
        (tileBytes x.header.xtension (f.rd.data.drop x.dataOffset) r z.dataCompressedIdx) = some (.ok buf) ∧
      buf.length = 4 * Spec.product z.zTilen ∧
      ∀ (i : Nat) (v : Int), raw[i]? = some v → TileIt.rawValue z.zBitpix z.zCmpType buf i = .ok v := by
    intro r
    by_cases hr : r < x.header.xtension.naxis2
    · obtain ⟨buf, h1, h2⟩ := hdec r hr
      have hcmp : z.zCmpType ≠ .plio1 ∧ z.zCmpType ≠ .hcompress1 := by
        constructor <;> intro h <;> rw [h] at h1 <;> cases h1
      refine ⟨(List.range (Spec.product z.zTilen)).map fun i =>
        match TileIt.rawValue z.zBitpix z.zCmpType buf i with | .ok v => v | _ => 0, fun _ => ⟨by simp, buf, h1, h2, ?_⟩⟩
      intro i v hi
      rw [List.getElem?_map] at hi
      by_cases hin : i < Spec.product z.zTilen
      · rw [List.getElem?_range hin] at hi
        obtain ⟨w, hw⟩ := rawValue_some (ty := z.zBitpix) h2 hin hcmp
        dsimp only [Option.map] at hi
        rw [hw] at hi
        cases hi
        exact hw
      · rw [List.getElem?_eq_none (by simpa using hin)] at hi
        cases hi
    · exact ⟨[], fun h => absurd h hr⟩
  obtain ⟨raw, hraw⟩ := Classical.axiomOfChoice hraw
  obtain ⟨T, S, hT, t1, t2, t3, t4, t5, t6, hb, hn, hSm, -, -, hcmp, -, hoff⟩ :=
    tiling ho hl one ht (fun r hr => (hraw r hr).1) (fun r hr => (hraw r hr).2)
  have hcols : T.cols = List.range T.x.tforms.length := by rw [t5, t2]
  have hmain : T.start + T.x.naxis1 * T.x.naxis2 ≤ T.data.length := by rw [t2, t3, t4]; exact hc
  obtain ⟨it', h1, h2⟩ := S.after_mid hT hcols hmain (row_fuel t2 t5 t6 hl.width hf) (r * Spec.product z.zTilen + j + 1)
    (.inl ⟨rfl, hb⟩) (k' := r) (j' := j) (by rw [hn]; exact hj) (by rw [hSm]; exact hr) (by rw [hn]; omega) (by omega)
  rw [t1] at h1
  refine ⟨it', h1, ?_, ?_⟩
  · have hdec := S.dec r (by rw [hSm]; exact hr)
    rw [hn, t1, hcmp, t2, t3, t4, hoff, drop_heap] at hdec
    rw [h2.buf]
    exact hdec
  · have := (Tiling.state_pos hT hcols h2.state).1
    rw [t2, t3, t4] at this
    exact this

/-! ## C44 -/

/-- The tiles of the image, in the order of the rows: their sizes, and that the compressed data hold them. -/
structure Tiles (x : BinTable) (z : TileCompressedImage) (unit : List UInt8) (gz : Gunzip)
    (tile : Nat → List Int) : Prop where
  rows : x.naxis2 = tileCount z.zNaxisn z.zTilen
  axes : z.zNaxisn.length = z.zTilen.length
  size : ∀ r < x.naxis2, (tile r).length = tilePixels z.zNaxisn z.zTilen r
  range : ∀ r < x.naxis2, ∀ v ∈ tile r, InType z.zBitpix v
  holds : ∀ r < x.naxis2, Spec.Holds gz z.zCmpType (tile r) (heapArray x unit r z.dataCompressedIdx)
  blocks : ∀ nblock, z.zCmpType = .rice nblock → Spec.product z.zTilen + nblock ≤ 2 ^ 31

/-- The pixels of the image. -/
def imagePixels (x : BinTable) (z : TileCompressedImage) (tile : Nat → List Int) (sc : Nat → Scaling) : List TilePixel :=
  (List.range x.naxis2).flatMap fun r => (tile r).map (pixelOf z.zBitpix (sc r))

/-- **C44**, the full statement, which the code does not meet: iterating a tile-compressed image gives the pixels of
its tiles, in the order of the rows, and then `None`. -/
def C44_statement : Prop :=
  ∀ (p : Profile) (f f' : Fits) (x : Hdu BinTable) (z : TileCompressedImage) (it : TileIt)
    (gz : Gunzip) (fuel : Nat) (tile : Nat → List Int) (sc : Nat → Scaling),
    TilesOpened p f f' x z it → Legal x.header.xtension f.rd.data x.dataOffset →
    Complete x.header.xtension f.rd.data x.dataOffset → Columns x.header.xtension →
    TileTable x.header z (f.rd.data.drop x.dataOffset) sc → Extends gz →
    x.header.xtension.naxis1 < fuel → 2 * Spec.product z.zTilen + 1 ≤ fuel →
    Tiles x.header.xtension z (f.rd.data.drop x.dataOffset) gz tile →
    ∀ n, it.run p gz fuel n = tileScan (imagePixels x.header.xtension z tile sc) n

/-- The iterator of a compressed image has to give its pixels. -/
theorem image_tiling' {p : Profile} {f f' : Fits} {x : Hdu BinTable} {z : TileCompressedImage} {it : TileIt}
    {gz : Gunzip} {fuel : Nat} {tile : Nat → List Int} {sc : Nat → Scaling}
    (ho : TilesOpened p f f' x z it) (hl : Legal x.header.xtension f.rd.data x.dataOffset)
    (hc : Complete x.header.xtension f.rd.data x.dataOffset) (one : Aligned x.header.xtension z)
    (ht : TileTable x.header z (f.rd.data.drop x.dataOffset) sc) (hg : Extends gz)
    (hf : x.header.xtension.naxis1 < fuel) (hf' : 2 * Spec.product z.zTilen + 1 ≤ fuel)
    (hi : Tiles x.header.xtension z (f.rd.data.drop x.dataOffset) gz tile)
    (whole : ∀ r < x.header.xtension.naxis2, tilePixels z.zNaxisn z.zTilen r = Spec.product z.zTilen)
    (h8 : z.zBitpix = .u8 → z.zCmpType ≠ .gzip2)
    (hs : ∀ nblock, z.zCmpType = .rice nblock → p = .wrapping ∨ ∀ r < x.header.xtension.naxis2, Smooth (tile r)) :
    ∃ (T : Tab) (S : Tiling T gz fuel it), T.Ok ∧ T.p = p ∧ T.x = x.header.xtension ∧ T.data = f.rd.data ∧
      T.start = x.dataOffset ∧ T.cols = List.range T.x.tforms.length ∧
      T.start + T.x.naxis1 * T.x.naxis2 ≤ T.data.length ∧
      (∀ r < T.x.naxis2, (rowValues T.heap T.x T.unit T.cols r).length < fuel) ∧
      S.m = T.x.naxis2 ∧ S.Left (imagePixels x.header.xtension z tile sc) it ∧ T.heap = false := by
  have hlen : ∀ r < x.header.xtension.naxis2, (tile r).length = Spec.product z.zTilen := fun r hr => by
    rw [hi.size r hr, whole r hr]
  obtain ⟨T, S, hT, t1, t2, t3, t4, t5, t6, hb, hn, hSm, hraw, hpix, -⟩ :=
    tiling ho hl one ht (fuel := fuel) (gz := gz) (raw := tile) hlen (fun r hr => by
      have := decompress_holds (p := p) (fuel := fuel) (ty := z.zBitpix)
        (rest := (f.rd.data.drop x.dataOffset).drop (x.header.xtension.theap +
          (descriptor x.header.xtension (f.rd.data.drop x.dataOffset) r z.dataCompressedIdx).2 +
          (descriptor x.header.xtension (f.rd.data.drop x.dataOffset) r z.dataCompressedIdx).1)) hg (hi.holds r hr)
        (hi.range r hr) h8 (fun nblock hcmp =>
          ⟨(hs nblock hcmp).imp id fun h => h r hr, by rw [hlen r hr]; exact hi.blocks nblock hcmp, by
            rw [hlen r hr]; exact hf'⟩)
      rw [hlen r hr] at this
      exact this)
  refine ⟨T, S, hT, t1, t2, t3, t4, by rw [t5, t2], by rw [t2, t3, t4]; exact hc, row_fuel t2 t5 t6 hl.width hf,
    by rw [hSm, t2], .inl ⟨0, Nat.zero_le _, hb, ?_⟩, t6⟩
  unfold Tiling.rest Tiling.tile imagePixels
  rw [List.drop_zero, hSm, hraw, hpix]

theorem image_tiling {p : Profile} {f f' : Fits} {x : Hdu BinTable} {z : TileCompressedImage} {it : TileIt}
    {gz : Gunzip} {fuel : Nat} {tile : Nat → List Int} {sc : Nat → Scaling}
    (ho : TilesOpened p f f' x z it) (hl : Legal x.header.xtension f.rd.data x.dataOffset)
    (hc : Complete x.header.xtension f.rd.data x.dataOffset) (one : Aligned x.header.xtension z)
    (ht : TileTable x.header z (f.rd.data.drop x.dataOffset) sc) (hg : Extends gz)
    (hf : x.header.xtension.naxis1 < fuel) (hf' : 2 * Spec.product z.zTilen + 1 ≤ fuel)
    (hi : Tiles x.header.xtension z (f.rd.data.drop x.dataOffset) gz tile)
    (whole : ∀ r < x.header.xtension.naxis2, tilePixels z.zNaxisn z.zTilen r = Spec.product z.zTilen)
    (h8 : z.zBitpix = .u8 → z.zCmpType ≠ .gzip2)
    (hs : ∀ nblock, z.zCmpType = .rice nblock → p = .wrapping ∨ ∀ r < x.header.xtension.naxis2, Smooth (tile r)) :
    ∃ (T : Tab) (S : Tiling T gz fuel it), T.Ok ∧ T.p = p ∧ T.x = x.header.xtension ∧ T.data = f.rd.data ∧
      T.start = x.dataOffset ∧ T.cols = List.range T.x.tforms.length ∧
      T.start + T.x.naxis1 * T.x.naxis2 ≤ T.data.length ∧
      (∀ r < T.x.naxis2, (rowValues T.heap T.x T.unit T.cols r).length < fuel) ∧
      S.m = T.x.naxis2 ∧ S.Left (imagePixels x.header.xtension z tile sc) it := by
  obtain ⟨T, S, h1, h2, h3, h4, h5, h6, h7, h8, h9, h10, -⟩ := image_tiling' ho hl hc one ht hg hf hf' hi whole h8 hs
  exact ⟨T, S, h1, h2, h3, h4, h5, h6, h7, h8, h9, h10⟩

/-- **C44, partial.**  Missing: tiles cut at the edge of the image, several values before a column that is used, 8-bit pixels
compressed with GZIP_2; in checked builds, RICE with large differences of pixels. -/
theorem C44_partial {p : Profile} {f f' : Fits} {x : Hdu BinTable} {z : TileCompressedImage} {it : TileIt}
    {gz : Gunzip} {fuel : Nat} {tile : Nat → List Int} {sc : Nat → Scaling}
    (ho : TilesOpened p f f' x z it) (hl : Legal x.header.xtension f.rd.data x.dataOffset)
    (hc : Complete x.header.xtension f.rd.data x.dataOffset) (one : Aligned x.header.xtension z)
    (ht : TileTable x.header z (f.rd.data.drop x.dataOffset) sc) (hg : Extends gz)
    (hf : x.header.xtension.naxis1 < fuel) (hf' : 2 * Spec.product z.zTilen + 1 ≤ fuel)
    (hi : Tiles x.header.xtension z (f.rd.data.drop x.dataOffset) gz tile)
    (whole : ∀ r < x.header.xtension.naxis2, tilePixels z.zNaxisn z.zTilen r = Spec.product z.zTilen)
    (h8 : z.zBitpix = .u8 → z.zCmpType ≠ .gzip2)
    (hs : ∀ nblock, z.zCmpType = .rice nblock → p = .wrapping ∨ ∀ r < x.header.xtension.naxis2, Smooth (tile r)) (n : Nat) :
    it.run p gz fuel n = tileScan (imagePixels x.header.xtension z tile sc) n := by
  obtain ⟨T, S, hT, t1, -, -, -, hcols, hmain, hrf, hSm, hleft⟩ := image_tiling ho hl hc one ht hg hf hf' hi whole h8 hs
  have := hleft.run hT hcols hmain hrf (by omega) hSm n
  rw [t1] at this
  exact this

/-! ### The number of pixels -/

/-- Sum of the first values of a function. -/
def sumTo (f : Nat → Nat) : Nat → Nat
  | 0 => 0
  | n + 1 => sumTo f n + f n

theorem sumTo_congr {f g : Nat → Nat} {n : Nat} (h : ∀ k < n, f k = g k) : sumTo f n = sumTo g n := by
  induction n with
  | zero => rfl
  | succ n ih => rw [sumTo, sumTo, ih fun k hk => h k (by omega), h n (Nat.lt_succ_self n)]

theorem sumTo_add (f : Nat → Nat) (m n : Nat) : sumTo f (m + n) = sumTo f m + sumTo (fun k => f (m + k)) n := by
  induction n with
  | zero => rfl
  | succ n ih => rw [← Nat.add_assoc, sumTo, ih, sumTo, Nat.add_assoc]

theorem sumTo_mul (f : Nat → Nat) (a n : Nat) : sumTo (fun k => f k * a) n = sumTo f n * a := by
  induction n with
  | zero => rw [sumTo, sumTo, Nat.zero_mul]
  | succ n ih => rw [sumTo, ih, sumTo, Nat.add_mul]

theorem sumTo_grid (f g : Nat → Nat) {a : Nat} (ha : 0 < a) (c : Nat) :
    sumTo (fun k => f (k % a) * g (k / a)) (a * c) = sumTo f a * sumTo g c := by
  induction c with
  | zero => rfl
  | succ c ih =>
    rw [Nat.mul_succ, sumTo_add, ih, sumTo, Nat.mul_add, ← sumTo_mul f (g c)]
    congr 1
    refine sumTo_congr fun k hk => ?_
    rw [Nat.mul_add_mod, Nat.mod_eq_of_lt hk, Nat.mul_add_div ha, Nat.div_eq_of_lt hk, Nat.add_zero]

theorem sumTo_axis (n t m : Nat) : sumTo (fun i => min t (n - i * t)) m = min n (m * t) := by
  induction m with
  | zero => rw [sumTo, Nat.zero_mul]; omega
  | succ m ih =>
    rw [sumTo, ih, Nat.succ_mul]
    omega

theorem tilesAlong_ge {n t : Nat} (ht : 0 < t) : n ≤ tilesAlong n t * t := by
  unfold tilesAlong
  have := Nat.div_add_mod (n + t - 1) t
  have := Nat.mod_lt (n + t - 1) ht
  rw [Nat.mul_comm]
  omega

theorem sum_tilePixels (ns ts : List Nat) (hl : ns.length = ts.length) (ht : ∀ t ∈ ts, 0 < t) (hn : ∀ n ∈ ns, 0 < n) :
    sumTo (tilePixels ns ts) (tileCount ns ts) = Spec.product ns := by
  induction ns generalizing ts with
  | nil =>
    cases ts with
    | nil => rfl
    | cons t ts => cases hl
  | cons n ns ih =>
    cases ts with
    | nil => cases hl
    | cons t ts =>
      have htp := ht t (List.mem_cons_self ..)
      have hnp := hn n (List.mem_cons_self ..)
      have ha : 0 < tilesAlong n t := by
        have := tilesAlong_ge (n := n) htp
        rcases Nat.eq_zero_or_pos (tilesAlong n t) with h | h
        · rw [h, Nat.zero_mul] at this; omega
        · exact h
      have e := sumTo_grid (fun i => min t (n - i * t)) (tilePixels ns ts) ha (tileCount ns ts)
      rw [sumTo_axis, Nat.min_eq_left (tilesAlong_ge htp), ih ts (by simpa using hl)
        (fun t h => ht t (List.mem_cons_of_mem _ h)) (fun n h => hn n (List.mem_cons_of_mem _ h))] at e
      exact e

/-- The tiles have as many pixels as the image, including those cut at its edge. -/
theorem C44_count {x : BinTable} {z : TileCompressedImage} {unit : List UInt8} {gz : Gunzip}
    {tile : Nat → List Int} {sc : Nat → Scaling} (hi : Tiles x z unit gz tile) (ht : ∀ t ∈ z.zTilen, 0 < t)
    (hn : ∀ n ∈ z.zNaxisn, 0 < n) : (imagePixels x z tile sc).length = Spec.product z.zNaxisn := by
  rw [← sum_tilePixels _ _ hi.axes ht hn, ← hi.rows]
  have : ∀ m, m ≤ x.naxis2 → ((List.range m).flatMap fun r => (tile r).map (pixelOf z.zBitpix (sc r))).length =
      sumTo (tilePixels z.zNaxisn z.zTilen) m := by
    intro m
    induction m with
    | zero => intro _; rfl
    | succ m ih =>
      intro hm
      rw [List.range_succ, List.flatMap_append, List.length_append, ih (by omega), sumTo]
      simp [hi.size m (by omega)]
  exact this _ (Nat.le_refl _)

/-- Tiles that divide the image are whole. -/
theorem tilePixels_whole {ns ts : List Nat} (hl : ns.length = ts.length) (ht : ∀ t ∈ ts, 0 < t)
    (hd : ∀ nt ∈ ns.zip ts, nt.2 ∣ nt.1) {r : Nat} (hr : r < tileCount ns ts) : tilePixels ns ts r = Spec.product ts := by
  induction ns generalizing ts r with
  | nil =>
    cases ts with
    | nil => rfl
    | cons t ts => cases hl
  | cons n ns ih =>
    cases ts with
    | nil => cases hl
    | cons t ts =>
      have htp := ht t (List.mem_cons_self ..)
      obtain ⟨a, ha⟩ : t ∣ n := hd (n, t) (List.mem_cons_self ..)
      have hal : tilesAlong n t = a := by
        unfold tilesAlong
        rw [ha, Nat.add_sub_assoc (by omega), Nat.mul_add_div htp, Nat.div_eq_of_lt (by omega), Nat.add_zero]
      have hr' : r < tileCount ns ts * a := by rw [Nat.mul_comm, ← hal]; exact hr
      have hapos : 0 < a := by
        rcases Nat.eq_zero_or_pos a with h | h
        · rw [h, Nat.mul_zero] at hr'; omega
        · exact h
      show min t (n - r % tilesAlong n t * t) * tilePixels ns ts (r / tilesAlong n t) = t * Spec.product ts
      rw [hal, ih (by simpa using hl) (fun t h => ht t (List.mem_cons_of_mem _ h))
        (fun nt h => hd nt (List.mem_cons_of_mem _ h)) ((Nat.div_lt_iff_lt_mul hapos).2 hr')]
      congr 1
      have hm := Nat.mod_lt r hapos
      have h1 : (r % a + 1) * t ≤ a * t := Nat.mul_le_mul_right _ hm
      rw [Nat.add_mul] at h1
      rw [ha, Nat.mul_comm t a]
      omega

/-! ### Samples -/

theorem tiles_opened {p : Profile} {data : List UInt8} {x : BinTable} {z : TileCompressedImage} {ok : TileIt → Bool}
    (h : returnsTiles p data x z ok = true) (hz : x.zImage = some z) :
    ∃ f' hd it, TilesOpened p (afterPrimary data) f' hd z it ∧ hd.header.xtension = x ∧ hd.dataOffset = 5760 ∧
      ok it = true := by
  unfold returnsTiles at h
  split at h
  · rename_i hd f' hn
    obtain ⟨h1, h2⟩ := Bool.and_eq_true_iff.1 h
    obtain ⟨h1, h3⟩ := of_decide_eq_true h1
    split at h2
    · rename_i it hit
      exact ⟨f', hd, it, ⟨hn, by rw [h1]; exact hz, hit⟩, h1, h3, h2⟩
    · cases h2
  · cases h

theorem rice_pair (v : Int) (hv : v = 7 ∨ v = 5) : IsRice 2 [v, v] [0, 0, 0, UInt8.ofNat v.toNat, 0] := by
  refine ⟨v, blockBits .low [0, 0] ++ [], [false, false, false], rfl, ?_, ?_⟩
  · refine Blocks.block (block := [v, v]) (rest := []) .low (by simp) (Or.inl rfl) ?_ .nil
    show ∀ d ∈ diffs v [v, v], d = 0
    rcases hv with rfl | rfl <;> decide
  · rcases hv with rfl | rfl <;> decide +kernel

theorem rice_float : IsRice 2 [8, 3] [0, 0, 0, 8, 0x14, 0x18] := by
  refine ⟨8, blockBits (.split 1) [0, 9] ++ [], [false, false, false], rfl, ?_, by decide +kernel⟩
  exact Blocks.block (block := [8, 3]) (rest := []) (.split 1) (by simp) (Or.inl rfl) (by decide : 1 ≤ 24) .nil

/-- The integers of the tiles of `floatTilesFile`. -/
def floatTile : Nat → List Int
  | 0 => [7, 7]
  | _ => [8, 3]

/-- Their scalings. -/
def floatScaling : Nat → Scaling
  | 0 => ⟨.double 0x3FF0000000000000, .double 0, some 3⟩
  | _ => ⟨.double 0x4000000000000000, .double 0x3FF0000000000000, some 3⟩

/-- The data unit of `floatTilesFile`. -/
def floatUnit : List UInt8 := floatTilesFile.drop 5760

theorem floatUnit_eq : floatUnit =
    [0, 0, 0, 5, 0, 0, 0, 0, 0x3F, 0xF0, 0, 0, 0, 0, 0, 0, 0, 0, 0, 0, 0, 0, 0, 0, 0, 0, 0, 3,
     0, 0, 0, 6, 0, 0, 0, 5, 0x40, 0, 0, 0, 0, 0, 0, 0, 0x3F, 0xF0, 0, 0, 0, 0, 0, 0, 0, 0, 0, 3,
     0, 0, 0, 7, 0, 0, 0, 0, 8, 0x14, 0x18] := by
  decide +kernel

theorem floatTiles_legal : Legal floatTilesTable floatTilesFile 5760 ∧ Complete floatTilesTable floatTilesFile 5760 :=
  ⟨legal_sample (by decide) (by decide) (by decide) (by decide) (by decide +kernel), by decide +kernel⟩

theorem floatTiles_one : OneValue floatTilesTable := by
  intro ty rep h
  simp only [floatTilesTable, List.mem_cons, List.not_mem_nil, or_false, TForm.plain.injEq, reduceCtorEq, false_or] at h
  rcases h with ⟨rfl, rfl⟩ | ⟨rfl, rfl⟩ | ⟨rfl, rfl⟩ <;> exact ⟨rfl, by decide⟩

theorem floatTiles_named (r : Nat) (hr : r < 2) :
    (∃ v, NamedValue floatTilesTable floatUnit "ZSCALE".toList r v ∧ IsScalar v (floatScaling r).scale) ∧
    (∃ v, NamedValue floatTilesTable floatUnit "ZZERO".toList r v ∧ IsScalar v (floatScaling r).zero) ∧
    (∃ v b, NamedValue floatTilesTable floatUnit "ZBLANK".toList r v ∧ IsInteger v b ∧ (floatScaling r).blank = some b) := by
  rw [floatUnit_eq]
  have hr : r = 0 ∨ r = 1 := by omega
  rcases hr with rfl | rfl
  · refine ⟨⟨.double 0x3FF0000000000000, ⟨1, by decide, ?_, by decide +kernel⟩, rfl⟩,
      ⟨.double 0, ⟨2, by decide, ?_, by decide +kernel⟩, rfl⟩,
      .integer 3, 3, ⟨3, by decide, ?_, by decide +kernel⟩, rfl, rfl⟩ <;> unfold Selects <;> decide
  · refine ⟨⟨.double 0x4000000000000000, ⟨1, by decide, ?_, by decide +kernel⟩, rfl⟩,
      ⟨.double 0x3FF0000000000000, ⟨2, by decide, ?_, by decide +kernel⟩, rfl⟩,
      .integer 3, 3, ⟨3, by decide, ?_, by decide +kernel⟩, rfl, rfl⟩ <;> unfold Selects <;> decide

theorem floatTiles_table {h : Header BinTable} (hx : h.xtension = floatTilesTable) :
    TileTable h floatTilesImage floatUnit floatScaling := by
  refine ⟨?_, ?_, by decide, by decide, ?_, rfl⟩
  · rw [hx]; exact .inl rfl
  · rw [hx, floatUnit_eq]; decide
  · intro _ r hr
    rw [hx] at hr
    obtain ⟨h1, h2, h3⟩ := floatTiles_named r hr
    refine ⟨by rw [hx]; exact h1, by rw [hx]; exact h2, fun _ => by rw [hx]; exact h3, fun hn => ?_⟩
    rw [hx] at hn
    exact absurd (by decide) hn

theorem floatTiles_tiles : Tiles floatTilesTable floatTilesImage floatUnit (.of fun _ => []) floatTile := by
  refine ⟨by decide, rfl, by decide, ?_, ?_, ?_⟩
  · intro r hr v hv
    have hr : r = 0 ∨ r = 1 := by change r < 2 at hr; omega
    show InI32 v
    unfold InI32
    rcases hr with rfl | rfl <;> simp only [floatTile, List.mem_cons, List.not_mem_nil, or_false] at hv <;> omega
  · intro r hr
    have hr : r = 0 ∨ r = 1 := by change r < 2 at hr; omega
    rw [floatUnit_eq]
    rcases hr with rfl | rfl
    · exact rice_pair 7 (.inl rfl)
    · exact rice_float
  · intro nblock h
    cases h
    decide

/-- Iterating the image of floats gives its four pixels, the last one blank. -/
example (p : Profile) : ∃ f' h it, TilesOpened p (afterPrimary floatTilesFile) f' h floatTilesImage it ∧
    ∀ n, it.run p (.of fun _ => []) 29 n = tileScan
      [.linear 7 (.double 0x3FF0000000000000) (.double 0), .linear 7 (.double 0x3FF0000000000000) (.double 0),
       .linear 8 (.double 0x4000000000000000) (.double 0x3FF0000000000000), .nan] n := by
  obtain ⟨f', h, it, ho, h1, h2, -⟩ := tiles_opened (sample_tiles p) rfl
  refine ⟨f', h, it, ho, fun n => ?_⟩
  have := C44_partial (fuel := 29) (gz := .of fun _ => []) (tile := floatTile) (sc := floatScaling) ho
    (by rw [h1, h2]; exact floatTiles_legal.1) (by rw [h1, h2]; exact floatTiles_legal.2) (by rw [h1]; exact floatTiles_one.aligned _)
    (by rw [h2]; exact floatTiles_table h1) (fun _ _ => List.prefix_refl _) (by rw [h1]; decide) (by decide)
    (by rw [h1, h2]; exact floatTiles_tiles) (by rw [h1]; decide) (by intro h; cases h)
    (fun nblock _ => .inr fun r _ => by unfold floatTile; split <;> simp [Smooth]) n
  rw [this, h1]
  rfl

/-- In that image, after the third pixel, the reader is at the end of the second row and the buffer holds the second tile. -/
example (p : Profile) : ∃ f' h it it', TilesOpened p (afterPrimary floatTilesFile) f' h floatTilesImage it ∧
    it.after p (.of fun _ => []) 29 3 = some it' ∧ it'.buf = [8, 0, 0, 0, 3, 0, 0, 0] ∧
    it'.rows.data.rd = ⟨floatTilesFile, 5760 + 56⟩ := by
  obtain ⟨f', h, it, ho, h1, h2, -⟩ := tiles_opened (sample_tiles p) rfl
  have hdec : ∀ r < 2, TileIt.decompress p (.of fun _ => []) 29 (.rice 2) 2 8 (tileBytes floatTilesTable floatUnit r 0) =
      some (.ok (if r = 0 then [7, 0, 0, 0, 7, 0, 0, 0] else [8, 0, 0, 0, 3, 0, 0, 0])) := by
    rw [floatUnit_eq]
    cases p <;> decide +kernel
  obtain ⟨it', g1, g2, g3⟩ := C45_partial (fuel := 29) (gz := .of fun _ => []) (sc := floatScaling) (r := 1) (j := 0) ho
    (by rw [h1, h2]; exact floatTiles_legal.1) (by rw [h1, h2]; exact floatTiles_legal.2) (by rw [h1]; exact floatTiles_one.aligned _)
    (by rw [h2]; exact floatTiles_table h1) (by rw [h1]; decide)
    (by
      rw [h1, h2]
      intro r hr
      refine ⟨_, hdec r hr, ?_⟩
      split <;> rfl) (by rw [h1]; decide) (by decide)
  refine ⟨f', h, it, it', ho, g1, ?_, ?_⟩
  · rw [h1, h2] at g2
    have := (hdec 1 (by decide)).symm.trans g2
    rw [Option.some.injEq, Res.ok.injEq] at this
    exact this.symm
  · rw [h1, h2] at g3
    exact g3

/-- **C44** fails: the second tile of an image of three pixels has one pixel, but gives two. -/
theorem C44_fails : ¬ C44_statement := by
  intro hall
  obtain ⟨f', h, it, ho, h1, h2, h3⟩ := tiles_opened sample_edge rfl
  have hunit : edgeFile.drop 5760 =
      [0, 0, 0, 5, 0, 0, 0, 0, 0, 0, 0, 5, 0, 0, 0, 5, 0, 0, 0, 7, 0, 0, 0, 0, 5, 0] := by decide +kernel
  have hrun := hall .wrapping _ f' h edgeImage it (.of fun _ => []) 9 (fun r => if r = 0 then [7, 7] else [5])
    (fun _ => ⟨.double 0, .double 0, none⟩) ho
    (by rw [h1, h2]; exact legal_sample (by decide) (by decide) (by decide) (by decide) (by decide +kernel))
    (by rw [h1, h2]; decide +kernel)
    (by
      rw [h1]
      intro ty rep h
      simp [edgeTable] at h)
    (by
      refine ⟨by rw [h1]; exact .inl rfl, ?_, by decide, by decide, fun hf => absurd hf (by decide), rfl⟩
      rw [h1, h2]
      show ∀ r < 2, _ + _ + _ ≤ (edgeFile.drop 5760).length
      change ∀ r < 2, edgeTable.theap + (descriptor edgeTable (edgeFile.drop 5760) r 0).2 +
        (descriptor edgeTable (edgeFile.drop 5760) r 0).1 ≤ (edgeFile.drop 5760).length
      rw [hunit]
      decide)
    (fun _ _ => List.prefix_refl _) (by rw [h1]; decide) (by decide)
    (by
      rw [h1, h2]
      refine ⟨by decide, rfl, by decide, ?_, ?_, ?_⟩
      · intro r hr v hv
        show InI32 v
        unfold InI32
        split at hv <;> simp at hv <;> omega
      · intro r hr
        have hr : r = 0 ∨ r = 1 := by change r < 2 at hr; omega
        change Spec.Holds _ _ _ (heapArray edgeTable (edgeFile.drop 5760) r 0)
        rw [hunit]
        rcases hr with rfl | rfl
        · exact rice_pair 7 (.inl rfl)
        · refine ⟨5, blockBits .low [0] ++ [], [false, false, false], rfl, ?_, by decide +kernel⟩
          refine Blocks.block (block := [5]) (rest := []) .low (by simp) (Or.inr ⟨by decide, rfl⟩) ?_ .nil
          show ∀ d ∈ diffs 5 [5], d = 0
          decide
      · intro nblock h
        cases h
        decide) 4
  rw [of_decide_eq_true h3, h1] at hrun
  exact absurd hrun (by decide +kernel)

/-- **C45** fails: with two values in the first column, those of the second one are not found. -/
theorem C45_fails : ¬ C45_statement := by
  intro hall
  obtain ⟨f', h, it, ho, h1, h2, h3⟩ := tiles_opened sample_pair rfl
  have hunit : pairFile.drop 5760 = [1, 2, 0, 0, 0, 5, 0, 0, 0, 0, 0, 0, 0, 7, 0] := by decide +kernel
  have hdec : TileIt.decompress .wrapping (.of fun _ => []) 11 (.rice 2) 2 8 (tileBytes pairTable (pairFile.drop 5760) 0 1) =
      some (.ok [7, 0, 0, 0, 7, 0, 0, 0]) := by
    rw [hunit]
    decide +kernel
  obtain ⟨it', g1, g2, -⟩ := hall .wrapping _ f' h pairImage it (.of fun _ => []) 11
    (fun _ => ⟨.double 0, .double 0, none⟩) ho
    (by rw [h1, h2]; exact legal_sample (by decide) (by decide) (by decide) (by decide) (by decide +kernel))
    (by rw [h1, h2]; decide +kernel)
    (by
      rw [h1]
      intro ty rep h
      simp [pairTable] at h
      rcases h with ⟨rfl, rfl⟩
      exact ⟨by decide, by decide⟩)
    (by
      refine ⟨by rw [h1]; exact .inl rfl, ?_, by decide, by decide, fun hf => absurd hf (by decide), rfl⟩
      rw [h1, h2]
      change ∀ r < 1, pairTable.theap + (descriptor pairTable (pairFile.drop 5760) r 1).2 +
        (descriptor pairTable (pairFile.drop 5760) r 1).1 ≤ (pairFile.drop 5760).length
      rw [hunit]
      decide)
    (by rw [h1]; decide)
    (by
      rw [h1, h2]
      intro r hr
      have hr : r = 0 := by change r < 1 at hr; omega
      subst hr
      exact ⟨_, hdec, rfl⟩) 0 (by rw [h1]; decide) 0 (by decide)
  rw [h1, h2] at g2
  have e := hdec.symm.trans g2
  rw [Option.some.injEq, Res.ok.injEq] at e
  have h3' := (of_decide_eq_true h3).2
  change it.after _ _ 11 1 = some it' at g1
  rw [g1] at h3'
  exact of_decide_eq_true h3' e.symm

end Fitsrs

import Verif.Model.Tile
import Verif.Spec.Table
import Verif.Spec.Rice
/-
What the pixels of a tile-compressed image are (FITS 10), independently of the way they are read.  The types of the
values, `BinTable` and `TileCompressedImage` are taken from the model.
-/

namespace Fitsrs.Spec

/-! ### Bytes of a tile -/

/-- The bytes of some 4-byte numbers sorted by significance: the first byte of each, then the second byte of each, and
so on (FITS 10.4.2, GZIP_2). -/
def shuffle (bytes : List UInt8) : List UInt8 :=
  (List.range 4).flatMap fun j => (List.range (bytes.length / 4)).map fun i => bytes.getD (4 * i + j) 0

/-- The pixels as 4-byte big-endian numbers, as the library expects them whatever the type of the pixels. -/
def plainBytes (pixels : List Int) : List UInt8 := pixels.flatMap fun v => bigEndian 4 (v % 2 ^ 32).toNat

/-- The integers that can be stored with a given `ZBITPIX`; quantized floats are 32-bit integers. -/
def InType : Bitpix → Int → Prop
  | .u8, v => 0 ≤ v ∧ v < 2 ^ 8
  | .i16, v => -(2 ^ 15) ≤ v ∧ v < 2 ^ 15
  | _, v => InI32 v

/-- The compressed bytes hold these pixels; `gz` gives the bytes decompressed by gzip. -/
def Holds (gz : Gunzip) : ZCmpType → List Int → List UInt8 → Prop
  | .gzip1, pixels, bytes => plainBytes pixels <+: gz bytes
  | .gzip2, pixels, bytes => shuffle (plainBytes pixels) <+: gz bytes
  | .rice blocksize, pixels, bytes => IsRice blocksize pixels bytes
  | _, _, _ => False

/-! ### Tiles of an image -/

/-- The number of tiles along an axis of `n` pixels, with tiles of `t` pixels. -/
def tilesAlong (n t : Nat) : Nat := (n + t - 1) / t

/-- The number of tiles of an image. -/
def tileCount : List Nat → List Nat → Nat
  | n :: ns, t :: ts => tilesAlong n t * tileCount ns ts
  | _, _ => 1

/-- The number of pixels of tile `k`: the tiles follow one another along the first axis, then along the second one, and
those at the end of an axis are shorter. -/
def tilePixels : List Nat → List Nat → Nat → Nat
  | n :: ns, t :: ts, k =>
    min t (n - k % tilesAlong n t * t) * tilePixels ns ts (k / tilesAlong n t)
  | _, _, _ => 1

/-! ### Columns -/

/-- The number of elements and the offset in the heap of the array of row `r` in column `c`. -/
def descriptor (x : BinTable) (unit : List UInt8) (r c : Nat) : Nat × Nat :=
  let o := r * x.naxis1 + colStart x.tforms c
  match x.tforms[c]? with
  | some (.P _) => (beNat (bytesAt unit o 4), beNat (bytesAt unit (o + 4) 4))
  | some (.Q _) => (beNat (bytesAt unit o 8), beNat (bytesAt unit (o + 8) 8))
  | _ => (0, 0)

/-- The bytes of the array of row `r` in column `c`, an array of bytes. -/
def heapArray (x : BinTable) (unit : List UInt8) (r c : Nat) : List UInt8 :=
  bytesAt unit (x.theap + (descriptor x unit r c).2) (descriptor x unit r c).1

/-- The column holds arrays of bytes. -/
def IsArray (x : BinTable) (c : Nat) : Prop := x.tforms[c]? = some (.P .B) ∨ x.tforms[c]? = some (.Q .B)

/-- Every column has one value in each row. -/
def OneValue (x : BinTable) : Prop := ∀ ty rep, TForm.plain ty rep ∈ x.tforms → rep = 1 ∧ ty ≠ .X

/-! ### Scaling of floats (FITS 10.2) -/

/-- How the integers of a tile are scaled. -/
structure Scaling where
  scale : Scalar
  zero : Scalar
  blank : Option Int

/-- The value of the first column with that name, in row `r`. -/
def NamedValue (x : BinTable) (unit : List UInt8) (name : Str) (r : Nat) (v : Cell) : Prop :=
  ∃ c, c < x.tforms.length ∧ Selects x (.name name) c ∧ cellValues false x unit r c = [.cell c 0 v]

/-- The value is a floating-point number. -/
def IsScalar : Cell → Scalar → Prop
  | .float n, s => s = .float n
  | .double n, s => s = .double n
  | _, _ => False

/-- The value is an integer. -/
def IsInteger : Cell → Int → Prop
  | .ubyte n, v => v = n
  | .short n, v => v = n
  | .integer n, v => v = n
  | .long n, v => v = n ∧ InI32 n
  | _, _ => False

/-- The scaling of the tile of row `r`: columns `ZSCALE` and `ZZERO`, and either a column or a keyword `ZBLANK`. -/
structure HasScaling (h : Header BinTable) (unit : List UInt8) (r : Nat) (s : Scaling) : Prop where
  scale : ∃ v, NamedValue h.xtension unit "ZSCALE".toList r v ∧ IsScalar v s.scale
  zero : ∃ v, NamedValue h.xtension unit "ZZERO".toList r v ∧ IsScalar v s.zero
  column : some "ZBLANK".toList ∈ h.xtension.ttypes →
    ∃ v b, NamedValue h.xtension unit "ZBLANK".toList r v ∧ IsInteger v b ∧ s.blank = some b
  keyword : some "ZBLANK".toList ∉ h.xtension.ttypes →
    ∀ b, s.blank = some b ↔ HasInt h.values "ZBLANK".toList b ∧ InI32 b

/-- The pixels of floats. -/
def IsFloat (ty : Bitpix) : Prop := ty = .f32 ∨ ty = .f64

instance (ty : Bitpix) : Decidable (IsFloat ty) := inferInstanceAs (Decidable (_ ∨ _))

/-- The columns from which the tiles are read: that of the compressed data, and those of the scaling of floats. -/
def Uses (x : BinTable) (z : TileCompressedImage) (c : Nat) : Prop :=
  c = z.dataCompressedIdx ∨ IsFloat z.zBitpix ∧ ∃ name ∈ ["ZSCALE".toList, "ZZERO".toList, "ZBLANK".toList],
    Selects x (.name name) c

/-- Every column has values, not whole bytes of bits, and those that come before a column from which the tiles are read
have one value in each row. -/
structure Aligned (x : BinTable) (z : TileCompressedImage) : Prop where
  cells : ∀ ty rep, TForm.plain ty rep ∈ x.tforms → 0 < rep ∧ (ty = .X → rep % 8 ≠ 0)
  before : ∀ c, Uses x z c → ∀ b < c, ∀ ty rep, x.tforms[b]? = some (.plain ty rep) → count ty rep = 1

/-- The pixel whose integer is `v`: `v` itself, or `v * ZSCALE + ZZERO` unless it is the blank value. -/
def pixelOf (ty : Bitpix) (s : Scaling) (v : Int) : TilePixel :=
  if IsFloat ty then if s.blank = some v then .nan else .linear v s.scale s.zero else .int v

/-! ### Dithering -/

/-- The seeds prescribed (FITS, appendix I): `x ↦ 16807 x mod (2^31 - 1)`, from 1. -/
def parkMiller : Nat → Nat
  | 0 => 1
  | k + 1 => 16807 * parkMiller k % (2 ^ 31 - 1)

end Fitsrs.Spec

namespace Fitsrs

/-- The results of `n` calls of `next`; `none` at the end if a loop did not finish with the given fuel. -/
def TileIt.run (p : Profile) (gz : Gunzip) (fuel : Nat) :
    Nat → TileIt → List (Option (Res (Option TilePixel)))
  | 0, _ => []
  | n + 1, it =>
    match it.next p gz fuel with
    | none => [none]
    | some (r, it') => some r :: TileIt.run p gz fuel n it'

/-- The state after `n` calls of `next`. -/
def TileIt.after (p : Profile) (gz : Gunzip) (fuel : Nat) : Nat → TileIt → Option TileIt
  | 0, it => some it
  | n + 1, it =>
    match it.next p gz fuel with
    | none => none
    | some (_, it') => TileIt.after p gz fuel n it'

/-- The results of `n` calls of an iterator over `vs`. -/
def Spec.tileScan (vs : List TilePixel) (n : Nat) : List (Option (Res (Option TilePixel))) :=
  (vs.take n).map (fun v => some (.ok (some v))) ++ List.replicate (n - vs.length) (some (.ok none))

/-- The results of the calls up to the first `None`. -/
def Spec.untilNone {α : Type} : List (Option (Res (Option α))) → List (Option (Res (Option α)))
  | [] => []
  | some (.ok none) :: _ => [some (.ok none)]
  | r :: rs => r :: untilNone rs

end Fitsrs

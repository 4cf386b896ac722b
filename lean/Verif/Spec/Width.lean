import Verif.Spec.TileSamples
/-
Compressed pixels of one, two or four bytes (FITS 10.4): the width is that of `ZBITPIX` with GZIP, the value of the
parameter `BYTEPIX` with RICE.
-/

namespace Fitsrs.Spec

/-! ### RICE with pixels of `w` bytes -/

/-- The number of bits that tell how a block is coded. -/
def codeBits : Nat → Nat
  | 1 => 3
  | 2 => 4
  | _ => 5

/-- The number of ways to split differences. -/
def splits : Nat → Nat
  | 1 => 6
  | 2 => 14
  | _ => 25

/-- The signed integer of `w` bytes equal to `x` modulo `2^(8w)`. -/
def wrapBytes (w : Nat) (x : Int) : Int := (x + 2 ^ (8 * w - 1)) % 2 ^ (8 * w) - 2 ^ (8 * w - 1)

/-- The differences of a list of pixels of `w` bytes with the pixel before, mapped to unsigned numbers. -/
def diffsOf (w : Nat) : Int → List Int → List Nat
  | _, [] => []
  | last, v :: vs => zigzag (wrapBytes w (v - last)) :: diffsOf w v vs

/-- The codings that the format permits for some differences. -/
def Coding.PermitsFor (w : Nat) : Coding → List Nat → Prop
  | .low, ds => ∀ d ∈ ds, d = 0
  | .split fs, _ => fs < splits w
  | .high, _ => True

/-- The bits of a block. -/
def blockBitsOf (w : Nat) : Coding → List Nat → List Bool
  | .low, _ => bitsOf (codeBits w) 0
  | .split fs, ds => bitsOf (codeBits w) (fs + 1) ++ ds.flatMap (splitBits fs)
  | .high, ds => bitsOf (codeBits w) (splits w + 1) ++ ds.flatMap (bitsOf (8 * w))

/-- The bits code the pixels, by blocks of `nblock` pixels (the last one may be shorter), after the pixel `last`. -/
inductive BlocksOf (w nblock : Nat) : Int → List Int → List Bool → Prop
  | nil {last : Int} : BlocksOf w nblock last [] []
  | block {last : Int} {block rest : List Int} {bits : List Bool} (c : Coding) (h0 : block ≠ [])
    (h1 : block.length = nblock ∨ (block.length ≤ nblock ∧ rest = [])) (h2 : c.PermitsFor w (diffsOf w last block))
    (h3 : BlocksOf w nblock (block.getLast h0) rest bits) :
    BlocksOf w nblock last (block ++ rest) (blockBitsOf w c (diffsOf w last block) ++ bits)

/-- The bytes code pixels of `w` bytes: the first pixel as it is, then all the pixels by blocks, then anything. -/
def IsRiceOf (w nblock : Nat) (pixels : List Int) (bytes : List UInt8) : Prop :=
  ∃ first bits pad, pixels.head? = some first ∧ BlocksOf w nblock first pixels bits ∧
    byteBits bytes = bitsOf (8 * w) (first % 2 ^ (8 * w)).toNat ++ bits ++ pad

/-! ### GZIP with pixels of `w` bytes -/

/-- The pixels as big-endian numbers of `w` bytes. -/
def plainBytesOf (w : Nat) (pixels : List Int) : List UInt8 :=
  pixels.flatMap fun v => bigEndian w (v % 2 ^ (8 * w)).toNat

/-- The bytes of some numbers of `w` bytes sorted by significance. -/
def shuffleOf (w : Nat) (bytes : List UInt8) : List UInt8 :=
  (List.range w).flatMap fun j => (List.range (bytes.length / w)).map fun i => bytes.getD (w * i + j) 0

/-- The compressed bytes hold these pixels of `w` bytes; `gz` gives the bytes decompressed by gzip. -/
def HoldsFor (gz : Gunzip) (w : Nat) : ZCmpType → List Int → List UInt8 → Prop
  | .gzip1, pixels, bytes => plainBytesOf w pixels <+: gz bytes
  | .gzip2, pixels, bytes => shuffleOf w (plainBytesOf w pixels) <+: gz bytes
  | .rice blocksize, pixels, bytes => IsRiceOf w blocksize pixels bytes
  | _, _, _ => False

/-! ### The width -/

/-- The number of bytes of the integers with a given `ZBITPIX`; quantized floats are 32-bit integers. -/
def widthOf : Bitpix → Nat
  | .u8 => 1
  | .i16 => 2
  | _ => 4

/-- The width of pixels compressed with RICE: the value of the only parameter named `BYTEPIX`, 4 if there is none. -/
def BytePix (m : ValueMap) (w : Nat) : Prop :=
  (∃ i, HasInt m (kwN "ZVAL" i) w ∧ (∃ c, m.get (kwN "ZNAME" i) = some (.string "BYTEPIX".toList c)) ∧
    ∀ t c, m.get ("ZNAME".toList ++ t) = some (.string "BYTEPIX".toList c) → t = natStr i) ∨
  (w = 4 ∧ ∀ t c, m.get ("ZNAME".toList ++ t) ≠ some (.string "BYTEPIX".toList c))

/-- The width of the pixels of a compressed image. -/
def PixelWidth (m : ValueMap) (z : TileCompressedImage) (w : Nat) : Prop :=
  (w = 1 ∨ w = 2 ∨ w = 4) ∧
  match z.zCmpType with
  | .rice _ => BytePix m w
  | _ => w = widthOf z.zBitpix

/-! ### What is made of four bytes -/

/-- The integer made of the last bytes of the `i`-th of `n` numbers of four bytes, as many as the type has (quantized floats are
32-bit integers).  The bytes of a number follow each other, or, for pixels of two or four bytes in GZIP_2, are `n` bytes apart. -/
def readAs (ty : Bitpix) (cmp : ZCmpType) (n : Nat) (bytes : List UInt8) (i : Nat) : Int :=
  let b (j : Nat) : Nat := (bytes.getD (if cmp = .gzip2 ∧ ty ≠ .u8 then n * j + i else 4 * i + j) 0).toNat
  match ty with
  | .u8 => b 3
  | .i16 => if b 2 < 128 then 256 * b 2 + b 3 else 256 * b 2 + b 3 - 65536
  | _ =>
    let v : Nat := 16777216 * b 0 + 65536 * b 1 + 256 * b 2 + b 3
    if b 0 < 128 then v else v - 4294967296

end Fitsrs.Spec

namespace Fitsrs

/-- An image of two bytes, 7 and 7, compressed with RICE as numbers of one byte. -/
def bytesTileFile : List UInt8 :=
  tableFile ["NAXIS1  =                    8", "NAXIS2  =                    1", "PCOUNT  =                    2",
    "TFIELDS =                    1", "TFORM1  = '1PB'", "TTYPE1  = 'COMPRESSED_DATA'",
    "ZIMAGE  =                    T", "ZCMPTYPE= 'RICE_1'", "ZBITPIX =                    8",
    "ZNAXIS  =                    1", "ZNAXIS1 =                    2", "ZTILE1  =                    2",
    "ZNAME1  = 'BLOCKSIZE'", "ZVAL1   =                    2", "ZNAME2  = 'BYTEPIX'", "ZVAL2   =                    1"]
    ([0, 0, 0, 2, 0, 0, 0, 0, 7, 0] ++ List.replicate 2870 0)

def bytesTileImage : TileCompressedImage :=
  { zCmpType := .rice 2, zBitpix := .u8, zNaxisn := [2], zTilen := [2], zQuantiz := none, zDither0 := none
    dataCompressedIdx := 0 }

def bytesTileTable : BinTable :=
  { bitpix := .u8, naxis1 := 8, naxis2 := 1, tfields := 1, theap := 8, tforms := [.P .B]
    ttypes := [some "COMPRESSED_DATA".toList], pcount := 2, gcount := 1, zImage := some bytesTileImage }

/-- An image of two shorts, 258 and -2, compressed with GZIP; the bytes of the heap stand for those of gzip, the sample
being read with a decoder that copies the first four. -/
def shortsTileFile : List UInt8 :=
  tableFile ["NAXIS1  =                    8", "NAXIS2  =                    1", "PCOUNT  =                    4",
    "TFIELDS =                    1", "TFORM1  = '1PB'", "TTYPE1  = 'COMPRESSED_DATA'",
    "ZIMAGE  =                    T", "ZCMPTYPE= 'GZIP_1'", "ZBITPIX =                   16",
    "ZNAXIS  =                    1", "ZNAXIS1 =                    2", "ZTILE1  =                    2"]
    ([0, 0, 0, 4, 0, 0, 0, 0, 1, 2, 0xFF, 0xFE] ++ List.replicate 2868 0)

def shortsTileImage : TileCompressedImage :=
  { zCmpType := .gzip1, zBitpix := .i16, zNaxisn := [2], zTilen := [2], zQuantiz := none, zDither0 := none
    dataCompressedIdx := 0 }

def shortsTileTable : BinTable :=
  { bitpix := .u8, naxis1 := 8, naxis2 := 1, tfields := 1, theap := 8, tforms := [.P .B]
    ttypes := [some "COMPRESSED_DATA".toList], pcount := 4, gcount := 1, zImage := some shortsTileImage }

end Fitsrs

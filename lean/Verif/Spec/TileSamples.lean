import Verif.Spec.Tile
import Verif.Spec.TableSamples
/-
Sample files with a tile-compressed image.
-/

namespace Fitsrs
open Spec

/-- An image of 4 × 1 floats in tiles of 2 × 1, compressed with RICE in blocks of two: the integers are 7, 7 and 8, 3;
the scales are 1.0 and 2.0, the zeros 0.0 and 1.0, the blank value is 3. -/
def floatTilesFile : List UInt8 :=
  tableFile ["NAXIS1  =                   28", "NAXIS2  =                    2", "PCOUNT  =                   11",
    "TFIELDS =                    4", "TFORM1  = '1PB'", "TFORM2  = '1D'", "TFORM3  = '1D'", "TFORM4  = '1J'",
    "TTYPE1  = 'COMPRESSED_DATA'", "TTYPE2  = 'ZSCALE'", "TTYPE3  = 'ZZERO'", "TTYPE4  = 'ZBLANK'",
    "ZIMAGE  =                    T", "ZCMPTYPE= 'RICE_1'", "ZBITPIX =                  -32",
    "ZNAXIS  =                    2", "ZNAXIS1 =                    4", "ZNAXIS2 =                    1",
    "ZTILE1  =                    2", "ZTILE2  =                    1", "ZNAME1  = 'BLOCKSIZE'",
    "ZVAL1   =                    2"]
    [0, 0, 0, 5, 0, 0, 0, 0, 0x3F, 0xF0, 0, 0, 0, 0, 0, 0, 0, 0, 0, 0, 0, 0, 0, 0, 0, 0, 0, 3,
     0, 0, 0, 6, 0, 0, 0, 5, 0x40, 0, 0, 0, 0, 0, 0, 0, 0x3F, 0xF0, 0, 0, 0, 0, 0, 0, 0, 0, 0, 3,
     0, 0, 0, 7, 0, 0, 0, 0, 8, 0x14, 0x18]

def floatTilesImage : TileCompressedImage :=
  { zCmpType := .rice 2, zBitpix := .f32, zNaxisn := [4, 1], zTilen := [2, 1], zQuantiz := none, zDither0 := none
    dataCompressedIdx := 0 }

def floatTilesTable : BinTable :=
  { bitpix := .u8, naxis1 := 28, naxis2 := 2, tfields := 4, theap := 56
    tforms := [.P .B, .plain .D 1, .plain .D 1, .plain .J 1]
    ttypes := [some "COMPRESSED_DATA".toList, some "ZSCALE".toList, some "ZZERO".toList, some "ZBLANK".toList]
    pcount := 11, gcount := 1, zImage := some floatTilesImage }

/-- An image of 3 integers in tiles of 2, compressed with RICE in blocks of two: 7, 7 and 5. -/
def edgeFile : List UInt8 :=
  tableFile ["NAXIS1  =                    8", "NAXIS2  =                    2", "PCOUNT  =                   10",
    "TFIELDS =                    1", "TFORM1  = '1PB'", "TTYPE1  = 'COMPRESSED_DATA'",
    "ZIMAGE  =                    T", "ZCMPTYPE= 'RICE_1'", "ZBITPIX =                   32",
    "ZNAXIS  =                    1", "ZNAXIS1 =                    3", "ZTILE1  =                    2",
    "ZNAME1  = 'BLOCKSIZE'", "ZVAL1   =                    2"]
    [0, 0, 0, 5, 0, 0, 0, 0, 0, 0, 0, 5, 0, 0, 0, 5, 0, 0, 0, 7, 0, 0, 0, 0, 5, 0]

def edgeImage : TileCompressedImage :=
  { zCmpType := .rice 2, zBitpix := .i32, zNaxisn := [3], zTilen := [2], zQuantiz := none, zDither0 := none
    dataCompressedIdx := 0 }

def edgeTable : BinTable :=
  { bitpix := .u8, naxis1 := 8, naxis2 := 2, tfields := 1, theap := 16, tforms := [.P .B]
    ttypes := [some "COMPRESSED_DATA".toList], pcount := 10, gcount := 1, zImage := some edgeImage }

/-- An image of 2 integers, 7 and 7, in one tile; before the compressed data there is a column of two bytes. -/
def pairFile : List UInt8 :=
  tableFile ["NAXIS1  =                   10", "NAXIS2  =                    1", "PCOUNT  =                    5",
    "TFIELDS =                    2", "TFORM1  = '2B'", "TFORM2  = '1PB'", "TTYPE2  = 'COMPRESSED_DATA'",
    "ZIMAGE  =                    T", "ZCMPTYPE= 'RICE_1'", "ZBITPIX =                   32",
    "ZNAXIS  =                    1", "ZNAXIS1 =                    2", "ZTILE1  =                    2",
    "ZNAME1  = 'BLOCKSIZE'", "ZVAL1   =                    2"]
    [1, 2, 0, 0, 0, 5, 0, 0, 0, 0, 0, 0, 0, 7, 0]

def pairImage : TileCompressedImage :=
  { zCmpType := .rice 2, zBitpix := .i32, zNaxisn := [2], zTilen := [2], zQuantiz := none, zDither0 := none
    dataCompressedIdx := 1 }

def pairTable : BinTable :=
  { bitpix := .u8, naxis1 := 10, naxis2 := 1, tfields := 2, theap := 10, tforms := [.plain .B 2, .P .B]
    ttypes := [none, some "COMPRESSED_DATA".toList], pcount := 5, gcount := 1, zImage := some pairImage }

/-- The second call returns this table, which gives an image, whose iteration satisfies a condition. -/
def returnsTiles (p : Profile) (data : List UInt8) (x : BinTable) (z : TileCompressedImage) (ok : TileIt → Bool) : Bool :=
  match (afterPrimary data).next p with
  | (some (.ok (.binTable h)), f') =>
    decide (h.header.xtension = x ∧ h.dataOffset = 5760) &&
      match f'.getTiles p h z with
      | .ok it => ok it
      | _ => false
  | _ => false

end Fitsrs

import Verif.Spec.Writer
import Verif.Spec.Samples
/-
Sample files as written.
-/

namespace Fitsrs
open Spec

/-- A line with an integer. -/
def intLine (kw : String) (n : Nat) : Line := .value kw.toList (.int none 0 n) 1 (69 - (Nat.toDigits 10 n).length) none

/-- A line with a string. -/
def strLine (kw s : String) : Line := .value kw.toList (.str s.toList) 0 (70 - (quoted s.toList).length) none

/-- The first lines. -/
def simpleLine : FirstLine := .simple 0 69 none
def xtensionLine (x : XtensionType) : FirstLine := .xtension x 0 0 (70 - (quoted (xtensionName x)).length) none

/-- A primary HDU with two pixels of 16 bits. -/
def writtenPrimary : WrittenHdu :=
  { heading := ⟨simpleLine, [intLine "BITPIX" 16, intLine "NAXIS" 1, intLine "NAXIS1" 2, strLine "OBJECT" "M 31",
      .comment (toBytes ("a comment".toList ++ blank 63))]⟩
    headerFill := blanks (2880 - 7 * 80)
    body := .image .i16 [2] [.i16 258, .i16 (-2)]
    dataFill := List.replicate 2876 0 }

/-- The lines of a table. -/
def tableLines (width rows pcount fields : Nat) : List Line :=
  [intLine "BITPIX" 8, intLine "NAXIS" 2, intLine "NAXIS1" width, intLine "NAXIS2" rows, intLine "PCOUNT" pcount,
   intLine "GCOUNT" 1, intLine "TFIELDS" fields]

/-- An ASCII table of two rows of four characters. -/
def writtenAscii : WrittenHdu :=
  { heading := ⟨xtensionLine .asciiTable, tableLines 4 2 0 1 ++ [intLine "TBCOL1" 1, strLine "TFORM1" "I4"]⟩
    headerFill := blanks (2880 - 11 * 80)
    body := .ascii 4 2 1 (toBytes "   1  -2".toList)
    dataFill := List.replicate 2872 32 }

/-- A binary table of two rows, with two shorts and three characters. -/
def writtenTable : WrittenHdu :=
  { heading := ⟨xtensionLine .binTable, tableLines 7 2 0 2 ++ [strLine "TFORM1" "2I", strLine "TFORM2" "3A"]⟩
    headerFill := blanks (2880 - 11 * 80)
    body := .table
      { columns := [.plain .I 2, .plain .A 3]
        rows := [[.values [.short 1, .short (-2)], .values [.char 65, .char 66, .char 67]],
          [.values [.short 256, .short 3], .values [.char 68, .char 69, .char 70]]]
        gap := [], heap := [] }
    dataFill := [] }

/-- A binary table of two rows, with an array of shorts and a byte; the heap comes after a gap of one byte, and the two
arrays share a value. -/
def writtenArrays : WrittenHdu :=
  { heading := ⟨xtensionLine .binTable, tableLines 9 2 7 2 ++
      [strLine "TFORM1" "1PI(2)", strLine "TFORM2" "1B", intLine "THEAP" 19]⟩
    headerFill := blanks (2880 - 12 * 80)
    body := .table
      { columns := [.array false .I, .plain .B 1]
        rows := [[.array false 0 [.short 5, .short 6], .values [.ubyte 9]], [.array false 2 [.short 6, .short (-1)], .values [.ubyte 8]]]
        gap := [0xFF], heap := [0, 5, 0, 6, 0xFF, 0xFF] }
    dataFill := [] }

/-- A binary table with one logical value, false. -/
def writtenFalse : WrittenHdu :=
  { heading := ⟨xtensionLine .binTable, tableLines 1 1 0 1 ++ [strLine "TFORM1" "1L"]⟩
    headerFill := blanks (2880 - 10 * 80)
    body := .table { columns := [.plain .L 1], rows := [[.values [.logical false]]], gap := [], heap := [] }
    dataFill := [] }

/-- A compressed image of 4 × 1 floats in tiles of 2 × 1, with RICE in blocks of two: the integers are 7, 7 and 8, 3; the
scales are 1.0 and 2.0, the zeros 0.0 and 1.0, the blank value is 3. -/
def floatTiles : WrittenTiles :=
  { table :=
      { columns := [.array false .B, .plain .D 1, .plain .D 1, .plain .J 1]
        rows := [[.array false 0 [.ubyte 0, .ubyte 0, .ubyte 0, .ubyte 7, .ubyte 0], .values [.double 0x3FF0000000000000],
            .values [.double 0], .values [.integer 3]],
          [.array false 5 [.ubyte 0, .ubyte 0, .ubyte 0, .ubyte 8, .ubyte 0x14, .ubyte 0x18],
            .values [.double 0x4000000000000000], .values [.double 0x3FF0000000000000], .values [.integer 3]]]
        gap := [], heap := [0, 0, 0, 7, 0, 0, 0, 0, 8, 0x14, 0x18] }
    cmp := .rice 2, bitpix := .f32, axes := [4, 1], tileAxes := [2, 1], column := 0, tiles := [[7, 7], [8, 3]]
    scalings := [⟨.double 0x3FF0000000000000, .double 0, some 3⟩,
      ⟨.double 0x4000000000000000, .double 0x3FF0000000000000, some 3⟩] }

/-- The header of a compressed image with RICE in blocks of two. -/
def riceLines (bitpix : Line) : List Line :=
  [strLine "TTYPE1" "COMPRESSED_DATA", strLine "TFORM1" "1PB", strLine "ZCMPTYPE" "RICE_1", bitpix,
   strLine "ZNAME1" "BLOCKSIZE", intLine "ZVAL1" 2]

def writtenTiles : WrittenHdu :=
  { heading := ⟨xtensionLine .binTable, tableLines 28 2 11 4 ++
      riceLines (.value "ZBITPIX".toList (.int (some true) 0 32) 1 66 none) ++
      [strLine "TFORM2" "1D", strLine "TFORM3" "1D", strLine "TFORM4" "1J", strLine "TTYPE2" "ZSCALE",
       strLine "TTYPE3" "ZZERO", strLine "TTYPE4" "ZBLANK", intLine "ZNAXIS" 2, intLine "ZNAXIS1" 4,
       intLine "ZNAXIS2" 1, intLine "ZTILE1" 2]⟩
    headerFill := blanks (2880 - 25 * 80)
    body := .tiles floatTiles
    dataFill := List.replicate 2813 0 }

/-- A compressed image of 3 integers in tiles of 2, with RICE in blocks of two: 7, 7 and 5. -/
def edgeTiles : WrittenTiles :=
  { table :=
      { columns := [.array false .B]
        rows := [[.array false 0 [.ubyte 0, .ubyte 0, .ubyte 0, .ubyte 7, .ubyte 0]],
          [.array false 5 [.ubyte 0, .ubyte 0, .ubyte 0, .ubyte 5, .ubyte 0]]]
        gap := [], heap := [0, 0, 0, 7, 0, 0, 0, 0, 5, 0] }
    cmp := .rice 2, bitpix := .i32, axes := [3], tileAxes := [2], column := 0, tiles := [[7, 7], [5]], scalings := [] }

def writtenEdge : WrittenHdu :=
  { heading := ⟨xtensionLine .binTable, tableLines 8 2 10 1 ++ riceLines (intLine "ZBITPIX" 32) ++
      [intLine "ZNAXIS" 1, intLine "ZNAXIS1" 3, intLine "ZTILE1" 2]⟩
    headerFill := blanks (2880 - 18 * 80)
    body := .tiles edgeTiles
    dataFill := [] }

end Fitsrs

import Verif.Model.Table
import Verif.Spec.Samples
/-
Sample files with a binary table.
-/

namespace Fitsrs
open Spec

/-- A primary header without data. -/
def emptyPrimary : List UInt8 :=
  [rec80 "SIMPLE  =                    T", rec80 "BITPIX  =                    8",
   rec80 "NAXIS   =                    0", rec80 "END"].flatten ++ blanks 2560

/-- A file with a binary table, given its keywords from `NAXIS1` on and its data unit. -/
def tableFile (keywords : List String) (data : List UInt8) : List UInt8 :=
  emptyPrimary ++
    ([rec80 "XTENSION= 'BINTABLE'", rec80 "BITPIX  =                    8", rec80 "NAXIS   =                    2"] ++
      keywords.map rec80 ++ [rec80 "GCOUNT  =                    1", rec80 "END"]).flatten ++
    blanks (2880 - 80 * (keywords.length + 5)) ++ data

/-- The state after the primary HDU. -/
def afterPrimary (data : List UInt8) : Fits :=
  { start := false, posStart := 2880, numBytes := 0, errored := false, rd := ⟨data, 2880⟩ }

/-- Two shorts and three characters, two rows. -/
def mixedFile : List UInt8 :=
  tableFile ["NAXIS1  =                    7", "NAXIS2  =                    2", "PCOUNT  =                    0",
    "TFIELDS =                    2", "TFORM1  = '2I'", "TFORM2  = '3A'", "TTYPE2  = 'NAME'"]
    [0, 1, 0xFF, 0xFE, 65, 66, 67, 1, 0, 0, 3, 68, 69, 70]

/-- Eight bits, two rows. -/
def bitsFile : List UInt8 :=
  tableFile ["NAXIS1  =                    1", "NAXIS2  =                    2", "PCOUNT  =                    0",
    "TFIELDS =                    1", "TFORM1  = '8X'"] [0xA0, 0x0B]

/-- Eight bits and a byte, one row, with some bytes of fill. -/
def bitByteFile : List UInt8 :=
  tableFile ["NAXIS1  =                    2", "NAXIS2  =                    1", "PCOUNT  =                    0",
    "TFIELDS =                    2", "TFORM1  = '8X'", "TFORM2  = '1B'"] [0xA0, 7, 0, 0, 0, 0]

/-- An array of shorts and a byte, two rows; the heap holds 5, 6, 7. -/
def arrayFile : List UInt8 :=
  tableFile ["NAXIS1  =                    9", "NAXIS2  =                    2", "PCOUNT  =                    6",
    "TFIELDS =                    2", "TFORM1  = '1PI'", "TFORM2  = '1B'"]
    [0, 0, 0, 2, 0, 0, 0, 0, 9, 0, 0, 0, 1, 0, 0, 0, 4, 8, 0, 5, 0, 6, 0, 7]

/-- An empty array and a byte, with some bytes of fill. -/
def emptyArrayFile : List UInt8 :=
  tableFile ["NAXIS1  =                    9", "NAXIS2  =                    1", "PCOUNT  =                    0",
    "TFIELDS =                    2", "TFORM1  = '1PB'", "TFORM2  = '1B'"] [0, 0, 0, 0, 0, 0, 0, 0, 9, 0, 0]

/-- One logical value, false. -/
def falseFile : List UInt8 :=
  tableFile ["NAXIS1  =                    1", "NAXIS2  =                    1", "PCOUNT  =                    0",
    "TFIELDS =                    1", "TFORM1  = '1L'"] [0x46]

/-- A table without columns. -/
def noColumnsFile : List UInt8 :=
  tableFile ["NAXIS1  =                    0", "NAXIS2  =                    1", "PCOUNT  =                    0",
    "TFIELDS =                    0"] []

/-- The second call returns this table. -/
def returnsTable (p : Profile) (data : List UInt8) (x : BinTable) : Bool :=
  match ((afterPrimary data).next p).1 with
  | some (.ok (.binTable h)) => decide (h.header.xtension = x ∧ h.dataOffset = 5760)
  | _ => false

def mixedTable : BinTable :=
  { bitpix := .u8, naxis1 := 7, naxis2 := 2, tfields := 2, theap := 14, tforms := [.plain .I 2, .plain .A 3]
    ttypes := [none, some "NAME".toList], pcount := 0, gcount := 1, zImage := none }

def bitsTable : BinTable :=
  { bitpix := .u8, naxis1 := 1, naxis2 := 2, tfields := 1, theap := 2, tforms := [.plain .X 8]
    ttypes := [none], pcount := 0, gcount := 1, zImage := none }

def bitByteTable : BinTable :=
  { bitpix := .u8, naxis1 := 2, naxis2 := 1, tfields := 2, theap := 2, tforms := [.plain .X 8, .plain .B 1]
    ttypes := [none, none], pcount := 0, gcount := 1, zImage := none }

def arrayTable : BinTable :=
  { bitpix := .u8, naxis1 := 9, naxis2 := 2, tfields := 2, theap := 18, tforms := [.P .I, .plain .B 1]
    ttypes := [none, none], pcount := 6, gcount := 1, zImage := none }

def emptyArrayTable : BinTable :=
  { bitpix := .u8, naxis1 := 9, naxis2 := 1, tfields := 2, theap := 9, tforms := [.P .B, .plain .B 1]
    ttypes := [none, none], pcount := 0, gcount := 1, zImage := none }

def noColumnsTable : BinTable :=
  { bitpix := .u8, naxis1 := 0, naxis2 := 1, tfields := 0, theap := 0, tforms := []
    ttypes := [], pcount := 0, gcount := 1, zImage := none }

def falseTable : BinTable :=
  { bitpix := .u8, naxis1 := 1, naxis2 := 1, tfields := 1, theap := 1, tforms := [.plain .L 1]
    ttypes := [none], pcount := 0, gcount := 1, zImage := none }

end Fitsrs

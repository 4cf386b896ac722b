import Verif.Spec.History
/-
Sample files used in the examples beside the theorems.
-/

namespace Fitsrs
open Spec

def blanks (n : Nat) : List UInt8 := List.replicate n 0x20

/-- Header of a primary HDU with ten bytes of data. -/
def samplePrimaryRecords : List (List UInt8) :=
  [rec80 "SIMPLE  =                    T", rec80 "BITPIX  =                    8",
   rec80 "NAXIS   =                    1", rec80 "NAXIS1  =                   10", rec80 "END"]

/-- Header of an image extension of 2 x 3 sixteen bit pixels. -/
def sampleImageRecords : List (List UInt8) :=
  [rec80 "XTENSION= 'IMAGE   '           / extension", rec80 "BITPIX  =                   16",
   rec80 "NAXIS   =                    2", rec80 "NAXIS1  =                    2",
   rec80 "NAXIS2  =                    3", rec80 "PCOUNT  =                    0",
   rec80 "GCOUNT  =                    1", rec80 "END"]

/-- The primary HDU. -/
def samplePrimarySegment : Segment :=
  { records := samplePrimaryRecords, headerFill := blanks 2480
    data := List.replicate 10 7, dataFill := List.replicate 2870 0 }

/-- The extension, last in the file, without fill. -/
def sampleImageSegment : Segment :=
  { records := sampleImageRecords, headerFill := blanks 2240
    data := [0, 1, 0, 2, 0, 3, 0, 4, 0, 5, 0, 6], dataFill := [] }

def sampleFile : List UInt8 := samplePrimarySegment.bytes ++ sampleImageSegment.bytes

def samplePrimaryHdu : HDU :=
  let cards : List Card :=
    [.value "SIMPLE".toList (.logical true none), .value "BITPIX".toList (.integer 8 none),
     .value "NAXIS".toList (.integer 1 none), .value "NAXIS1".toList (.integer 10 none), .end_]
  .primary
    { header :=
        { cards
          values := [("SIMPLE".toList, .logical true none), ("BITPIX".toList, .integer 8 none),
            ("NAXIS".toList, .integer 1 none), ("NAXIS1".toList, .integer 10 none)]
          xtension := { bitpix := .u8, naxisn := [10] } }
      dataOffset := 2880 }

def sampleImageHdu : HDU :=
  let cards : List Card :=
    [.xtension .image (some " extension".toList), .value "BITPIX".toList (.integer 16 none),
     .value "NAXIS".toList (.integer 2 none), .value "NAXIS1".toList (.integer 2 none),
     .value "NAXIS2".toList (.integer 3 none), .value "PCOUNT".toList (.integer 0 none),
     .value "GCOUNT".toList (.integer 1 none), .end_]
  .image
    { header :=
        { cards
          values := [("XTENSION".toList, .string "IMAGE".toList none),
            ("BITPIX".toList, .integer 16 none), ("NAXIS".toList, .integer 2 none),
            ("NAXIS1".toList, .integer 2 none), ("NAXIS2".toList, .integer 3 none),
            ("PCOUNT".toList, .integer 0 none), ("GCOUNT".toList, .integer 1 none)]
          xtension := { bitpix := .i16, naxisn := [2, 3] } }
      dataOffset := 8640 }

end Fitsrs

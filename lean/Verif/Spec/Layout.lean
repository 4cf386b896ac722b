/-
Specification of the block structure of a FITS file: records of 80 bytes, blocks of 2880 bytes.
Independent of the model.
-/

namespace Fitsrs.Spec

/-- The `i`-th 80-byte record of a byte sequence counted from position `pos`. -/
def recordAt (data : List UInt8) (pos i : Nat) : List UInt8 := (data.drop (pos + 80 * i)).take 80

/-- Smallest multiple of 2880 that is at least `n`. -/
def roundUp2880 (n : Nat) : Nat := (n + 2879) / 2880 * 2880

/-- Blanks (and the other ASCII white space accepted by the reader). -/
def isBlank (b : UInt8) : Prop := b = 0x20 ∨ b = 0x09 ∨ b = 0x0A ∨ b = 0x0C ∨ b = 0x0D

/-- A record whose eight-byte keyword field is `END`, surrounded by blanks. -/
def IsEndRecord (r : List UInt8) : Prop :=
  ∃ a b, r.take 8 = a ++ [0x45, 0x4E, 0x44] ++ b ∧ (∀ x ∈ a, isBlank x) ∧ ∀ x ∈ b, isBlank x

/-- One HDU as written in a file: the records of the header, the fill of the last header block, the
data unit and the fill of the last data block. -/
structure Segment where
  records : List (List UInt8)
  headerFill : List UInt8
  data : List UInt8
  dataFill : List UInt8

/-- The bytes of the header, up to the start of the data unit. -/
def Segment.header (s : Segment) : List UInt8 := s.records.flatten ++ s.headerFill

/-- All the bytes of the HDU. -/
def Segment.bytes (s : Segment) : List UInt8 := s.header ++ s.data ++ s.dataFill

/-- The header consists of 80-byte records of which only the last is an `END` record, and is filled to
a multiple of 2880 bytes. -/
structure Segment.HeaderOk (s : Segment) : Prop where
  len80 : ∀ r ∈ s.records, r.length = 80
  endLast : ∃ rs e, s.records = rs ++ [e] ∧ IsEndRecord e ∧ ∀ r ∈ rs, ¬ IsEndRecord r
  fill : s.header.length = roundUp2880 (80 * s.records.length)

/-- The data unit is filled to a multiple of 2880 bytes. -/
def Segment.DataOk (s : Segment) : Prop :=
  s.data.length + s.dataFill.length = roundUp2880 s.data.length

end Fitsrs.Spec

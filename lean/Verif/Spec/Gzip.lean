/-
The gzip file format (RFC 1952), as far as it concerns the members of a file.  Independent of the model.
-/

namespace Fitsrs.Spec

/-- One bit of the CRC of RFC 1952, section 8. -/
def crcBit (c : UInt32) : UInt32 := if c % 2 = 1 then (0xEDB88320 : UInt32) ^^^ (c >>> 1) else c >>> 1

/-- One byte of the CRC. -/
def crcByte (c : UInt32) (b : UInt8) : UInt32 :=
  let x := c ^^^ b.toUInt32
  crcBit (crcBit (crcBit (crcBit (crcBit (crcBit (crcBit (crcBit x)))))))

/-- The CRC-32 of a list of bytes. -/
def crc32 (bs : List UInt8) : Nat := (bs.foldl crcByte 0xFFFFFFFF ^^^ 0xFFFFFFFF).toNat

/-- `k` bytes, least significant first. -/
def leBytesOf : Nat → Nat → List UInt8
  | 0, _ => []
  | k + 1, n => UInt8.ofNat n :: leBytesOf k (n / 256)

/-- A member of a gzip file: the fields of its header, the compressed data, and what they stand for. -/
structure Member where
  text : Bool
  crc : Bool
  extra : Option (List UInt8)
  name : Option (List UInt8)
  comment : Option (List UInt8)
  mtime : UInt32
  xfl : UInt8
  os : UInt8
  body : List UInt8
  content : List UInt8

namespace Member

/-- The value of a flag. -/
def bit (b : Bool) (n : Nat) : Nat := if b then n else 0

/-- The byte of flags. -/
def flags (m : Member) : UInt8 :=
  UInt8.ofNat (bit m.text 1 + bit m.crc 2 + bit m.extra.isSome 4 + bit m.name.isSome 8 + bit m.comment.isSome 16)

/-- The extra field, preceded by its length. -/
def extraField (m : Member) : List UInt8 :=
  match m.extra with
  | some x => leBytesOf 2 x.length ++ x
  | none => []

/-- A text ended by a zero byte. -/
def textField : Option (List UInt8) → List UInt8
  | some x => x ++ [0]
  | none => []

/-- The header without its CRC. -/
def head (m : Member) : List UInt8 :=
  [0x1F, 0x8B, 8, m.flags] ++ leBytesOf 4 m.mtime.toNat ++ [m.xfl, m.os] ++ m.extraField ++ textField m.name ++
    textField m.comment

/-- The CRC of the header. -/
def headCrc (m : Member) : List UInt8 := if m.crc then leBytesOf 2 (crc32 m.head) else []

/-- The end of the member: CRC and size of the content. -/
def trailer (m : Member) : List UInt8 := leBytesOf 4 (crc32 m.content) ++ leBytesOf 4 m.content.length

/-- All the bytes of the member. -/
def bytes (m : Member) : List UInt8 := m.head ++ m.headCrc ++ m.body ++ m.trailer

/-- The fields are legal: lengths up to 65535, texts without zero byte. -/
structure Legal (m : Member) : Prop where
  extra : ∀ x, m.extra = some x → x.length < 65536
  name : ∀ x, m.name = some x → x.length < 65536 ∧ 0 ∉ x
  comment : ∀ x, m.comment = some x → x.length < 65536 ∧ 0 ∉ x

end Member

end Fitsrs.Spec

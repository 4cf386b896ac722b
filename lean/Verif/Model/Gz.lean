import Verif.Model.Session
import Verif.Spec.Gzip
/-
Model of src/gz.rs and src/file.rs: opening files that may be compressed as a whole.

`flate2::read::GzDecoder` is external; what it does with the header and the trailer of a gzip member is modelled as
documented (RFC 1952), decompression itself is a parameter: `inflate bs` gives the content of the compressed data at the
start of `bs` and their length, or the error.
-/

namespace Fitsrs
open Spec

/-- Skip the extra field: two bytes of length, and that many bytes. -/
def gzSkipExtra : List UInt8 → Option (List UInt8)
  | lo :: hi :: r => if lo.toNat + 256 * hi.toNat ≤ r.length then some (r.drop (lo.toNat + 256 * hi.toNat)) else none
  | _ => none

/-- Skip a text up to its zero byte; `n` more bytes are allowed. -/
def gzSkipText : Nat → List UInt8 → Option (List UInt8)
  | _, [] => none
  | n, b :: bs => if b = 0 then some bs else match n with
    | 0 => none
    | n + 1 => gzSkipText n bs

/-- Check the CRC of the header, whose bytes are `head`. -/
def gzCheckCrc (head : List UInt8) : List UInt8 → Option (List UInt8)
  | lo :: hi :: r => if lo.toNat + 256 * hi.toNat = crc32 head % 65536 then some r else none
  | _ => none

/-- A field that is there if its flag is set. -/
def gzField (flag : Bool) (skip : List UInt8 → Option (List UInt8)) (r : List UInt8) : Option (List UInt8) :=
  if flag then skip r else some r

/-- The fields after the first ten bytes of `bs`, according to the flags. -/
def gzFields (flags : Nat) (bs rest : List UInt8) : Option (List UInt8) :=
  (gzField (flags.testBit 2) gzSkipExtra rest).bind fun r =>
  (gzField (flags.testBit 3) (gzSkipText 65535) r).bind fun r =>
  (gzField (flags.testBit 4) (gzSkipText 65535) r).bind fun r =>
  gzField (flags.testBit 1) (gzCheckCrc (bs.take (bs.length - r.length))) r

/-- `GzDecoder::new` and `GzDecoder::header`: what follows the header, or `none` if the bytes do not start with a
legal header. -/
def gzHeader (bs : List UInt8) : Option (List UInt8) :=
  match bs with
  | i1 :: i2 :: cm :: flags :: _ :: _ :: _ :: _ :: _ :: _ :: rest =>
    if i1 = 0x1F ∧ i2 = 0x8B ∧ cm = 8 ∧ flags.toNat < 32 then gzFields flags.toNat bs rest else none
  | _ => none

/-- `GzDecoder::read_to_end` after the header: the content of the first member, whose CRC and length are checked. -/
def gzContent (inflate : List UInt8 → Res (List UInt8 × Nat)) (body : List UInt8) : Res (List UInt8) :=
  match inflate body with
  | .ok (content, n) =>
    if (body.drop n).length < 8 then .err (.io .unexpectedEof)
    else if (body.drop n).take 8 = leBytesOf 4 (crc32 content) ++ leBytesOf 4 content.length then .ok content
    else .err (.io .invalidInput)
  | .err e => .err e
  | .panic => .panic

/-- `GzReader::new` (src/gz.rs:96-119): a file with a gzip header is decompressed into memory; otherwise the reader is
rewound to its start. -/
def GzReader.new (inflate : List UInt8 → Res (List UInt8 × Nat)) (rd : Reader) : Res Reader :=
  match gzHeader (rd.data.drop rd.pos) with
  | some body => (gzContent inflate body).map fun c => ⟨c, 0⟩
  | none => .ok (rd.seekStart 0)

/-- `FITSFile::open` (src/file.rs:23-30) on a file with the bytes `file`, and the program that has just called it. -/
def Session.openFile (inflate : List UInt8 → Res (List UInt8 × Nat)) (file : List UInt8) : Res Session :=
  (GzReader.new inflate ⟨file, 0⟩).map Session.new

end Fitsrs

import Verif.Spec.Card
/-
Specification of texts that are not made of printable ASCII characters: their encoding (RFC 3629) and how they are shown.
Only `Str` is taken from the model.
-/

namespace Fitsrs.Spec

/-- The bytes of a character in UTF-8. -/
def utf8 (c : Char) : List UInt8 :=
  let n := c.toNat
  (if n < 0x80 then [n]
  else if n < 0x800 then [0xC0 + n / 64, 0x80 + n % 64]
  else if n < 0x10000 then [0xE0 + n / 4096, 0x80 + n / 64 % 64, 0x80 + n % 64]
  else [0xF0 + n / 262144, 0x80 + n / 4096 % 64, 0x80 + n / 64 % 64, 0x80 + n % 64]).map UInt8.ofNat

/-- The bytes of a text in UTF-8. -/
def encode (s : Str) : List UInt8 := s.flatMap utf8

/-- A printable ASCII character is shown as it is, any other one as U+FFFD. -/
def shown (c : Char) : Char := if 0x20 ≤ c.toNat ∧ c.toNat ≤ 0x7E then c else Char.ofNat 0xFFFD

/-- The printable ASCII characters among bytes. -/
def printables (bs : List UInt8) : Str :=
  (bs.filter fun b => decide (0x20 ≤ b ∧ b ≤ 0x7E)).map fun b => Char.ofNat b.toNat

/-- `t` shows the bytes `bs`: a text in UTF-8 is shown character by character; whatever the bytes are, the printable
characters are kept in order, and there is nothing else but characters U+FFFD, no more than one for each other byte. -/
structure ShownText (bs : List UInt8) (t : Str) : Prop where
  text : ∀ s, bs = encode s → t = s.map shown
  kept : t.filter (· ≠ Char.ofNat 0xFFFD) = printables bs
  short : t.length ≤ bs.length

/-- Bytes in which every single quote is doubled. -/
def escapeBytes : List UInt8 → List UInt8
  | [] => []
  | b :: bs => if b = 0x27 then 0x27 :: 0x27 :: escapeBytes bs else b :: escapeBytes bs

/-- Bytes without the white space at their end. -/
def stripBytes (bs : List UInt8) : List UInt8 :=
  (bs.reverse.dropWhile fun b => b == 0x20 || b == 0x09 || b == 0x0A || b == 0x0C || b == 0x0D).reverse

/-- A field of bytes: blanks, quoted bytes, blanks, and possibly a comment. -/
def byteField (lead : Nat) (bs : List UInt8) (pad : Nat) (comment : Option (List UInt8)) : List UInt8 :=
  List.replicate lead 0x20 ++ 0x27 :: (escapeBytes bs ++ 0x27 :: (List.replicate pad 0x20 ++
    match comment with
    | none => []
    | some c => 0x2F :: c))

end Fitsrs.Spec

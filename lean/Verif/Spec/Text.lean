import Verif.Model.Text
/-
Vocabulary for the texts written in header records.  Only the type `Str` is taken from the model.
-/

namespace Fitsrs

/-- Byte string of an ASCII text. -/
def toBytes (s : Str) : List UInt8 := s.map fun c => UInt8.ofNat c.toNat

namespace Spec

/-- The characters allowed in FITS headers: ASCII blank to tilde. -/
def Printable (s : Str) : Prop := ∀ c ∈ s, 0x20 ≤ c.toNat ∧ c.toNat ≤ 0x7E

/-- `n` blanks. -/
def blank (n : Nat) : Str := List.replicate n ' '

/-- A text without its trailing blanks. -/
def stripEnd (s : Str) : Str := (s.reverse.dropWhile (· = ' ')).reverse

/-- A text in which every single quote is doubled. -/
def escape : Str → Str
  | [] => []
  | c :: cs => if c = '\'' then '\'' :: '\'' :: escape cs else c :: escape cs

/-- The string denoted by a quoted text (FITS 4.2.1.1): trailing blanks are not significant, but a string
of blanks is not the null string. -/
def fitsString (s : Str) : Str :=
  if s = [] then [] else if stripEnd s = [] then [' '] else stripEnd s

/-- A comment introduced by a slash. -/
def commentPart : Option Str → Str
  | none => []
  | some c => '/' :: c

/-- A value field: blanks, a value, blanks, and possibly a comment. -/
def field (lead : Nat) (v : Str) (pad : Nat) (comment : Option Str) : Str :=
  blank lead ++ v ++ blank pad ++ commentPart comment

/-- The comment read back. -/
def commentOf (c : Option Str) : Option Str := c.map stripEnd

/-- The keyword field, padded to eight characters. -/
def keywordField (kw : Str) : Str := kw ++ blank (8 - kw.length)

/-- Keywords with a structure of their own. -/
def special : List Str :=
  ["COMMENT".toList, "HISTORY".toList, "CONTINUE".toList, "XTENSION".toList, "HIERARCH".toList, "END".toList]

/-- The name of a value record: one to eight capital letters, digits, hyphens and underscores. -/
structure Name (kw : Str) : Prop where
  nonempty : kw ≠ []
  short : kw.length ≤ 8
  chars : ∀ c ∈ kw, ('A' ≤ c ∧ c ≤ 'Z') ∨ ('0' ≤ c ∧ c ≤ '9') ∨ c = '-' ∨ c = '_'
  plain : kw ∉ special

/-- A value record with the given keyword and value field (80 bytes when the field has 70). -/
def valueRecord (kw f : Str) : List UInt8 := toBytes (keywordField kw ++ ['=', ' '] ++ f)

/-- Where the comment of a value field starts: at the first slash preceded by an even number of quotes
(`inside`: the number of quotes seen so far is odd).  The text before it and the text after it. -/
def cut : (inside : Bool) → Str → Str × Option Str
  | _, [] => ([], none)
  | inside, c :: cs =>
    if c = '/' ∧ inside = false then ([], some cs)
    else
      let r := cut (if c = '\'' then !inside else inside) cs
      (c :: r.1, r.2)

/-- Undoubling of the quotes inside quoted parts. -/
def unquote : (inside : Bool) → Str → Str
  | _, [] => []
  | false, c :: cs => c :: unquote (c = '\'') cs
  | true, [c] => [c]
  | true, c :: d :: cs =>
    if c = '\'' then
      if d = '\'' then '\'' :: unquote true cs else '\'' :: unquote false (d :: cs)
    else c :: unquote true (d :: cs)

/-- A text without leading and trailing blanks. -/
def strip (s : Str) : Str := stripEnd (s.dropWhile (· = ' '))

/-- A quoted text. -/
def quoted (s : Str) : Str := '\'' :: (escape s ++ ['\''])

/-! ### Numerals -/

/-- A sign: absent, `+` or `-`. -/
def signText : Option Bool → Str
  | none => []
  | some false => ['+']
  | some true => ['-']

def isNeg (s : Option Bool) : Bool := s.getD false

/-- Decimal digits only. -/
def Digits (s : Str) : Prop := ∀ c ∈ s, '0' ≤ c ∧ c ≤ '9'

/-- The value of a text of decimal digits, most significant first. -/
def natOf : Str → Nat
  | [] => 0
  | c :: cs => (c.toNat - 48) * 10 ^ cs.length + natOf cs

/-- A decimal integer: sign, leading zeros, digits of the absolute value. -/
def intText (sign : Option Bool) (zeros : Nat) (n : Nat) : Str :=
  signText sign ++ List.replicate zeros '0' ++ Nat.toDigits 10 n

/-- The integer denoted. -/
def signed (sign : Option Bool) (n : Nat) : Int := if isNeg sign then -(n : Int) else n

/-- The exponent part of a real number: letter, sign and digits. -/
structure Exponent where
  letter : Char
  sign : Option Bool
  digits : Str

/-- A real number as written (FITS 4.2.4): sign, digits, point and digits, exponent. -/
structure Numeral where
  sign : Option Bool
  int : Str
  frac : Option Str
  exp : Option Exponent

namespace Numeral

/-- The text of a numeral. -/
def text (x : Numeral) : Str :=
  signText x.sign ++ x.int ++ (match x.frac with | none => [] | some f => '.' :: f) ++
    (match x.exp with | none => [] | some e => e.letter :: (signText e.sign ++ e.digits))

/-- The digits after the point. -/
def fracDigits (x : Numeral) : Str := x.frac.getD []

/-- Legal syntax: at least one digit, at least one digit in the exponent, exponent letter among `letters`. -/
structure Legal (letters : List Char) (x : Numeral) : Prop where
  int : Digits x.int
  frac : Digits x.fracDigits
  nonempty : x.int ++ x.fracDigits ≠ []
  exp : ∀ e, x.exp = some e → e.letter ∈ letters ∧ Digits e.digits ∧ e.digits ≠ []

/-- The decimal exponent. -/
def exponent (x : Numeral) : Int := match x.exp with | none => 0 | some e => signed e.sign (natOf e.digits)

/-- The number denoted: `± mantissa * 10 ^ power`. -/
def value (x : Numeral) : Dec :=
  .fin (isNeg x.sign) (natOf (x.int ++ x.fracDigits)) (x.exponent - (x.fracDigits.length : Int))

end Numeral

end Spec
end Fitsrs

import Verif.Model.Basic
/-
The parts of the Rust standard library on texts that the parser uses: UTF-8 decoding, trimming,
parsing of integers and floating-point numbers, formatting of integers.
-/

namespace Fitsrs

/-- Rust `String`/`&str`, as its list of characters. -/
abbrev Str := List Char

/-- `char::REPLACEMENT_CHARACTER`. -/
def replacement : Char := Char.ofNat 0xFFFD

/-- UTF-8 continuation byte. -/
def isCont (b : UInt8) : Bool := 0x80 ≤ b.toNat && b.toNat < 0xC0

/-- Legal second byte of a three-byte sequence (core::str::lossy). -/
def ok3 (n : Nat) (b1 : UInt8) : Bool :=
  if n = 0xE0 then 0xA0 ≤ b1.toNat && b1.toNat ≤ 0xBF
  else if n = 0xED then 0x80 ≤ b1.toNat && b1.toNat ≤ 0x9F
  else isCont b1

/-- Legal second byte of a four-byte sequence (core::str::lossy). -/
def ok4 (n : Nat) (b1 : UInt8) : Bool :=
  if n = 0xF0 then 0x90 ≤ b1.toNat && b1.toNat ≤ 0xBF
  else if n = 0xF4 then 0x80 ≤ b1.toNat && b1.toNat ≤ 0x8F
  else isCont b1

/-- Decode one UTF-8 sequence starting with byte `b`, `bs` being the following bytes.  The result is
the character (`none` for an ill-formed sequence) and the number of bytes of `bs` that belong to
the sequence (for an ill-formed one: to its maximal valid prefix), as in `core::str::Utf8Chunks`. -/
def utf8Step (b : UInt8) (bs : List UInt8) : Option Char × Nat :=
  let n := b.toNat
  if n < 0x80 then (some (Char.ofNat n), 0)
  else if 0xC2 ≤ n ∧ n ≤ 0xDF then
    match bs with
    | b1 :: _ =>
      if isCont b1 then (some (Char.ofNat ((n - 0xC0) * 64 + (b1.toNat - 0x80))), 1) else (none, 0)
    | [] => (none, 0)
  else if 0xE0 ≤ n ∧ n ≤ 0xEF then
    match bs with
    | b1 :: t =>
      if ok3 n b1 then
        match t with
        | b2 :: _ =>
          if isCont b2 then
            (some (Char.ofNat ((n - 0xE0) * 4096 + (b1.toNat - 0x80) * 64 + (b2.toNat - 0x80))), 2)
          else (none, 1)
        | [] => (none, 1)
      else (none, 0)
    | [] => (none, 0)
  else if 0xF0 ≤ n ∧ n ≤ 0xF4 then
    match bs with
    | b1 :: t =>
      if ok4 n b1 then
        match t with
        | b2 :: u =>
          if isCont b2 then
            match u with
            | b3 :: _ =>
              if isCont b3 then
                (some (Char.ofNat ((n - 0xF0) * 262144 + (b1.toNat - 0x80) * 4096
                  + (b2.toNat - 0x80) * 64 + (b3.toNat - 0x80))), 3)
              else (none, 2)
            | [] => (none, 2)
          else (none, 1)
        | [] => (none, 1)
      else (none, 0)
    | [] => (none, 0)
  else (none, 0)

/-- Lossy decoding, the counter is the number of bytes still belonging to the last sequence. -/
def lossyAux : List UInt8 → Nat → Str
  | [], _ => []
  | _ :: bs, k + 1 => lossyAux bs k
  | b :: bs, 0 => (utf8Step b bs).1.getD replacement :: lossyAux bs (utf8Step b bs).2

/-- `String::from_utf8_lossy`. -/
def utf8Lossy (bs : List UInt8) : Str := lossyAux bs 0

/-- Strict decoding, counter as in `lossyAux`. -/
def utf8Aux : List UInt8 → Nat → Option Str
  | [], _ => some []
  | _ :: bs, k + 1 => utf8Aux bs k
  | b :: bs, 0 =>
    match (utf8Step b bs).1 with
    | none => none
    | some c => (utf8Aux bs (utf8Step b bs).2).map (c :: ·)

/-- `std::str::from_utf8`, `none` for the error `Utf8Error`. -/
def utf8Strict (bs : List UInt8) : Option Str := utf8Aux bs 0

/-- `u8::is_ascii_whitespace`: space, tab, line feed, form feed, carriage return. -/
def isAsciiWs (b : UInt8) : Bool :=
  b == 0x20 || b == 0x09 || b == 0x0A || b == 0x0C || b == 0x0D

/-- `char::is_ascii_whitespace`. -/
def isAsciiWsChar (c : Char) : Bool :=
  c == ' ' || c == '\t' || c == '\n' || c == Char.ofNat 0x0C || c == '\r'

/-- `char::is_whitespace` (Unicode property White_Space). -/
def isWs (c : Char) : Bool :=
  let n := c.toNat
  (0x09 ≤ n && n ≤ 0x0D) || n == 0x20 || n == 0x85 || n == 0xA0 || n == 0x1680
    || (0x2000 ≤ n && n ≤ 0x200A) || n == 0x2028 || n == 0x2029 || n == 0x202F || n == 0x205F
    || n == 0x3000

/-- Remove the longest suffix satisfying `p`. -/
def trimEndBy {α : Type} (p : α → Bool) (l : List α) : List α := (l.reverse.dropWhile p).reverse

/-- Remove the longest prefix and the longest suffix satisfying `p`. -/
def trimBy {α : Type} (p : α → Bool) (l : List α) : List α := trimEndBy p (l.dropWhile p)

/-- `<[u8]>::trim_ascii`. -/
def trimAscii (l : List UInt8) : List UInt8 := trimBy isAsciiWs l

/-- `str::trim_ascii`. -/
def trimAsciiStr (s : Str) : Str := trimBy isAsciiWsChar s

/-- `str::trim_ascii_end`. -/
def trimAsciiEndStr (s : Str) : Str := trimEndBy isAsciiWsChar s

/-- `str::trim`. -/
def trimStr (s : Str) : Str := trimBy isWs s

/-- `str::trim_end`. -/
def trimEndStr (s : Str) : Str := trimEndBy isWs s

/-- `char::is_ascii_digit`. -/
def isDigit (c : Char) : Bool := '0' ≤ c && c ≤ '9'

/-- Value of an ASCII digit. -/
def digitVal (c : Char) : Nat := c.toNat - '0'.toNat

/-- Value of a string of decimal digits. -/
def digitsVal (s : Str) : Nat := s.foldl (fun n c => 10 * n + digitVal c) 0

/-- Parse a non-empty string of digits. -/
def parseDigits (s : Str) : Option Nat :=
  if s ≠ [] ∧ s.all isDigit then some (digitsVal s) else none

/-- An integer within the range of `i64`. -/
def checkI64 (v : Int) : Option Int := if -(2 ^ 63) ≤ v ∧ v < 2 ^ 63 then some v else none

/-- `str::parse::<i64>`: optional sign, at least one digit, within range. -/
def parseI64 (s : Str) : Option Int :=
  match s with
  | '-' :: t => (parseDigits t).bind fun n => checkI64 (-(n : Int))
  | '+' :: t => (parseDigits t).bind fun n => checkI64 n
  | _ => (parseDigits s).bind fun n => checkI64 n

/-- `str::parse::<usize>`: optional plus sign, at least one digit, below `2^64`. -/
def parseUsize (s : Str) : Option Nat :=
  let check (n : Nat) : Option Nat := if n < two64 then some n else none
  match s with
  | '+' :: t => (parseDigits t).bind check
  | _ => (parseDigits s).bind check

/-- A floating-point number as written: `(-1)^neg * mant * 10^exp`.  Simplification: the value is kept
exactly, before the rounding to `f64` done by `str::parse::<f64>`. -/
inductive Dec where
  | fin (neg : Bool) (mant : Nat) (exp : Int)
  | inf (neg : Bool)
  | nan (neg : Bool)
  deriving DecidableEq, Repr

/-- Exponent part of a floating-point literal (`none`: syntax error); no exponent is `0`. -/
def parseExp : Str → Option Int
  | [] => some 0
  | c :: t =>
    if c = 'e' ∨ c = 'E' then
      match t with
      | '-' :: u => (parseDigits u).map fun (n : Nat) => -(n : Int)
      | '+' :: u => (parseDigits u).map fun (n : Nat) => (n : Int)
      | _ => (parseDigits t).map fun (n : Nat) => (n : Int)
    else none

/-- Digits after a decimal point, if there is one, and what follows. -/
def splitFrac (s : Str) : Str × Str :=
  match s with
  | '.' :: t => (t.takeWhile isDigit, t.dropWhile isDigit)
  | _ => ([], s)

/-- Unsigned part of a floating-point literal, as in `core::num::dec2flt::parse::parse_number`. -/
def parseUFloat (neg : Bool) (s : Str) : Option Dec :=
  let ip := s.takeWhile isDigit
  let r := splitFrac (s.dropWhile isDigit)
  if ip ++ r.1 = [] then none
  else (parseExp r.2).map fun e => Dec.fin neg (digitsVal (ip ++ r.1)) (e - (r.1.length : Int))

/-- `inf`, `infinity`, `nan`, without regard to case. -/
def parseSpecial (neg : Bool) (s : Str) : Option Dec :=
  let l := s.map Char.toLower
  if l = "inf".toList ∨ l = "infinity".toList then some (.inf neg)
  else if l = "nan".toList then some (.nan neg)
  else none

/-- `str::parse::<f64>`. -/
def parseF64 (s : Str) : Option Dec :=
  let go (neg : Bool) (t : Str) : Option Dec := (parseUFloat neg t).or (parseSpecial neg t)
  match s with
  | '-' :: t => go true t
  | '+' :: t => go false t
  | _ => go false s

/-- `format!("{n}")` for an unsigned integer. -/
def natStr (n : Nat) : Str := Nat.toDigits 10 n

end Fitsrs

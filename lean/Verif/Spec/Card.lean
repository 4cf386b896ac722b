import Verif.Spec.Text
import Verif.Spec.Layout
/-
Specification of the parts of a header record.  Only `Str` is taken from the model.
-/

namespace Fitsrs.Spec

/-- A field containing nothing but one single quote and white space. -/
def LoneQuote (f : List UInt8) : Prop :=
  ∃ a b, f = a ++ [0x27] ++ b ∧ (∀ x ∈ a, isBlank x) ∧ ∀ x ∈ b, isBlank x

/-- The keyword field of a record is the given text, surrounded by white space. -/
def KeywordIs (r : List UInt8) (kw : Str) : Prop :=
  ∃ a b, r.take 8 = a ++ toBytes kw ++ b ∧ (∀ x ∈ a, isBlank x) ∧ ∀ x ∈ b, isBlank x

/-- The part of a `HIERARCH` record before the first equal sign (`true`) and after it. -/
def hierarchParts (r : List UInt8) (k v : List UInt8) : Prop :=
  r.drop 9 = k ++ 0x3D :: v ∧ 0x3D ∉ k

/-- The bytes of a record that hold a value. -/
inductive ValueField (r : List UInt8) : List UInt8 → Prop
  | continue : KeywordIs r "CONTINUE".toList → ValueField r (r.drop 8)
  | xtension : KeywordIs r "XTENSION".toList → ValueField r (r.drop 10)
  | hierarch {k v} : KeywordIs r "HIERARCH".toList → hierarchParts r k v → (∃ x ∈ k, ¬ isBlank x) →
      ValueField r v
  | value : (∀ kw ∈ special, ¬ KeywordIs r kw) → ¬ KeywordIs r [] → (r.drop 8).take 2 = [0x3D, 0x20] →
      ValueField r (r.drop 10)

/-- `rest` is what follows the first slash of `s` that is outside quotes, that is, preceded by an even number
of single quotes; `pre` is what precedes that slash. -/
structure FirstSlash (s pre rest : Str) : Prop where
  text : s = pre ++ '/' :: rest
  outside : pre.count '\'' % 2 = 0
  first : ∀ p q, pre = p ++ '/' :: q → p.count '\'' % 2 = 1

/-- The tokens of a `HIERARCH` keyword: each is preceded by some blanks. -/
def hierarchText : List (Nat × Str) → Str
  | [] => []
  | (n, t) :: rest => blank n ++ t ++ hierarchText rest

/-- The name: the tokens separated by dots. -/
def dotted : List Str → Str
  | [] => []
  | [t] => t
  | t :: ts => t ++ '.' :: dotted ts

/-- Legal tokens: not empty, printable, without blanks and equal signs; consecutive ones are separated. -/
structure Tokens (ts : List (Nat × Str)) : Prop where
  nonempty : ts ≠ []
  tokens : ∀ p ∈ ts, p.2 ≠ [] ∧ Printable p.2 ∧ ' ' ∉ p.2 ∧ '=' ∉ p.2
  separated : ∀ p ∈ ts.tail, 0 < p.1

/-- A `HIERARCH` record (80 bytes when the parts fit). -/
def hierarchRecord (ts : List (Nat × Str)) (pad : Nat) (f : Str) : List UInt8 :=
  toBytes ("HIERARCH ".toList ++ (hierarchText ts ++ blank pad ++ '=' :: f))

/-- A commentary record. -/
def commentaryRecord (kw : Str) (text : List UInt8) : List UInt8 := toBytes (keywordField kw) ++ text

/-- The text of commentary bytes: printable ASCII bytes are kept, the others replaced by U+FFFD; trailing
blanks are dropped. -/
def commentaryText (bs : List UInt8) : Str :=
  stripEnd (bs.map fun b => if 0x20 ≤ b ∧ b ≤ 0x7E then Char.ofNat b.toNat else Char.ofNat 0xFFFD)

/-- The first record of a primary header: keyword `SIMPLE`, value indicator, and a value starting with `T`. -/
def SimpleTrue (r : List UInt8) : Prop :=
  KeywordIs r "SIMPLE".toList ∧ (r.drop 8).take 2 = [0x3D, 0x20] ∧
    ∃ a b, r.drop 10 = a ++ 0x54 :: b ∧ ∀ x ∈ a, isBlank x

/-- The first record of an extension header: keyword `XTENSION` and, from the eleventh byte on, the quoted
name, which may be surrounded by white space inside and before the quotes. -/
def XtensionIs (r : List UInt8) (name : Str) : Prop :=
  KeywordIs r "XTENSION".toList ∧
    ∃ a w1 w2 b, r.drop 10 = a ++ 0x27 :: (w1 ++ toBytes name ++ w2 ++ 0x27 :: b) ∧
      (∀ x ∈ a, isBlank x) ∧ (∀ x ∈ w1, isBlank x) ∧ ∀ x ∈ w2, isBlank x

/-- A well-formed extension record: the name padded with blanks inside the quotes. -/
def xtensionRecord (name : Str) (inner lead pad : Nat) (comment : Option Str) : List UInt8 :=
  toBytes ("XTENSION= ".toList ++ field lead (quoted (name ++ blank inner)) pad comment)

/-- A `CONTINUE` record with the given field. -/
def continueRecord (f : Str) : List UInt8 := toBytes ("CONTINUE  ".toList ++ f)

/-- A piece of a long string: commentary records written before it, its text, the layout of its field. -/
structure Piece where
  notes : List (List UInt8)
  text : Str
  lead : Nat
  pad : Nat
  comment : Option Str

/-- The ampersand that announces another piece. -/
def amp : List Piece → Str
  | [] => []
  | _ => ['&']

/-- The records that continue a long string. -/
def continueRecords : List Piece → List (List UInt8)
  | [] => []
  | q :: qs =>
    q.notes.map (commentaryRecord "COMMENT".toList) ++
      continueRecord (field q.lead (quoted (q.text ++ amp qs)) q.pad q.comment) :: continueRecords qs

/-- The records of a long string. -/
def longRecords (kw first : Str) (lead pad : Nat) (comment : Option Str) (qs : List Piece) : List (List UInt8) :=
  valueRecord kw (field lead (quoted (first ++ amp qs)) pad comment) :: continueRecords qs

/-- The texts of the pieces, put together. -/
def pieces : List Piece → Str
  | [] => []
  | q :: qs => q.text ++ pieces qs

end Fitsrs.Spec

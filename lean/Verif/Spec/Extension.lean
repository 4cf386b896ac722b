import Verif.Model.Extension
import Verif.Spec.Text
/-
What the keywords of a header say about its data, independently of the way they are parsed.  The types of
column formats and `kwN` (a keyword followed by a number) are taken from the model.
-/

namespace Fitsrs.Spec

/-- The keyword has that integer value. -/
def HasInt (m : ValueMap) (k : Str) (n : Int) : Prop := ∃ c, m.get k = some (.integer n c)

/-- The keyword has that text as its value. -/
def HasText (m : ValueMap) (k : Str) (s : Str) : Prop :=
  (∃ c, m.get k = some (.string s c)) ∨ m.get k = some (.invalid s)

/-- Product of the axes. -/
def product (ns : List Nat) : Nat := ns.foldr (· * ·) 1

/-- Sum of a list. -/
def total (ns : List Nat) : Nat := ns.foldr (· + ·) 0

/-- The keywords of an image with pixels of type `b` and axes `ns`. -/
structure ImageKeywords (m : ValueMap) (b : Bitpix) (ns : List Nat) : Prop where
  bitpix : HasInt m "BITPIX".toList b.code
  naxis : HasInt m "NAXIS".toList ns.length
  axes : ∀ i (h : i < ns.length), HasInt m (kwN "NAXIS" (i + 1)) (ns[i] : Nat)

/-- Number of bytes of an image. -/
def imageBytes (b : Bitpix) (ns : List Nat) : Nat :=
  if ns = [] then 0 else b.code.natAbs / 8 * product ns

/-- The keywords of a table. -/
structure TableKeywords (m : ValueMap) (width rows pcount fields : Nat) : Prop where
  bitpix : HasInt m "BITPIX".toList 8
  naxis : HasInt m "NAXIS".toList 2
  naxis1 : HasInt m (kwN "NAXIS" 1) width
  naxis2 : HasInt m (kwN "NAXIS" 2) rows
  pcount_ : HasInt m "PCOUNT".toList pcount
  gcount : HasInt m "GCOUNT".toList 1
  tfields : HasInt m "TFIELDS".toList fields

/-- The letters of the column types. -/
def letters : List (Char × ElemTy) :=
  [('L', .L), ('X', .X), ('B', .B), ('I', .I), ('J', .J), ('K', .K), ('A', .A), ('E', .E), ('D', .D), ('C', .C),
   ('M', .M)]

/-- Bytes taken by one element (FITS, table 18). -/
def elemBytes : ElemTy → Nat
  | .L => 1 | .X => 1 | .B => 1 | .I => 2 | .J => 4 | .K => 8 | .A => 1 | .E => 4 | .D => 8 | .C => 8 | .M => 16

/-- Bytes taken by a column in each row (FITS 7.3.1): bits are packed in whole bytes, array descriptors take 8 or
16 bytes. -/
def colBytes : TForm → Nat
  | .plain .X r => (r + 7) / 8
  | .plain t r => r * elemBytes t
  | .P _ => 8
  | .Q _ => 16

/-- Every column has a format, and these are the formats. -/
def Columns (m : ValueMap) (fs : List TForm) : Prop :=
  ∀ i (h : i < fs.length), ∃ s, HasText m (kwN "TFORM" (i + 1)) s ∧ TForm.ofStr s = some fs[i]

/-- The bit columns fill whole bytes. -/
def WholeBytes (fs : List TForm) : Prop := ∀ r, TForm.plain .X r ∈ fs → r % 8 = 0

end Fitsrs.Spec

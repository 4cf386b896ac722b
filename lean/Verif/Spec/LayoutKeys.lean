import Verif.Spec.Entries
import Verif.Model.Extension
/-
The keywords that say how the data of an HDU are laid out.
-/

namespace Fitsrs.Spec

/-- A value without its comment. -/
def bare : Value → Value
  | .integer n _ => .integer n none
  | .float x _ => .float x none
  | .logical b _ => .logical b none
  | .string s _ => .string s none
  | .undefined => .undefined
  | .invalid s => .invalid s

/-- The number given by a keyword, such as `NAXIS` or `TFIELDS`. -/
def numberOf (cards : List Card) (k : Str) : Nat :=
  match lastValue (entries cards) k with
  | some (.integer n _) => n.toNat
  | _ => 0

/-- The keywords of an image: `BITPIX`, `NAXIS` and one `NAXISn` for each axis. -/
inductive ImageKey (cards : List Card) : Str → Prop
  | bitpix : ImageKey cards "BITPIX".toList
  | naxis : ImageKey cards "NAXIS".toList
  | axis (i : Nat) : i < numberOf cards "NAXIS".toList → ImageKey cards (kwN "NAXIS" (i + 1))

/-- The keywords of an ASCII table; `TBCOLn` and `TFORMn` for each column. -/
inductive AsciiKey (cards : List Card) : Str → Prop
  | bitpix : AsciiKey cards "BITPIX".toList
  | naxis : AsciiKey cards "NAXIS".toList
  | naxis1 : AsciiKey cards (kwN "NAXIS" 1)
  | naxis2 : AsciiKey cards (kwN "NAXIS" 2)
  | pcount : AsciiKey cards "PCOUNT".toList
  | gcount : AsciiKey cards "GCOUNT".toList
  | tfields : AsciiKey cards "TFIELDS".toList
  | tbcol (i : Nat) : i < numberOf cards "TFIELDS".toList → AsciiKey cards (kwN "TBCOL" (i + 1))
  | tform (i : Nat) : i < numberOf cards "TFIELDS".toList → AsciiKey cards (kwN "TFORM" (i + 1))

/-- The keywords of a binary table; `TFORMn` and `TTYPEn` for each column, and those of compressed images, `ZNAXISn` and
`ZTILEn` for each axis. -/
inductive BinKey (cards : List Card) : Str → Prop
  | bitpix : BinKey cards "BITPIX".toList
  | naxis : BinKey cards "NAXIS".toList
  | naxis1 : BinKey cards (kwN "NAXIS" 1)
  | naxis2 : BinKey cards (kwN "NAXIS" 2)
  | pcount : BinKey cards "PCOUNT".toList
  | gcount : BinKey cards "GCOUNT".toList
  | tfields : BinKey cards "TFIELDS".toList
  | theap : BinKey cards "THEAP".toList
  | tform (i : Nat) : i < numberOf cards "TFIELDS".toList → BinKey cards (kwN "TFORM" (i + 1))
  | ttype (i : Nat) : i < numberOf cards "TFIELDS".toList → BinKey cards (kwN "TTYPE" (i + 1))
  | zcmptype : BinKey cards "ZCMPTYPE".toList
  | zbitpix : BinKey cards "ZBITPIX".toList
  | znaxis : BinKey cards "ZNAXIS".toList
  | zdither0 : BinKey cards "ZDITHER0".toList
  | zaxis (i : Nat) : i < numberOf cards "ZNAXIS".toList → BinKey cards (kwN "ZNAXIS" (i + 1))
  | ztile (i : Nat) : i < numberOf cards "ZNAXIS".toList → BinKey cards (kwN "ZTILE" (i + 1))
  | zname (t : Str) : BinKey cards ("ZNAME".toList ++ t)
  | zval (t : Str) : BinKey cards ("ZVAL".toList ++ t)

/-- The two headers give the same values to these keywords, whatever the comments are. -/
def SameBare (keys : Str → Prop) (cards cards' : List Card) : Prop :=
  ∀ k, keys k → (lastValue (entries cards) k).map bare = (lastValue (entries cards') k).map bare

/-- Not more than one parameter of the compression is called `BLOCKSIZE`. -/
def OneBlockSize (cards : List Card) : Prop :=
  ∀ t t' c c', lastValue (entries cards) ("ZNAME".toList ++ t) = some (.string "BLOCKSIZE".toList c) →
    lastValue (entries cards) ("ZNAME".toList ++ t') = some (.string "BLOCKSIZE".toList c') → t = t'

end Fitsrs.Spec

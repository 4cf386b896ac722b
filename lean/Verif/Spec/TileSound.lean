import Verif.Spec.Tile
import Verif.Spec.Table
/-
The headers of compressed images that can be read without panic, whatever the file contains.
-/

namespace Fitsrs.Spec

/-- Every column of the table has one value, its rows are as wide as its columns, and its size is moderate. -/
structure PlainRows (x : BinTable) : Prop where
  one : OneValue x
  columns : x.tforms ≠ []
  width : x.naxis1 = total (x.tforms.map colBytes)
  narrow : x.naxis1 < 2 ^ 60
  size : x.naxis1 * x.naxis2 < 2 ^ 60

/-- The column holds one number of these types. -/
def ColumnOf (x : BinTable) (c : Nat) (tys : List ElemTy) : Prop := ∃ ty ∈ tys, ∃ rep, x.tforms[c]? = some (.plain ty rep)

/-- The header of a compressed image that can be read without panic.  The extra conditions for checked builds are that
the arrays have 32-bit descriptors, that the method is not RICE, and that the heap and the seed of the dithering are
moderate. -/
structure TileSound (p : Profile) (h : Header BinTable) (z : TileCompressedImage) : Prop where
  rows : PlainRows h.xtension
  tiles : ∀ n ∈ z.zTilen, 0 < n
  small : product z.zTilen * 4 < 2 ^ 63
  method : match z.zCmpType with
    | .gzip1 | .gzip2 => True
    | .rice b => p = .wrapping ∧ 0 < b ∧ product z.zTilen + b ≤ 2 ^ 31
    | _ => False
  data : (∃ ty, h.xtension.tforms[z.dataCompressedIdx]? = some (.P ty)) ∨
    p = .wrapping ∧ ∃ ty, h.xtension.tforms[z.dataCompressedIdx]? = some (.Q ty)
  heap : p = .wrapping ∨ h.xtension.theap < 2 ^ 60
  long : z.zBitpix ≠ .i64
  scale : IsFloat z.zBitpix → ∃ c, Selects h.xtension (.name "ZSCALE".toList) c ∧ ColumnOf h.xtension c [.E, .D]
  zero : IsFloat z.zBitpix → ∃ c, Selects h.xtension (.name "ZZERO".toList) c ∧ ColumnOf h.xtension c [.E, .D]
  blank : IsFloat z.zBitpix → ∀ c, Selects h.xtension (.name "ZBLANK".toList) c → ColumnOf h.xtension c [.B, .I, .J, .K]
  seed : p = .wrapping ∨ 0 ≤ z.zDither0.getD 0 ∧ z.zDither0.getD 0 < 2 ^ 63

end Fitsrs.Spec

import Verif.Model.Iter
/-
`It::bytes`, for readers in memory.
-/

namespace Fitsrs

/-- `It::bytes` (src/hdu/data/iter.rs:60-88), for `It<Cursor<R>, T>`, `It<&Cursor<R>, T>` and `It<&mut Cursor<R>, T>`:
`Cursor::get_ref` gives the bytes under the cursor, wherever the cursor stands.  The three functions are the same. -/
def It.bytes (it : It) : List UInt8 := it.rd.data

end Fitsrs

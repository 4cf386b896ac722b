import Verif.Model.Deserialize
/-
Model of the search for a world coordinate system in a header (src/wcs.rs).
-/

namespace Fitsrs

/-- `TryFrom<&Header<Image>> for WCS` (src/wcs.rs:22-29) and `TryFrom<&Header<BinTable>> for WCS` (src/wcs.rs:38-45), which
are the same code, and `HDU::wcs` (src/wcs.rs:14-19, 31-36), which calls them.  The struct `WCSParams` and the function
`WCS::new` come from the crate `wcs`: its fields `fs`, with the keyword, the type and the treatment of missing values of
each, and `build` are parameters.  The text of errors is left out. -/
def Header.wcs {X W : Type} (fs : List SField) (build : Struct fs → Res W) (h : Header X) : Res W :=
  Struct.deserialize fs h.values >>= build

end Fitsrs

import Verif.Spec.TileSamples
/-
The sample files hold the sample images.
-/

namespace Fitsrs

deriving instance DecidableEq for TilePixel

set_option maxRecDepth 20000 in
theorem sample_tiles_checked :
    returnsTiles .checked floatTilesFile floatTilesTable floatTilesImage (fun _ => true) = true := by
  decide +kernel

set_option maxRecDepth 20000 in
theorem sample_tiles_wrapping :
    returnsTiles .wrapping floatTilesFile floatTilesTable floatTilesImage (fun _ => true) = true := by
  decide +kernel

theorem sample_tiles (p : Profile) :
    returnsTiles p floatTilesFile floatTilesTable floatTilesImage (fun _ => true) = true := by
  cases p
  · exact sample_tiles_checked
  · exact sample_tiles_wrapping

set_option maxRecDepth 20000 in
theorem sample_edge :
    returnsTiles .wrapping edgeFile edgeTable edgeImage (fun it => decide (it.run .wrapping (.of fun _ => []) 9 4 =
      [some (.ok (some (.int 7))), some (.ok (some (.int 7))), some (.ok (some (.int 5))), some (.ok (some (.int 5)))])) =
      true := by
  decide +kernel

set_option maxRecDepth 20000 in
theorem sample_pair :
    returnsTiles .wrapping pairFile pairTable pairImage (fun it =>
      decide (it.run .wrapping (.of fun _ => []) 11 1 = [some .panic] ∧
        (it.after .wrapping (.of fun _ => []) 11 1).all (fun it' => decide (it'.buf ≠ [7, 0, 0, 0, 7, 0, 0, 0])) = true)) =
      true := by
  decide +kernel

end Fitsrs

import Verif.Spec.Tile
import Verif.Spec.Extension
/-
Where the pixels of the tiles are in the image (FITS 10.1).
-/

namespace Fitsrs.Spec

/-- The places in the image of the pixels of tile `k`, in order: the first axis varies fastest in the image, among the
tiles, and inside a tile. -/
def tileIndices : List Nat → List Nat → Nat → List Nat
  | n :: ns, t :: ts, k =>
    (tileIndices ns ts (k / tilesAlong n t)).flatMap fun j =>
      (List.range (min t (n - k % tilesAlong n t * t))).map fun x => j * n + (k % tilesAlong n t * t + x)
  | _, _, _ => [0]

/-- Tiles whose pixels follow one another in the image: they cover some axes, have any size along the next one, and are
one pixel wide along the others. Rows of pixels, which are the default, are such tiles. -/
inductive RowTiles : List Nat → List Nat → Prop
  | run {n t : Nat} {ns ts : List Nat} : 0 < t → (∀ u ∈ ts, u = 1) → ns.length = ts.length → RowTiles (n :: ns) (t :: ts)
  | full {n : Nat} {ns ts : List Nat} : RowTiles ns ts → RowTiles (n :: ns) (n :: ts)

/-- The places in the image of the pixels of all tiles, one tile after the other. -/
def tileOrder (ns ts : List Nat) : List Nat := (List.range (tileCount ns ts)).flatMap (tileIndices ns ts)

/-- Tiles that are runs of the image: only along one axis can there be several tiles of several pixels; the tiles cover the
axes before it, and are one pixel wide along those after it. -/
def InOrder : List Nat → List Nat → Prop
  | n :: ns, t :: ts => (n ≤ t ∧ InOrder ns ts) ∨ ∀ q ∈ ns.zip ts, min q.2 q.1 = 1
  | _, _ => True

end Fitsrs.Spec

import Verif.Spec.Writer
/-
Compressed images whose tiles may be cut at the edge of the image: what is given of them.
-/

namespace Fitsrs

/-- What a program gets from an opened data unit: the `i`-th item, for those numbers of calls that `limit` allows. -/
structure Spec.Outcome where
  item : Nat → Seen
  limit : Nat → Prop

namespace Spec

/-- The pixels given for the first `m` tiles of an image, as if all the tiles were whole: those of a cut tile are followed by others.
A cut tile may be refused, and is if it is compressed by gzip; then none is given for the tiles that follow. -/
structure WrittenTiles.Filled (w : WrittenTiles) (m : Nat) (raw : Nat → List Int) : Prop where
  rows : m ≤ w.table.rows.length
  whole : ∀ r < m, (raw r).length = product w.tileAxes ∧ w.tile r <+: raw r
  gzip : w.cmp = .gzip1 ∨ w.cmp = .gzip2 → ∀ r < m, (w.tile r).length = product w.tileAxes
  stop : m < w.table.rows.length → (w.tile m).length < product w.tileAxes

namespace Body

/-- What the library reads in builds without overflow checks, tiles cut at the edge of the image included: as `ReadableBy`.  What gzip
gives for a tile is as long as the tile, whatever follows it. -/
def CutBy (gz : Gunzip) (fuel : Nat) : Body → Prop
  | tiles w =>
    w.Compressed gz ∧ (∀ (c : Nat) ty rep, w.table.columns[c]? = some (.plain ty rep) →
      ty ≠ .X ∧ 0 < rep ∧ (c < w.column ∨ IsFloat w.bitpix → count ty rep = 1)) ∧
    (∀ r < w.table.rows.length, w.compressed r ≠ []) ∧
    4 * product w.tileAxes < 2 ^ 63 ∧ w.table.width < fuel ∧ 2 * product w.tileAxes + 1 ≤ fuel ∧
    (w.bitpix = .u8 → w.cmp ≠ .gzip2) ∧ (∀ n, w.cmp = .rice n → product w.tileAxes + n ≤ 2 ^ 31) ∧
    (w.cmp = .gzip1 ∨ w.cmp = .gzip2 → ∀ r < w.table.rows.length, ∀ rest,
      (gz (w.compressed r ++ rest)).length = 4 * (w.tile r).length)
  | b => b.Legible

/-- What is given: of a compressed image, the pixels of the tiles read as whole ones and then none, as far as the first call
after the last pixel if a tile is refused; of the others what is written. -/
inductive Gives : Body → Outcome → Prop
  | tiles {w : WrittenTiles} {m : Nat} {raw : Nat → List Int} : w.Filled m raw →
    Gives (.tiles w) ⟨fun i => .tilePixel ((List.range m).flatMap fun r => (raw r).map (pixelOf w.bitpix (w.scaling r)))[i]?,
      fun k => m < w.table.rows.length → k ≤ m * product w.tileAxes + 1⟩
  | other {b : Body} : (∀ w, b ≠ .tiles w) → Gives b ⟨b.given, fun _ => True⟩

end Body

/-- The same for all the HDUs of a file. -/
inductive GivesAll : List WrittenHdu → List Outcome → Prop
  | nil : GivesAll [] []
  | cons {u us g gs} : u.body.Gives g → GivesAll us gs → GivesAll (u :: us) (g :: gs)

/-- The numbers of calls are allowed. -/
def WithinLimits : List Nat → List Outcome → Prop
  | k :: ks, g :: gs => (∀ j ≤ k, g.limit j) ∧ WithinLimits ks gs
  | _, _ => True

/-- What the program `visits` sees. -/
def seenOutcomes : List Nat → List Outcome → List HDU → List (Option (Res Seen))
  | k :: ks, g :: gs, h :: hs =>
    some (.ok (.hdu (some h))) :: some (.ok .unit) ::
      ((List.range k).map (fun i => some (.ok (g.item i))) ++ seenOutcomes ks gs hs)
  | _, _, _ => [some (.ok (.hdu none))]

end Spec

end Fitsrs

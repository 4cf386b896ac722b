import Verif.Props.C105
/-
C105 fails: a file whose compressed image is decoded for ever.
-/

namespace Fitsrs
open Spec

/-- An image of `2^31` integers in one tile, compressed with RICE in blocks of 32. -/
def bigTileFile : List UInt8 :=
  tableFile ["NAXIS1  =                    8", "NAXIS2  =                    1", "PCOUNT  =                    6",
    "TFIELDS =                    1", "TFORM1  = '1PB'", "TTYPE1  = 'COMPRESSED_DATA'",
    "ZIMAGE  =                    T", "ZCMPTYPE= 'RICE_1'", "ZBITPIX =                   32",
    "ZNAXIS  =                    1", "ZNAXIS1 =           2147483648", "ZTILE1  =           2147483648"]
    [0, 0, 0, 6, 0, 0, 0, 0, 0, 0, 0, 0, 0, 0]

def bigTileImage : TileCompressedImage :=
  { zCmpType := .rice 32, zBitpix := .i32, zNaxisn := [2 ^ 31], zTilen := [2 ^ 31], zQuantiz := none, zDither0 := none
    dataCompressedIdx := 0 }

def bigTileTable : BinTable :=
  { bitpix := .u8, naxis1 := 8, naxis2 := 1, tfields := 1, theap := 8, tforms := [.P .B]
    ttypes := [some "COMPRESSED_DATA".toList], pcount := 6, gcount := 1, zImage := some bigTileImage }

/-- Its rows. -/
def bigTileRows : TableRows := TableRows.new ((sampleState bigTileFile bigTileTable [0]).readTheHeap false)

set_option maxRecDepth 20000 in
theorem bigTile_opened (p : Profile) : returnsTiles p bigTileFile bigTileTable bigTileImage (fun it => decide (it.rows = bigTileRows ∧ it.remaining = 0 ∧
    it.kw = none ∧ it.zTile = [2 ^ 31] ∧ it.cmp = .rice 32 ∧ it.dataIdx = 0)) = true := by
  cases p <;> decide +kernel

set_option maxRecDepth 20000 in
theorem bigTile_row (p : Profile) : (bigTileRows.data.next p).1 = .ok (some (.vla32 6 0)) ∧ (bigTileRows.data.next p).2.row = 1 ∧
    (bigTileRows.data.next p).2.ctx.naxis1 = 8 ∧ (bigTileRows.data.next p).2.ctx.theap = 8 ∧
    ((bigTileRows.data.next p).2.rd.seekRelative 0).1 = .ok () ∧
    ((bigTileRows.data.next p).2.rd.seekRelative 0).2.data.drop ((bigTileRows.data.next p).2.rd.seekRelative 0).2.pos = [0, 0, 0, 0, 0, 0] := by
  cases p <;> decide +kernel

theorem bigTile_next (p : Profile) (gz : Gunzip) (fuel : Nat) {it : TileIt} (h1 : it.rows = bigTileRows) (h2 : it.remaining = 0)
    (h3 : it.kw = none) (h4 : it.zTile = [2 ^ 31]) (h5 : it.cmp = .rice 32) (h6 : it.dataIdx = 0) : it.next p gz fuel = none := by
  obtain ⟨r1, r2, r3, r4, r5, r6⟩ := bigTile_row p
  have hn : bigTileRows.data.next p = (.ok (some (.vla32 6 0)), (bigTileRows.data.next p).2) := by rw [← r1]
  have hrow : bigTileRows.data.row = bigTileRows.row := rfl
  unfold TileIt.next
  rw [if_pos h2]
  suffices h : it.load p gz fuel = none by rw [h]
  unfold TileIt.load
  rw [h1]
  match fuel with
  | 0 => rfl
  | 1 =>
    unfold TableRows.next TableRows.collect
    rw [if_pos hrow, hn]
    rfl
  | fuel + 2 =>
    have hr : bigTileRows.next p (fuel + 2) = some (.ok (some [.vla32 6 0]), { data := (bigTileRows.data.next p).2, row := 1 }) := by
      unfold TableRows.next TableRows.collect
      rw [if_pos hrow, hn]
      dsimp only
      unfold TableRows.collect
      rw [if_neg (by rw [r2]; decide)]
      rfl
    rw [hr]
    clear hr hn hrow r1 r2
    generalize (bigTileRows.data.next p).2 = t at *
    dsimp only
    unfold TileIt.openTile
    dsimp only
    have hp : TileIt.product p [2 ^ 31] 1 = .ok (2 ^ 31) := by cases p <;> decide
    have ho : TileIt.tileOffset p 1 8 8 0 = .ok 0 := by cases p <;> decide
    have ha : TileIt.arrayOffset [.vla32 6 0] 0 = .ok 0 := rfl
    rw [h6, h4, hp, ha]
    dsimp only
    rw [h3]
    have hk : TileIt.tileKw p 1 [.vla32 6 0] none = .ok none := rfl
    rw [hk]
    dsimp only
    rw [r3, r4, ho]
    dsimp only
    unfold TileIt.fill
    dsimp only
    cases hs : t.rd.seekRelative 0 with
    | mk a rd =>
    rw [hs] at r5 r6
    dsimp only at r5 r6
    subst r5
    dsimp only
    rw [r6, h5]
    unfold TileIt.decompress
    dsimp only
    rw [Rice.large_forever]
    rfl

/-- **C105 fails**, in both builds: for an image of one tile of `2^31` pixels the first call does not return (D54). -/
theorem C105_fails (p : Profile) : ¬ C105_statement p := by
  intro h
  obtain ⟨f', hd, it, ho, -, -, hk⟩ := tiles_opened (bigTile_opened p) rfl
  obtain ⟨h1, h2, h3, h4, h5, h6⟩ := of_decide_eq_true hk
  obtain ⟨fuel, n, r, g1, -, -⟩ := h (.of fun _ => []) _ _ _ _ ho.image ho.tiles
  cases n with
  | zero => cases g1
  | succ n =>
    rw [TileIt.run, bigTile_next p _ fuel h1 h2 h3 h4 h5 h6] at g1
    cases List.mem_singleton.1 g1

end Fitsrs

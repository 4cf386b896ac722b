import Verif.Model.InputBytes
/-
The pixels of compressed images over any reader.  The rows are read as in Model/InputData.lean; then the reader is moved to the tile, the
decoder takes bytes from it, and it is moved back.  Simplification: the decoder is given all that reads give up to the end of the
file; how much of it a decoder really asks for depends on its own buffer and on the reads, but the reader is moved back after a success,
and after a failure the program is not followed.  For this reason the reads are supposed not to fail.
-/

namespace Fitsrs

namespace TileIt

/-- The iterator, with another reader. -/
def withRd (rd : Reader) (it : TileIt) : TileIt := { it with rows := { it.rows with data := { it.rows.data with rd } } }

/-- What precedes the jump to the tile of a row (src/hdu/data/bintable/tile_compressed/pixels.rs:178-209, 502-585), and the offset
of the tile; `none`: it panics. -/
def prepare (p : Profile) (vs : List DataValue) (it : TileIt) : Option (TileIt × Int) :=
  match arrayOffset vs it.dataIdx, product p it.zTile 1 with
  | .ok offset, .ok n =>
    match tileKw p it.rows.row vs it.kw with
    | .ok kw =>
      match tileOffset p it.rows.row it.rows.data.ctx.naxis1 it.rows.data.ctx.theap offset with
      | .ok off => some ({ it with nPixels := n, remaining := n, kw }, off)
      | _ => none
    | _ => none
  | _, _ => none

end TileIt

namespace Input
variable {σ : Type}

/-- All that reads give from there on. -/
def drain (more : SomeBytes σ) : (fuel : Nat) → σ → Res (List UInt8) × σ
  | 0, s => (.panic, s)
  | fuel + 1, s =>
    match more 32768 s with
    | (.ok [], s) => (.ok [], s)
    | (.ok bs, s) =>
      let (r, s) := drain more fuel s
      (r.map (bs ++ ·), s)
    | (.err e, s) => (.err e, s)
    | (.panic, s) => (.panic, s)

/-- `jump_to_location` and the decompression (src/hdu/data/bintable/tile_compressed/pixels.rs:210-240, 850-863): `ok true` if
it succeeds. -/
def fillTile (S : Input σ) (more : SomeBytes σ) (p : Profile) (gz : Gunzip) (fuel : Nat) (off : Int) (it : TileIt) (s : σ) :
    Option (Res Bool × TileIt × σ) :=
  match S.seekCurrent off (S.tell s).2 with
  | (.ok _, s') =>
    match drain more (S.size s' + 1) s' with
    | (.ok bs, s') =>
      match TileIt.decompress p gz fuel it.cmp it.nPixels it.buf.length bs with
      | none => none
      | some (.ok buf) =>
        match S.seekStart (S.tell s).1 s' with
        | (.ok _, s') => some (.ok true, { it with buf }, s')
        | (.err _, s') => some (.ok false, { it with buf }, s')
        | (.panic, s') => some (.panic, { it with buf }, s')
      | some (.err _) => some (.ok false, it, s')
      | some .panic => some (.panic, it, s')
    | (.err _, s') => some (.ok false, it, s')
    | (.panic, s') => some (.panic, it, s')
  | (.err _, s') => some (.ok false, it, s')
  | (.panic, s') => some (.panic, it, s')

/-- The tile of a row, and its first pixel. -/
def openTile (S : Input σ) (more : SomeBytes σ) (p : Profile) (gz : Gunzip) (fuel : Nat) (vs : List DataValue) (it : TileIt) (s : σ) :
    Option ((Res (Option TilePixel) × Bool) × TileIt × σ) :=
  match it.prepare p vs with
  | none => some ((.panic, true), it, s)
  | some (it, off) =>
    match S.fillTile more p gz fuel off it s with
    | none => none
    | some (.ok true, it, s) => some (((it.pixel p).1, false), (it.pixel p).2, s)
    | some (.ok false, it, s) => some ((.ok none, true), it, s)
    | some (.err _, it, s) => some ((.ok none, true), it, s)
    | some (.panic, it, s) => some ((.panic, true), it, s)

/-- `next` (src/hdu/data/bintable/tile_compressed/pixels.rs:173-266, 273-371, 379-487, 497-665, 675-843), and whether a read or
a move of the reader failed, the decompression failed, or it panicked.  `none`: a loop has not finished with that fuel. -/
def nextTile (S : Input σ) (more : SomeBytes σ) (p : Profile) (gz : Gunzip) (fuel : Nat) (it : TileIt) (s : σ) :
    Option ((Res (Option TilePixel) × Bool) × TileIt × σ) :=
  if it.remaining = 0 then
    match (it.rows.nextP p fuel).on S s with
    | ((.ok none, _), _) => none
    | ((.ok (some (.ok (some vs), rows)), _), s) => S.openTile more p gz fuel vs { it with rows } s
    | ((.ok (some (.ok none, rows)), b), s) => some ((.ok none, b), { it with rows }, s)
    | ((.ok (some (.err _, rows)), b), s) => some ((.ok none, b), { it with rows }, s)
    | ((.ok (some (.panic, rows)), _), s) => some ((.panic, true), { it with rows }, s)
    | ((.err _, _), s) => some ((.ok none, true), it, s)
    | ((.panic, _), s) => some ((.panic, true), it, s)
  else some (((it.pixel p).1, false), (it.pixel p).2, s)

/-- A call, with those on the pixels of compressed images; and whether a read or a move of the reader, or the decompression,
failed. -/
def callEvery (S : Input σ) (more : SomeBytes σ) (p : Profile) (gz : Gunzip) (fuel : Nat) (c : Call) (s : Session σ) :
    Option ((Res Seen × Bool) × Session σ) :=
  match c, s.opened with
  | .next, some (.tiles it) =>
    (S.nextTile more p gz fuel (it.withRd ⟨[], 0⟩) s.file.rd).map fun x =>
      ((x.1.1.map .tilePixel, x.1.2), { s with file := { s.file with rd := x.2.2 }, opened := some (.tiles x.2.1) })
  | .rowIter, some (.tiles it) => some ((.ok .unit, false), { s with opened := some (.rows it.rows) })
  | .tableData, some (.tiles it) => some ((.ok .unit, false), { s with opened := some (.table it.rows.data) })
  | c, _ => S.callAny more p fuel c s

/-- What a program sees, up to and including the first call in which a read, a move or a decompression fails, or which panics. -/
def runEvery (S : Input σ) (more : SomeBytes σ) (p : Profile) (gz : Gunzip) (fuel : Nat) :
    List Call → Session σ → List (Option (Res Seen))
  | [], _ => []
  | c :: cs, s =>
    match S.callEvery more p gz fuel c s with
    | none => [none]
    | some ((.panic, _), _) => [some .panic]
    | some ((r, true), _) => [some r]
    | some ((r, false), s) => some r :: S.runEvery more p gz fuel cs s

end Input

/-- Whether a read or a move of the reader fails in `next`, the decompression fails, or it panics there, on the readers of
Model/Basic.lean. -/
def TileIt.stops (p : Profile) (gz : Gunzip) (fuel : Nat) (it : TileIt) : Bool :=
  if it.remaining = 0 then
    match it.rows.next p fuel with
    | some (.ok (some vs), rows) =>
      match ({ it with rows } : TileIt).openTile p gz fuel vs with
      | some (.ok true, _) => false
      | _ => true
    | some (.panic, _) => true
    | _ => ((it.withRd ⟨[], 0⟩).rows.nextP p fuel).fails it.rows.data.rd
  else false

/-- Whether a read or a move fails in a call, or the decompression of a tile, on the readers of Model/Basic.lean. -/
def Session.failsEvery (p : Profile) (gz : Gunzip) (fuel : Nat) (c : Call) (s : Session) : Bool :=
  match c, s.opened with
  | .next, some (.tiles it) => it.stops p gz fuel
  | .rowIter, some (.tiles _) => false
  | .tableData, some (.tiles _) => false
  | c, _ => s.failsAny p fuel c

/-- What a program sees, up to and including the first call in which a read, a move or a decompression fails, or which panics. -/
def Session.runEvery (p : Profile) (gz : Gunzip) (fuel : Nat) : List Call → Session → List (Option (Res Seen))
  | [], _ => []
  | c :: cs, s =>
    match s.call p gz fuel c with
    | none => [none]
    | some (.panic, _) => [some .panic]
    | some (r, s') => if s.failsEvery p gz fuel c then [some r] else some r :: runEvery p gz fuel cs s'

end Fitsrs

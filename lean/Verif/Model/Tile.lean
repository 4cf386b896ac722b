import Verif.Model.Table
import Verif.Model.Rice
import Verif.Model.Dither
/-
Model of src/hdu/data/bintable/tile_compressed/mod.rs and pixels.rs: the pixels of a tile-compressed image.
-/

namespace Fitsrs

/-- A floating-point number used to scale pixels (src/hdu/data/bintable/tile_compressed/mod.rs:52-56, 79-83): the
initial values 1.0 and 0.0, or the value of a column, given by its bits, a double being converted.  Simplification:
floating-point arithmetic is kept symbolic. -/
inductive Scalar where
  | one
  | zero
  | float (bits : Nat)
  | double (bits : Nat)
  deriving DecidableEq, Repr

/-- A pixel: an integer, or the floating-point number computed by `unquantize`
(src/hdu/data/bintable/tile_compressed/mod.rs:93-165), kept symbolic: `linear v s z` is `v * s + z`, and
`dithered v i s z` is `(v - RAND_VALUES[i] + 0.5) * s + z`. -/
inductive TilePixel where
  | int (n : Int)
  | nan
  | zero
  | linear (v : Int) (scale zero : Scalar)
  | dithered (v : Int) (i : Nat) (scale zero : Scalar)
  deriving DecidableEq, Repr

/-- `Quantiz` (src/hdu/data/bintable/tile_compressed/mod.rs:295-300). -/
inductive Quantiz where
  | noDither
  | dither1 (i1 : Nat)
  | dither2 (i1 : Nat)
  deriving DecidableEq, Repr

/-- `F32Keywords` and `F64Keywords` (src/hdu/data/bintable/tile_compressed/mod.rs:38-91), which are identical. -/
structure FloatKw where
  scaleIdx : Nat
  zeroIdx : Nat
  blankIdx : Option Nat
  dither0 : Int
  zQuantiz : ZQuantiz
  scale : Scalar
  zero : Scalar
  blank : Option Int
  quantiz : Quantiz
  deriving DecidableEq, Repr

namespace FloatKw

/-- `F32Keywords::new` and `F64Keywords::new` (src/hdu/data/bintable/tile_compressed/mod.rs:167-249): panics without
columns named `ZSCALE` and `ZZERO`. -/
def new (h : Header BinTable) (z : TileCompressedImage) : Res FloatKw :=
  match findFieldByTtype h.xtension.ttypes "ZSCALE".toList, findFieldByTtype h.xtension.ttypes "ZZERO".toList with
  | some s, some o =>
    let b := findFieldByTtype h.xtension.ttypes "ZBLANK".toList
    .ok { scaleIdx := s, zeroIdx := o, blankIdx := b, dither0 := z.zDither0.getD 0
          zQuantiz := z.zQuantiz.getD .noDither, scale := .one, zero := .zero
          blank := if b.isSome then none else okOpt (h.values.getInt (-(2 ^ 31)) (2 ^ 31 - 1) "ZBLANK".toList)
          quantiz := .noDither }
  | _, _ => .panic

/-- `unquantize` (src/hdu/data/bintable/tile_compressed/mod.rs:93-165): panics on a random index out of bounds. -/
def unquantize (k : FloatKw) (v : Int) : Res (TilePixel × FloatKw) :=
  if k.blank = some v then .ok (.nan, k)
  else
    match k.quantiz with
    | .noDither => .ok (.linear v k.scale k.zero, k)
    | .dither1 i =>
      if i < Dither.nRandom then
        .ok (.dithered v i k.scale k.zero, { k with quantiz := .dither1 ((i + 1) % Dither.nRandom) })
      else .panic
    | .dither2 i =>
      if v = -2147483647 then .ok (.zero, { k with quantiz := .dither2 ((i + 1) % Dither.nRandom) })
      else if i < Dither.nRandom then
        .ok (.dithered v i k.scale k.zero, { k with quantiz := .dither2 ((i + 1) % Dither.nRandom) })
      else .panic

/-- The index of the first random number of the tile of the row before `row`
(src/hdu/data/bintable/tile_compressed/pixels.rs:540-541, 545-546). -/
def firstIndex (p : Profile) (dither0 : Int) (row : Nat) : Res Nat := do
  let a ← usub p row 1
  let b ← uadd p a (asU64 dither0)
  .ok (Dither.first (b % 10000))

/-- The dithering of a tile (src/hdu/data/bintable/tile_compressed/pixels.rs:538-550). -/
def startQuantiz (p : Profile) (row : Nat) (k : FloatKw) : Res Quantiz :=
  match k.zQuantiz with
  | .noDither => .ok .noDither
  | .subtractiveDither1 => (firstIndex p k.dither0 row).map .dither1
  | .subtractiveDither2 => (firstIndex p k.dither0 row).map .dither2

/-- A scale or zero in a row (src/hdu/data/bintable/tile_compressed/pixels.rs:552-562). -/
def scalarAt (vs : List DataValue) (i : Nat) : Res Scalar :=
  match vs[i]? with
  | some (.cell _ _ (.float n)) => .ok (.float n)
  | some (.cell _ _ (.double n)) => .ok (.double n)
  | _ => .panic

/-- A blank value in a row (src/hdu/data/bintable/tile_compressed/pixels.rs:564-572). -/
def blankAt (vs : List DataValue) (i : Nat) : Res Int :=
  match vs[i]? with
  | some (.cell _ _ (.ubyte n)) => .ok n
  | some (.cell _ _ (.short n)) => .ok n
  | some (.cell _ _ (.integer n)) => .ok n
  | some (.cell _ _ (.long n)) => .ok (toSigned 32 (n % 2 ^ 32).toNat)
  | _ => .panic

/-- The keywords of a tile (src/hdu/data/bintable/tile_compressed/pixels.rs:522-572). -/
def startTile (p : Profile) (row : Nat) (vs : List DataValue) (k : FloatKw) : Res FloatKw := do
  let quantiz ← k.startQuantiz p row
  let scale ← scalarAt vs k.scaleIdx
  let zero ← scalarAt vs k.zeroIdx
  match k.blankIdx with
  | none => .ok { k with quantiz, scale, zero }
  | some i => do
    let b ← blankAt vs i
    .ok { k with quantiz, scale, zero, blank := some b }

end FloatKw

/-- `It` (src/hdu/data/bintable/tile_compressed/pixels.rs:42-58), with the variant of `Pixels` it is in; `kw` is
`none` for integers, whose keywords are not used. -/
structure TileIt where
  ty : Bitpix
  rows : TableRows
  buf : List UInt8
  nPixels : Nat
  remaining : Nat
  kw : Option FloatKw
  zTile : List Nat
  cmp : ZCmpType
  dataIdx : Nat
  deriving DecidableEq, Repr

/-- A byte of a buffer. -/
def byteAt (buf : List UInt8) (i : Nat) : Res UInt8 :=
  match buf[i]? with
  | some b => .ok b
  | none => .panic

/-- Bytes of a buffer, given their indices, as an unsigned number, the first one being the most significant.
Simplification: `|` on disjoint bits is an addition. -/
def bytesNat (buf : List UInt8) : List Nat → Nat → Res Nat
  | [], acc => .ok acc
  | i :: is, acc => do
    let b ← byteAt buf i
    bytesNat buf is (256 * acc + b.toNat)

/-- The four bytes of a number, least significant first: `to_ne_bytes`, on a little-endian target. -/
def littleEndian (v : Int) : List UInt8 :=
  let n := (v % 2 ^ 32).toNat
  [UInt8.ofNat n, UInt8.ofNat (n / 256), UInt8.ofNat (n / 65536), UInt8.ofNat (n / 16777216)]

/-- What is not modelled of the decompressors.  `out bytes` are the bytes that the gzip decoder can produce from `bytes` before
it ends or fails.  When the decompression of a tile from `bytes` fails, `left cmp bytes` are the bytes already written at the
beginning of the buffer, and the number of bytes already taken from the reader (if there are as many). -/
structure Gunzip where
  out : List UInt8 → List UInt8
  left : ZCmpType → List UInt8 → List UInt8 × Nat

/-- It is used as a function. -/
instance : CoeFun Gunzip (fun _ => List UInt8 → List UInt8) := ⟨Gunzip.out⟩

/-- Decompressors that fail without having read nor written anything. -/
def Gunzip.of (out : List UInt8 → List UInt8) : Gunzip := ⟨out, fun _ _ => ([], 0)⟩

/-- A buffer whose beginning has been written. -/
def overwrite (new buf : List UInt8) : List UInt8 := new.take buf.length ++ buf.drop new.length

namespace TileIt

/-- `z_tile.iter().product::<usize>()`. -/
def product (p : Profile) : List Nat → Nat → Res Nat
  | [], acc => .ok acc
  | n :: ns, acc => do
    let a ← umul p acc n
    product p ns a

/-- `It::new` (src/hdu/data/bintable/tile_compressed/pixels.rs:73-114) and `Pixels::new`
(src/hdu/data/bintable/tile_compressed/pixels.rs:25-39): the buffer has at most `isize::MAX` bytes. -/
def new (p : Profile) (t : TableData) (h : Header BinTable) (z : TileCompressedImage) : Res TileIt := do
  let n ← product p z.zTilen 1
  let size ← umul p n 4
  if 2 ^ 63 ≤ size then .panic
  else do
    let kw ← (match z.zBitpix with
      | .u8 | .i16 | .i32 => .ok none
      | .f32 | .f64 => (FloatKw.new h z).map some
      | .i64 => .panic : Res (Option FloatKw))
    .ok { ty := z.zBitpix, rows := TableRows.new (t.readTheHeap false), buf := List.replicate size 0, nPixels := 0
          remaining := 0, kw, zTile := z.zTilen, cmp := z.zCmpType, dataIdx := z.dataCompressedIdx }

/-- The offset of an array in the heap (src/hdu/data/bintable/tile_compressed/pixels.rs:178-188). -/
def arrayOffset (vs : List DataValue) (i : Nat) : Res Nat :=
  match vs[i]? with
  | some (.vla32 _ offset) => .ok offset
  | some (.vla64 _ offset) => .ok offset
  | _ => .panic

/-- Decompression of a tile of `n` pixels (src/hdu/data/bintable/tile_compressed/pixels.rs:216-236) from the bytes
at the position of the reader, into a buffer of `size` bytes.  The gzip decoder is a parameter.  `none`: RICE decoding has not finished with that fuel.
The buffer holds `4 * n` bytes. -/
def decompress (p : Profile) (gz : Gunzip) (fuel : Nat) (cmp : ZCmpType) (n size : Nat)
    (bytes : List UInt8) : Option (Res (List UInt8)) :=
  match cmp with
  | .gzip1 | .gzip2 =>
    if size ≤ (gz bytes).length then some (.ok ((gz bytes).take size)) else some (.err (.io .unexpectedEof))
  | .rice blocksize => (Rice.tile p fuel blocksize n bytes).map (·.map (·.flatMap littleEndian))
  | .plio1 | .hcompress1 => some .panic

/-- The offset from the position after a row to the tile (src/hdu/data/bintable/tile_compressed/pixels.rs:202-209);
`row` is the number of rows read. -/
def tileOffset (p : Profile) (row naxis1 theap offset : Nat) : Res Int := do
  let main ← umul p row naxis1
  TableData.heapOffset p main theap offset

/-- `jump_to_location` (src/hdu/data/bintable/tile_compressed/pixels.rs:850-863) and the decompression: `ok true` when
it succeeds, `ok false` when it fails.  The reader comes back only in the first case; after a failure of the decompression
it is left where the decoder stopped, and the beginning of the buffer may have been written. -/
def fill (p : Profile) (gz : Gunzip) (fuel : Nat) (off : Int) (it : TileIt) :
    Option (Res Bool × TileIt) :=
  let moved (rd : Reader) : TileIt := { it with rows := { it.rows with data := { it.rows.data with rd } } }
  match it.rows.data.rd.seekRelative off with
  | (.ok _, rd) =>
    match decompress p gz fuel it.cmp it.nPixels it.buf.length (rd.data.drop rd.pos) with
    | none => none
    | some (.ok buf) => some (.ok true, { it with buf })
    | some (.err _) =>
      let l := gz.left it.cmp (rd.data.drop rd.pos)
      some (.ok false, { moved { rd with pos := rd.pos + min l.2 (rd.data.length - rd.pos) } with buf := overwrite l.1 it.buf })
    | some .panic => some (.panic, moved rd)
  | (.err _, rd) => some (.ok false, moved rd)
  | (.panic, rd) => some (.panic, moved rd)

/-- The keywords for the tile of a row. -/
def tileKw (p : Profile) (row : Nat) (vs : List DataValue) : Option FloatKw → Res (Option FloatKw)
  | none => .ok none
  | some k => (k.startTile p row vs).map some

/-- The tile of a row that has been read (src/hdu/data/bintable/tile_compressed/pixels.rs:178-240, 502-615). -/
def openTile (p : Profile) (gz : Gunzip) (fuel : Nat) (vs : List DataValue) (it : TileIt) :
    Option (Res Bool × TileIt) :=
  match arrayOffset vs it.dataIdx, product p it.zTile 1 with
  | .ok offset, .ok n =>
    let it := { it with nPixels := n, remaining := n }
    match tileKw p it.rows.row vs it.kw with
    | .ok kw =>
      let it := { it with kw }
      match tileOffset p it.rows.row it.rows.data.ctx.naxis1 it.rows.data.ctx.theap offset with
      | .ok off => it.fill p gz fuel off
      | _ => some (.panic, it)
    | _ => some (.panic, it)
  | _, _ => some (.panic, it)

/-- The next row and its tile (src/hdu/data/bintable/tile_compressed/pixels.rs:175-241): `ok false` when `next` then
returns `None`. -/
def load (p : Profile) (gz : Gunzip) (fuel : Nat) (it : TileIt) : Option (Res Bool × TileIt) :=
  match it.rows.next p fuel with
  | none => none
  | some (.ok (some vs), rows) => ({ it with rows } : TileIt).openTile p gz fuel vs
  | some (.ok none, rows) => some (.ok false, { it with rows })
  | some (.err _, rows) => some (.ok false, { it with rows })
  | some (.panic, rows) => some (.panic, { it with rows })

/-- The indices of the bytes of pixel `i` in a buffer of `size` bytes, most significant first, for a pixel of `k` bytes
held in 4 bytes (src/hdu/data/bintable/tile_compressed/pixels.rs:244-261, 344-366, 453-482, 621-661); all the
compressions of bytes but RICE are treated alike. -/
def indices (ty : Bitpix) (cmp : ZCmpType) (size i : Nat) : List Nat :=
  match ty, cmp with
  | .u8, .rice _ => [4 * i]
  | .u8, _ => [4 * i + 3]
  | .i16, .gzip1 => [4 * i + 2, 4 * i + 3]
  | .i16, .gzip2 => [2 * (size / 4) + i, 3 * (size / 4) + i]
  | .i16, _ => [4 * i + 1, 4 * i]
  | _, .gzip1 => [4 * i, 4 * i + 1, 4 * i + 2, 4 * i + 3]
  | _, .gzip2 => [i, i + size / 4, i + 2 * (size / 4), i + 3 * (size / 4)]
  | _, _ => [4 * i + 3, 4 * i + 2, 4 * i + 1, 4 * i]

/-- The integer made of the bytes of a pixel: `u8`, `i16` or `i32`. -/
def ofNat (ty : Bitpix) (n : Nat) : Int :=
  match ty with
  | .u8 => n
  | .i16 => toSigned 16 n
  | _ => toSigned 32 n

/-- The integer read for pixel `i` of the buffer. -/
def rawValue (ty : Bitpix) (cmp : ZCmpType) (buf : List UInt8) (i : Nat) : Res Int :=
  match cmp with
  | .plio1 | .hcompress1 => .panic
  | _ => (bytesNat buf (indices ty cmp buf.length i) 0).map (ofNat ty)

/-- The pixel, given the integer read. -/
def toPixel (kw : Option FloatKw) (v : Int) : Res (TilePixel × Option FloatKw) :=
  match kw with
  | none => .ok (.int v, none)
  | some k => (k.unquantize v).map fun (x, k) => (x, some k)

/-- The end of `next` (src/hdu/data/bintable/tile_compressed/pixels.rs:243-265): a pixel of the buffer. -/
def pixel (p : Profile) (it : TileIt) : Res (Option TilePixel) × TileIt :=
  match usub p it.nPixels it.remaining >>= fun i => rawValue it.ty it.cmp it.buf i >>= toPixel it.kw with
  | .ok (x, kw) =>
    match usub p it.remaining 1 with
    | .ok r => (.ok (some x), { it with kw, remaining := r })
    | _ => (.panic, { it with kw })
  | _ => (.panic, it)

/-- `next` (src/hdu/data/bintable/tile_compressed/pixels.rs:173-266, 273-371, 379-487, 497-665, 675-843).  `none`: a
loop has not finished with that fuel. -/
def next (p : Profile) (gz : Gunzip) (fuel : Nat) (it : TileIt) :
    Option (Res (Option TilePixel) × TileIt) :=
  if it.remaining = 0 then
    match it.load p gz fuel with
    | none => none
    | some (.ok true, it) => some (it.pixel p)
    | some (.ok false, it) => some (.ok none, it)
    | some (.err _, it) => some (.ok none, it)
    | some (.panic, it) => some (.panic, it)
  else some (it.pixel p)

end TileIt

/-- `Fits::get_data` for a tile-compressed image (src/fits.rs:96-105, src/hdu/data/bintable/data.rs:57-66). -/
def Fits.getTiles (p : Profile) (f : Fits) (h : Hdu BinTable) (z : TileCompressedImage) : Res TileIt := do
  let t ← TableData.new p f.rd h.header.xtension f.posStart
  TileIt.new p t h.header z

end Fitsrs

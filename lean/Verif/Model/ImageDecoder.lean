import Verif.Model.Tile
/-
Model of src/image_integration.rs: decoding the first image of a file for the `image` crate.
-/

namespace Fitsrs

/-- `image::ColorType`, restricted to the variants used (src/image_integration.rs:296-314). -/
inductive ColorType where
  | l8 | l16 | rgb8 | rgb16 | rgb32F
  deriving DecidableEq, Repr

namespace ColorType

/-- `ColorType::bytes_per_pixel` of the `image` crate. -/
def bytesPerPixel : ColorType → Nat
  | l8 => 1 | l16 => 2 | rgb8 => 3 | rgb16 => 6 | rgb32F => 12

end ColorType

/-- `HduImageKind` (src/image_integration.rs:78-81). -/
inductive ImageKind where
  | image (h : Hdu Image)
  | tiles (h : Hdu BinTable)
  deriving DecidableEq, Repr

/-- `is_rgb` (src/image_integration.rs:53-61). -/
def isRgb (extra : List Nat) : Res Bool :=
  match extra with
  | [] => .ok false
  | [n] => if n = 1 then .ok false else if n = 3 then .ok true else .err .dynamic
  | _ => .err .dynamic

/-- `axes_and_bitpix` (src/image_integration.rs:84-98). -/
def ImageKind.axesAndBitpix : ImageKind → Res (List Nat × Bitpix)
  | image h => .ok (h.header.xtension.naxisn, h.header.xtension.bitpix)
  | tiles h =>
    match h.header.xtension.zImage with
    | some z => .ok (z.zNaxisn, z.zBitpix)
    | none => .err .dynamic

/-- The body of the loop of `FitsDecoder::new` (src/image_integration.rs:116-129) on an HDU: is it the image
looked for? -/
def selects (p : Profile) : HDU → Res (Option ImageKind)
  | .primary h | .image h => do
    let n ← h.header.xtension.numBytes p
    .ok (if n ≠ 0 then some (.image h) else none)
  | .binTable h => .ok (if h.header.xtension.zImage.isSome then some (.tiles h) else none)
  | .asciiTable _ => .ok none

/-- The loop of `FitsDecoder::new` (src/image_integration.rs:115-130), for at most `fuel` HDUs.  `none`: the loop has
not finished with that fuel. -/
def findImage (p : Profile) : (fuel : Nat) → Fits → Option (Res (ImageKind × Fits))
  | 0, _ => none
  | fuel + 1, f =>
    match f.next p with
    | (none, _) => some (.err .dynamic)
    | (some (.err e), _) => some (.err e)
    | (some .panic, _) => some .panic
    | (some (.ok h), f) =>
      match selects p h with
      | .ok (some k) => some (.ok (k, f))
      | .ok none => findImage p fuel f
      | .err e => some (.err e)
      | .panic => some .panic

/-- `u32::try_from` (src/image_integration.rs:139-142). -/
def toU32 (n : Nat) : Res Nat := if n < 2 ^ 32 then .ok n else .err .dynamic

/-- `FitsDecoder` (src/image_integration.rs:101-108). -/
structure Decoder where
  width : Nat
  height : Nat
  rgb : Bool
  bitpix : Bitpix
  fits : Fits
  hdu : ImageKind
  deriving DecidableEq, Repr

namespace Decoder

/-- The end of `FitsDecoder::new` (src/image_integration.rs:132-147). -/
def ofKind (k : ImageKind) (f : Fits) : Res Decoder := do
  let ab ← k.axesAndBitpix
  match ab.1 with
  | w :: h :: extra => do
    let rgb ← isRgb extra
    let width ← toU32 w
    let height ← toU32 h
    .ok { width, height, rgb, bitpix := ab.2, fits := f, hdu := k }
  | _ => .err .dynamic

/-- `FitsDecoder::new` (src/image_integration.rs:111-148). -/
def new (p : Profile) (fuel : Nat) (rd : Reader) : Option (Res Decoder) :=
  match findImage p fuel (Fits.fromReader rd) with
  | none => none
  | some (.ok (k, f)) => some (ofKind k f)
  | some (.err e) => some (.err e)
  | some .panic => some .panic

/-- `color_type` (src/image_integration.rs:296-314). -/
def colorType (d : Decoder) : ColorType :=
  match d.bitpix with
  | .u8 => if d.rgb then .rgb8 else .l8
  | .i16 => if d.rgb then .rgb16 else .l16
  | _ => .rgb32F

/-- `ImageDecoder::total_bytes` of the `image` crate, which is not redefined: a saturating product. -/
def totalBytes (d : Decoder) : Nat := min (d.width * d.height * d.colorType.bytesPerPixel) (two64 - 1)

end Decoder

/-- `Scale` (src/image_integration.rs:150-164).  Simplification: the numbers of the header before rounding. -/
structure Scale where
  bzero : Dec := .fin false 0 0
  bscale : Dec := .fin false 1 0
  deriving DecidableEq, Repr

/-- A field of `Scale`: absent keywords have the default, others must be numbers. -/
def scaleField (m : ValueMap) (k : Str) (default : Dec) : Res Dec :=
  match m.get k with
  | none => .ok default
  | some _ => m.getF64 k

/-- `Scale::deserialize(header.into_deserializer())` (src/image_integration.rs:320, 333). -/
def Scale.ofMap (m : ValueMap) : Res Scale := do
  let bzero ← scaleField m "BZERO".toList (.fin false 0 0)
  let bscale ← scaleField m "BSCALE".toList (.fin false 1 0)
  .ok { bzero, bscale }

/-- Floating-point operations, which are not modelled: whether a number is `0.0` or `1.0`, the scaled values
(src/image_integration.rs:215, 232, 248, 259: an integer for pixels of type `u8` and `i16`, the bits of an `f32` for
`i32` and `i64`), the conversion of a double (src/image_integration.rs:272), the bits of a pixel of a compressed image
of floating-point numbers. -/
structure FloatOps where
  isZero : Dec → Bool
  isOne : Dec → Bool
  scaled : Scale → Pixel → Nat
  narrow : Nat → Nat
  tile : TilePixel → Nat
  isZero_zero : isZero (.fin false 0 0) = true
  isOne_one : isOne (.fin false 1 0) = true

/-- `to_le_bytes`. -/
def leBytes : Nat → Nat → List UInt8
  | 0, _ => []
  | k + 1, n => UInt8.ofNat n :: leBytes k (n / 256)

namespace FloatOps

/-- `scale != Scale::default()` (src/image_integration.rs:212, 229). -/
def needsScale (o : FloatOps) (s : Scale) : Bool := !(o.isZero s.bzero && o.isOne s.bscale)

/-- The bytes written for a pixel (src/image_integration.rs:211-280). -/
def sample (o : FloatOps) (s : Scale) : Pixel → List UInt8
  | .u8 n => leBytes 1 (if o.needsScale s then o.scaled s (.u8 n) else n)
  | .i16 n => leBytes 2 (if o.needsScale s then o.scaled s (.i16 n) else if 0 ≤ n then n.toNat else 0)
  | .i32 n => leBytes 4 (o.scaled s (.i32 n))
  | .i64 n => leBytes 4 (o.scaled s (.i64 n))
  | .f32 b => leBytes 4 b
  | .f64 b => leBytes 4 (o.narrow b)

/-- The bytes written for a pixel of a compressed image of type `ty`. -/
def tileSample (o : FloatOps) (s : Scale) (ty : Bitpix) (x : TilePixel) : List UInt8 :=
  match ty, x with
  | .u8, .int n => o.sample s (.u8 n.toNat)
  | .i16, .int n => o.sample s (.i16 n)
  | .i32, .int n => o.sample s (.i32 n)
  | _, x => leBytes 4 (o.tile x)

end FloatOps

/-- Bytes of the samples written for pixels of each type: the `P` of src/image_integration.rs:183-280. -/
def sampleSize : Bitpix → Nat
  | .u8 => 1
  | .i16 => 2
  | _ => 4

/-- An iterator over the samples to write, in state `σ`.  `none`: a loop has not finished with the fuel given. -/
abbrev Source (σ : Type) := σ → Option (Res (Option (List UInt8)) × σ)

/-- `for (chunk, src) in chunks.iter_mut().zip(&mut iter) { … }`, over `k` chunks of `size` bytes; `set v chunk` is
the new chunk.  The iterator is not called after the last chunk. -/
def writeLoop {σ : Type} (next : Source σ) (size : Nat) (set : List UInt8 → List UInt8 → List UInt8) :
    (k : Nat) → List UInt8 → σ → Option (Res (List UInt8) × σ)
  | 0, buf, s => some (.ok buf, s)
  | k + 1, buf, s =>
    match next s with
    | none => none
    | some (.ok (some v), s) =>
      (writeLoop next size set k (buf.drop size) s).map fun r => (r.1.map (set v (buf.take size) ++ ·), r.2)
    | some (.ok none, s) => some (.ok buf, s)
    | some (.err e, s) => some (.err e, s)
    | some (.panic, s) => some (.panic, s)

/-- `pixel[channel] = src`, for samples of `P` bytes. -/
def setChannel (P c : Nat) (v px : List UInt8) : List UInt8 := px.take (c * P) ++ v ++ px.drop ((c + 1) * P)

/-- The loop over the channels of `write_rgb` (src/image_integration.rs:186-190), from channel `c`, for `k`
channels. -/
def writeChannels {σ : Type} (next : Source σ) (P : Nat) : (k c : Nat) → List UInt8 → σ →
    Option (Res (List UInt8) × σ)
  | 0, _, buf, s => some (.ok buf, s)
  | k + 1, c, buf, s =>
    match writeLoop next (3 * P) (setChannel P c) (buf.length / P / 3) buf s with
    | some (.ok buf, s) => writeChannels next P k (c + 1) buf s
    | r => r

/-- `write_rgb` (src/image_integration.rs:183-191). -/
def writeRgb {σ : Type} (next : Source σ) (P : Nat) (buf : List UInt8) (s : σ) : Option (Res (List UInt8) × σ) :=
  writeChannels next P 3 0 buf s

/-- `write_luma` (src/image_integration.rs:194-198). -/
def writeLuma {σ : Type} (next : Source σ) (P : Nat) (buf : List UInt8) (s : σ) : Option (Res (List UInt8) × σ) :=
  writeLoop next P (fun v _ => v) (buf.length / P) buf s

/-- `write_splat` (src/image_integration.rs:202-208). -/
def writeSplat {σ : Type} (next : Source σ) (P : Nat) (buf : List UInt8) (s : σ) : Option (Res (List UInt8) × σ) :=
  writeLoop next (3 * P) (fun v _ => v ++ v ++ v) (buf.length / P / 3) buf s

/-- `write_u8`, `write_i16`, `write_i32`, `write_i64`, `write_f32` and `write_f64` (src/image_integration.rs:211-288):
the way samples are laid out. -/
def writeAs {σ : Type} (next : Source σ) (ty : Bitpix) (rgb : Bool) (buf : List UInt8) (s : σ) :
    Option (Res (List UInt8) × σ) :=
  if rgb then writeRgb next (sampleSize ty) buf s
  else
    match ty with
    | .u8 | .i16 => writeLuma next (sampleSize ty) buf s
    | _ => writeSplat next (sampleSize ty) buf s

/-- The samples of an image. -/
def imageSource (o : FloatOps) (s : Scale) : Source It := fun it =>
  some (.ok (it.next.1.map (o.sample s)), it.next.2)

/-- The samples of a compressed image. -/
def tileSource (p : Profile) (gz : Gunzip) (fuel : Nat) (o : FloatOps) (s : Scale) :
    Source TileIt := fun it =>
  (it.next p gz fuel).map fun r => (r.1.map (·.map (o.tileSample s it.ty)), r.2)

namespace Decoder

/-- `read_image` (src/image_integration.rs:316-352): the buffer afterwards.  `get_data` gives tiles exactly when there
is a compressed image (src/hdu/data/bintable/data.rs:57-66). -/
def readImage (p : Profile) (gz : Gunzip) (fuel : Nat) (o : FloatOps) (d : Decoder)
    (buf : List UInt8) : Option (Res (List UInt8)) :=
  match d.hdu with
  | .image h =>
    match Scale.ofMap h.header.values, d.fits.getImage p h with
    | .ok s, .ok im => (writeAs (imageSource o s) im.pixels.ty d.rgb buf im.pixels).map Prod.fst
    | .ok _, .err e => some (.err e)
    | .ok _, .panic => some .panic
    | .err e, _ => some (.err e)
    | .panic, _ => some .panic
  | .tiles h =>
    match Scale.ofMap h.header.values, h.header.xtension.zImage with
    | .ok s, some z =>
      match d.fits.getTiles p h z with
      | .ok it => (writeAs (tileSource p gz fuel o s) it.ty d.rgb buf it).map Prod.fst
      | .err e => some (.err e)
      | .panic => some .panic
    | .ok _, none => some (.err .dynamic)
    | .err e, _ => some (.err e)
    | .panic, _ => some .panic

end Decoder

end Fitsrs

import Verif.Model.Fits
/-
Model of src/hdu/data/iter.rs and src/hdu/data/image.rs: the pixels of an image.
-/

namespace Fitsrs

/-- A pixel of one of the six types.  Simplification: floating-point values are represented by their bit
pattern, as they are only read, never computed with. -/
inductive Pixel where
  | u8 (n : Nat)
  | i16 (n : Int)
  | i32 (n : Int)
  | i64 (n : Int)
  | f32 (bits : Nat)
  | f64 (bits : Nat)
  deriving DecidableEq, Repr

/-- The unsigned number whose big-endian bytes are given (`from_be_bytes`). -/
def beNat (bs : List UInt8) : Nat := bs.foldl (fun n b => 256 * n + b.toNat) 0

/-- The signed number of `k` bits with that unsigned representation. -/
def toSigned (k n : Nat) : Int := if n < 2 ^ (k - 1) then n else (n : Int) - 2 ^ k

/-- `Value::read_be` on the bytes read (src/hdu/data/iter.rs:12-41). -/
def Pixel.ofBytes : Bitpix → List UInt8 → Pixel
  | .u8, bs => .u8 (beNat bs)
  | .i16, bs => .i16 (toSigned 16 (beNat bs))
  | .i32, bs => .i32 (toSigned 32 (beNat bs))
  | .i64, bs => .i64 (toSigned 64 (beNat bs))
  | .f32, bs => .f32 (beNat bs)
  | .f64, bs => .f64 (beNat bs)

/-- Result of an `i64` operation: panics on overflow in checked builds, wraps in release builds. -/
def i64op (p : Profile) (x : Int) : Res Int :=
  if -(2 ^ 63) ≤ x ∧ x < 2 ^ 63 then .ok x
  else match p with
    | .checked => .panic
    | .wrapping => .ok (toSigned 64 (x % 2 ^ 64).toNat)

/-- `It<R, T>` (src/hdu/data/iter.rs:47-57); `ty` stands for the type parameter `T`. -/
structure It where
  ty : Bitpix
  rd : Reader
  numItems : Nat
  cur : Nat
  deriving DecidableEq, Repr

namespace It

/-- `It::new` (src/hdu/data/iter.rs:95-104); `size_of::<T>()` is the size of the pixel type. -/
def new (ty : Bitpix) (rd : Reader) (limit : Nat) : It := { ty, rd, numItems := limit / ty.byteSize, cur := 0 }

/-- `It::next` (src/hdu/data/iter.rs:114-123). -/
def next (it : It) : Option Pixel × It :=
  if it.cur = it.numItems then (none, it)
  else
    match it.rd.readExact it.ty.byteSize with
    | (.ok bs, rd) => (some (Pixel.ofBytes it.ty bs), { it with rd, cur := it.cur + 1 })
    | (_, rd) => (none, { it with rd, cur := it.cur + 1 })

/-- The offset of `It::read_value` (src/hdu/data/iter.rs:142-143), an `i64`. -/
def readOffset (p : Profile) (idx : Nat) (it : It) : Res Int := do
  let d ← i64op p (asI64 idx - asI64 it.cur)
  i64op p (d * it.ty.byteSize)

/-- The end of `It::read_value` (src/hdu/data/iter.rs:145-149). -/
def readAt (off : Int) (idx : Nat) (it : It) : Res Pixel × It :=
  match it.rd.seekRelative off with
  | (.ok _, rd) =>
    match next { it with rd, cur := idx } with
    | (some v, it) => (.ok v, it)
    | (none, it) => (.err (.static "Value to retrieve is out of bounds"), it)
  | (.err e, rd) => (.err e, { it with rd })
  | (.panic, rd) => (.panic, { it with rd })

/-- `It::read_value` (src/hdu/data/iter.rs:137-151). -/
def readValue (p : Profile) (idx : Nat) (it : It) : Res Pixel × It :=
  if idx ≥ it.numItems then (.err (.static "Value to retrieve is out of bounds"), it)
  else
    match it.readOffset p idx with
    | .ok off => it.readAt off idx
    | .err e => (.err e, it)
    | .panic => (.panic, it)

end It

/-- `ImageData` (src/hdu/data/image.rs:27-32). -/
structure ImageData where
  startPos : Nat
  numBytes : Nat
  pixels : It
  deriving DecidableEq, Repr

/-- `ImageData::new` (src/hdu/data/image.rs:57-76). -/
def ImageData.new (p : Profile) (x : Image) (rd : Reader) (startPos : Nat) : Res ImageData := do
  let limit ← x.numBytes p
  .ok { startPos, numBytes := limit, pixels := It.new x.bitpix rd limit }

/-- `&raw[s..e]` with `e = s + n` on `usize`: panics out of bounds. -/
def slice (p : Profile) (data : List UInt8) (s n : Nat) : Res (List UInt8) := do
  let e ← uadd p s n
  if s ≤ e ∧ e ≤ data.length then .ok ((data.drop s).take (e - s)) else .panic

/-- `ImageData::raw_bytes` (src/hdu/data/image.rs:91-107), for a reader in memory. -/
def ImageData.rawBytes (p : Profile) (d : ImageData) : Res (List UInt8) :=
  slice p d.pixels.rd.data d.startPos d.numBytes

/-- `Fits::get_data` for an image (src/fits.rs:96-105): the reader is used where it stands. -/
def Fits.getImage (p : Profile) (f : Fits) (h : Hdu Image) : Res ImageData :=
  ImageData.new p h.header.xtension f.rd f.posStart

end Fitsrs

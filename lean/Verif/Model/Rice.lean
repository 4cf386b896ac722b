import Verif.Model.Iter
/-
Model of src/hdu/data/bintable/tile_compressed/rice.rs: the RICE decoder.  Only the decoder of 32-bit integers is
modelled, as it is the only one used (src/hdu/data/bintable/tile_compressed/pixels.rs).  The reader is the list of the
bytes that have not been read; the only error is the end of the file.
-/

namespace Fitsrs

/-- Result of an `i32` operation: panics on overflow in checked builds, wraps in release builds. -/
def i32op (p : Profile) (x : Int) : Res Int :=
  if -(2 ^ 31) ≤ x ∧ x < 2 ^ 31 then .ok x
  else match p with
    | .checked => .panic
    | .wrapping => .ok (toSigned 32 (x % 2 ^ 32).toNat)

/-- The number of bits of a shift of a `w`-bit integer: out of range, it panics in checked builds and is reduced in
release builds. -/
def shamt (p : Profile) (w : Nat) (n : Int) : Res Nat :=
  if 0 ≤ n ∧ n < w then .ok n.toNat
  else match p with
    | .checked => .panic
    | .wrapping => .ok (n % w).toNat

namespace Rice

/-- `NONZERO_COUNT` (src/hdu/data/bintable/tile_compressed/rice.rs:11-20), by runs of equal values. -/
def nonzeroCount : List Nat :=
  [0, 1] ++ List.replicate 2 2 ++ List.replicate 4 3 ++ List.replicate 8 4 ++ List.replicate 16 5 ++
    List.replicate 32 6 ++ List.replicate 64 7 ++ List.replicate 128 8

/-- The bit buffer and the reader: the variables `b` and `nbits`, and the bytes not read. -/
structure Bits where
  b : Nat
  nbits : Int
  inp : List UInt8
  deriving DecidableEq, Repr

/-- The loop that appends bytes to the bit buffer (src/hdu/data/bintable/tile_compressed/rice.rs:183-186,
332-335). -/
def refill : List UInt8 → Nat → Int → Res Bits
  | inp, b, nbits =>
    if nbits < 0 then
      match inp with
      | [] => .err (.io .unexpectedEof)
      | x :: inp => refill inp ((b <<< 8) % 2 ^ 32 ||| x.toNat) (nbits + 8)
    else .ok { b, nbits, inp }

/-- The bits left in the buffer once the first ones are used (`b &= (1 << nbits) - 1`). -/
def low (n b : Nat) : Nat := b &&& ((1 <<< n) - 1)

/-- Reading of the parameter of a block (src/hdu/data/bintable/tile_compressed/rice.rs:182-189). -/
def fsValue (p : Profile) (s : Bits) : Res (Int × Bits) := do
  let s ← refill s.inp s.b (s.nbits - 5)
  let n ← shamt p 32 s.nbits
  let fs ← i32op p (toSigned 32 (s.b >>> n) - 1)
  .ok (fs, { s with b := low n s.b })

/-- The inner loop of the high entropy case (src/hdu/data/bintable/tile_compressed/rice.rs:263-268): returns `diff`,
`b`, `k` and the bytes not read. -/
def highFill (p : Profile) : List UInt8 → Nat → Nat → Int → Res (Nat × Nat × Int × List UInt8)
  | inp, b, diff, k =>
    if 0 ≤ k then
      match inp with
      | [] => .err (.io .unexpectedEof)
      | x :: inp =>
        match shamt p 32 k with
        | .ok n => highFill p inp x.toNat (diff ||| (x.toNat <<< n) % 2 ^ 32) (k - 8)
        | .err e => .err e
        | .panic => .panic
    else .ok (diff, b, k, inp)

/-- The end of the reading of a difference in the high entropy case
(src/hdu/data/bintable/tile_compressed/rice.rs:269-275). -/
def highEnd (p : Profile) (nbits : Int) (diff : Nat) (k : Int) (inp : List UInt8) : Res (Nat × Bits) :=
  if nbits > 0 then
    match inp with
    | [] => .err (.io .unexpectedEof)
    | x :: inp => do
      let n ← shamt p 32 (-k)
      let l ← shamt p 32 nbits
      .ok (diff ||| x.toNat >>> n, { b := low l x.toNat, nbits, inp })
  else .ok (diff, { b := 0, nbits, inp })

/-- Reading of a difference in the high entropy case (src/hdu/data/bintable/tile_compressed/rice.rs:259-275). -/
def highDiff (p : Profile) (s : Bits) : Res (Nat × Bits) := do
  let n ← shamt p 64 (32 - s.nbits)
  let (diff, _, k, inp) ← highFill p s.inp s.b ((s.b <<< n) % 2 ^ 64 % 2 ^ 32) (32 - s.nbits - 8)
  highEnd p s.nbits diff k inp

/-- The loop over the zeros (src/hdu/data/bintable/tile_compressed/rice.rs:322-325). -/
def skipZeros (p : Profile) : List UInt8 → Nat → Int → Res Bits
  | inp, b, nbits =>
    if b = 0 then
      match i32op p (nbits + 8) with
      | .ok nbits =>
        match inp with
        | [] => .err (.io .unexpectedEof)
        | x :: inp => skipZeros p inp x.toNat nbits
      | .err e => .err e
      | .panic => .panic
    else .ok { b, nbits, inp }

/-- Reading of a difference coded with the parameter `fs`, once the zeros are skipped
(src/hdu/data/bintable/tile_compressed/rice.rs:326-337). -/
def riceEnd (p : Profile) (fs : Int) (s : Bits) : Res (Nat × Bits) :=
  match nonzeroCount[s.b]? with
  | none => .panic
  | some c => do
    let nzero ← i32op p (s.nbits - c)
    let t ← i32op p (nzero + 1)
    let nbits ← i32op p (s.nbits - t)
    let n ← shamt p 32 nbits
    let s ← refill s.inp (s.b ^^^ (1 <<< n)) (nbits - fs)
    let f ← shamt p 32 fs
    let n ← shamt p 32 s.nbits
    .ok (((nzero % 2 ^ 32).toNat <<< f) % 2 ^ 32 ||| s.b >>> n, { s with b := low n s.b })

/-- Reading of a difference coded with the parameter `fs` (src/hdu/data/bintable/tile_compressed/rice.rs:322-337). -/
def riceDiff (p : Profile) (fs : Int) (s : Bits) : Res (Nat × Bits) := do
  let s ← skipZeros p s.inp s.b s.nbits
  riceEnd p fs s

/-- Undoing the mapping of differences to unsigned numbers
(src/hdu/data/bintable/tile_compressed/rice.rs:282-286, 340-344). -/
def unmap (diff : Nat) : Nat := if diff &&& 1 = 0 then diff >>> 1 else 2 ^ 32 - 1 - diff >>> 1

/-- The current pixel (src/hdu/data/bintable/tile_compressed/rice.rs:288, 345). -/
def curPix (p : Profile) (diff : Nat) (lastpix : Int) : Res Int := i32op p (toSigned 32 (unmap diff) + lastpix)

/-- `n` turns of the loop over the pixels of a block (src/hdu/data/bintable/tile_compressed/rice.rs:258-295, 320-352);
`diff` reads a difference.  Returns the pixels, the last one and the bit buffer. -/
def pixels (p : Profile) (diff : Bits → Res (Nat × Bits)) : Nat → Int → Bits → Res (List Int × Int × Bits)
  | 0, lastpix, s => .ok ([], lastpix, s)
  | n + 1, lastpix, s => do
    let (d, s) ← diff s
    let cur ← curPix p d lastpix
    let (out, lastpix, s) ← pixels p diff n cur s
    .ok (cur :: out, lastpix, s)

/-- `RICEState` (src/hdu/data/bintable/tile_compressed/rice.rs:22-58), with the bytes not read. -/
inductive State where
  | start (inp : List UInt8)
  | fs (s : Bits) (i lastpix : Int)
  | low (s : Bits) (i imax lastpix : Int)
  | high (s : Bits) (i imax lastpix : Int)
  | rice (s : Bits) (fs i imax lastpix : Int)
  deriving DecidableEq, Repr

/-- Parameters of the decoder (src/hdu/data/bintable/tile_compressed/rice.rs:62-73). -/
structure Params where
  nblock : Int
  nx : Int
  deriving DecidableEq, Repr

/-- `FSMAX` for 32-bit integers (src/hdu/data/bintable/tile_compressed/rice.rs:145). -/
def fsMax : Int := 25

/-- The state after the parameter of a block (src/hdu/data/bintable/tile_compressed/rice.rs:193-218). -/
def blockState (fs : Int) (s : Bits) (i imax lastpix : Int) : State :=
  if fs < 0 then .low s i imax lastpix
  else if fs = fsMax then .high s i imax lastpix
  else .rice s fs i imax lastpix

/-- The state after `n` pixels of a block (src/hdu/data/bintable/tile_compressed/rice.rs:236-244, 297-305, 354-362):
it is left as it was, `old`, if the block is not finished. -/
def afterBlock (old : State) (s : Bits) (i imax lastpix : Int) : State :=
  if i = imax then .fs s i lastpix else old

/-- One turn of the loop of `read` (src/hdu/data/bintable/tile_compressed/rice.rs:158-370), `room` being the number of
pixels for which there is still room in the buffer: returns the pixels written, the state, and whether the room left is
then tested.  Simplifications: the buffer holds a whole number of pixels; its content is the list of the pixels; the
bytes read are not kept when an error is returned.  In the states of a block the bytes read are lost if the block is
not finished, as the state then keeps the old bit buffer with the new reader: this is why the state is given the new
list of bytes. -/
def step (p : Profile) (q : Params) (room : Nat) : State → Res (List Int × State × Bool)
  | .start inp =>
    match inp with
    | b0 :: b1 :: b2 :: b3 :: b :: inp =>
      .ok ([], .fs { b := b.toNat, nbits := 8, inp } 0 (toSigned 32 (beNat [b0, b1, b2, b3])), false)
    | _ => .err (.io .unexpectedEof)
  | .fs s i lastpix => do
    let (fs, s) ← fsValue p s
    let imax ← i32op p (i + q.nblock)
    .ok ([], blockState fs s i (min imax q.nx) lastpix, false)
  | .low s i imax lastpix =>
    let n := min room (imax - i).toNat
    .ok (List.replicate n lastpix, afterBlock (.low s i imax lastpix) s (i + n) imax lastpix, true)
  | .high s i imax lastpix => do
    let n := min room (imax - i).toNat
    let (out, last, s') ← pixels p (highDiff p) n lastpix s
    .ok (out, afterBlock (.high { s with inp := s'.inp } i imax lastpix) s' (i + n) imax last, true)
  | .rice s fs i imax lastpix => do
    let n := min room (imax - i).toNat
    let (out, last, s') ← pixels p (riceDiff p fs) n lastpix s
    .ok (out, afterBlock (.rice { s with inp := s'.inp } fs i imax lastpix) s' (i + n) imax last, true)

/-- `read` (src/hdu/data/bintable/tile_compressed/rice.rs:155-371) on a buffer for `room` pixels, with at most `fuel`
turns of the loop; `none`: the loop has not finished. -/
def read (p : Profile) (q : Params) : (fuel room : Nat) → State → Option (Res (List Int × State))
  | 0, _, _ => none
  | fuel + 1, room, st =>
    match step p q room st with
    | .ok (out, st, tested) =>
      if tested ∧ out.length = room then some (.ok (out, st))
      else (read p q fuel (room - out.length) st).map (fun r => r.map fun (rest, st) => (out ++ rest, st))
    | .err e => some (.err e)
    | .panic => some .panic

/-- Several calls of `read`, on buffers for `rooms` pixels: the pixels read one after the other. -/
def reads (p : Profile) (q : Params) (fuel : Nat) : List Nat → State → Option (Res (List Int))
  | [], _ => some (.ok [])
  | room :: rooms, st =>
    match read p q fuel room st with
    | some (.ok (out, st)) => (reads p q fuel rooms st).map (·.map (out ++ ·))
    | some (.err e) => some (.err e)
    | some .panic => some .panic
    | none => none

/-- The pixels of a tile of `n` pixels (src/hdu/data/bintable/tile_compressed/pixels.rs:219-226): `RICEDecoder::new`
and `read_exact` on the whole buffer, which calls `read` once, and not at all if the buffer is empty. -/
def tile (p : Profile) (fuel nblock n : Nat) (bytes : List UInt8) : Option (Res (List Int)) :=
  if n = 0 then some (.ok [])
  else (read p { nblock := nblock, nx := toSigned 32 (n % 2 ^ 32) } fuel n (.start bytes)).map (·.map (·.1))

end Rice

end Fitsrs

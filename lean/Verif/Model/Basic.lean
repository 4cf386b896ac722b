/-
Basic vocabulary of the model: outcomes of Rust computations (values, errors, panics),
overflow profiles, and the synchronous byte reader.
-/

namespace Fitsrs

/-- `std::io::ErrorKind`, restricted to the kinds the modelled readers produce. -/
inductive IoKind where
  | unexpectedEof
  | invalidInput
  deriving DecidableEq, Repr

/-- `crate::error::Error` (src/error.rs:1-40).  Simplification: the text of dynamically formatted
messages is dropped (`dynamic`), as is the payload of `NotSupportedXtensionType`. -/
inductive Err where
  | static (msg : String)
  | dynamic
  | failReadingNextBytes
  | failFindingKeyword
  | notSupportedXtensionType
  | utf8
  | io (kind : IoKind)
  deriving DecidableEq, Repr

/-- Outcome of a Rust function returning `Result<α, Error>`: a value, an error, or a panic
(index out of bounds, `unwrap`, `unreachable!`, `assert!`, arithmetic overflow, ...). -/
inductive Res (α : Type) where
  | ok (a : α)
  | err (e : Err)
  | panic
  deriving DecidableEq, Repr

namespace Res

/-- The `?` operator. -/
def bind {α β : Type} : Res α → (α → Res β) → Res β
  | ok a, f => f a
  | err e, _ => err e
  | panic, _ => panic

/-- `Result::map`. -/
def map {α β : Type} (f : α → β) : Res α → Res β
  | ok a => ok (f a)
  | err e => err e
  | panic => panic

instance : Monad Res where
  pure := ok
  bind := bind

/-- `Result::ok()` for an outcome that is not a panic: `Err` becomes `None`. -/
def toOption {α : Type} : Res α → Res (Option α)
  | ok a => ok (some a)
  | err _ => ok none
  | panic => panic

@[simp] theorem bind_ok {α β : Type} (a : α) (f : α → Res β) : ((ok a : Res α) >>= f) = f a := rfl
@[simp] theorem bind_err {α β : Type} (e : Err) (f : α → Res β) : ((err e : Res α) >>= f) = err e := rfl
@[simp] theorem bind_panic {α β : Type} (f : α → Res β) : ((panic : Res α) >>= f) = panic := rfl
@[simp] theorem pure_eq {α : Type} (a : α) : (pure a : Res α) = ok a := rfl
@[simp] theorem map_ok {α β : Type} (f : α → β) (a : α) : (ok a).map f = ok (f a) := rfl
@[simp] theorem map_err {α β : Type} (f : α → β) (e : Err) : (err e : Res α).map f = err e := rfl
@[simp] theorem map_panic {α β : Type} (f : α → β) : (panic : Res α).map f = panic := rfl

end Res

/-- Overflow behaviour of integer arithmetic.  `checked`: overflow checks on (debug builds, and the
`test` profile of Cargo.toml:57-66); `wrapping`: release builds (Cargo.toml:53-55). -/
inductive Profile where
  | checked
  | wrapping
  deriving DecidableEq, Repr

/-- Number of values of `u64` (and of `usize`: 64-bit targets are assumed). -/
abbrev two64 : Nat := 2 ^ 64

/-- `a - b` on `usize`/`u64` (arguments below `2^64`). -/
def usub (p : Profile) (a b : Nat) : Res Nat :=
  if b ≤ a then .ok (a - b)
  else match p with
    | .checked => .panic
    | .wrapping => .ok (a + two64 - b)

/-- `a + b` on `usize`/`u64`. -/
def uadd (p : Profile) (a b : Nat) : Res Nat :=
  if a + b < two64 then .ok (a + b)
  else match p with
    | .checked => .panic
    | .wrapping => .ok ((a + b) % two64)

/-- `a * b` on `usize`/`u64`. -/
def umul (p : Profile) (a b : Nat) : Res Nat :=
  if a * b < two64 then .ok (a * b)
  else match p with
    | .checked => .panic
    | .wrapping => .ok ((a * b) % two64)

/-- `n as i64` for a `usize`/`u64` (two's complement). -/
def asI64 (n : Nat) : Int := if n < 2 ^ 63 then n else (n : Int) - two64

/-- A synchronous reader implementing `Read + Seek`: the bytes of the stream and the current
position.  This is the behaviour of `Cursor<&[u8]>`, `BufReader<File>` and `GzReader`
(src/gz.rs).  Simplification: I/O errors other than end of file are not modelled. -/
structure Reader where
  data : List UInt8
  pos : Nat
  deriving DecidableEq, Repr

namespace Reader

/-- `Read::read_exact` on a buffer of `n` bytes.  At end of file the reader has consumed whatever
was left. -/
def readExact (n : Nat) (r : Reader) : Res (List UInt8) × Reader :=
  let s := (r.data.drop r.pos).take n
  if s.length = n then (.ok s, { r with pos := r.pos + n })
  else (.err (.io .unexpectedEof), { r with pos := max r.pos r.data.length })

/-- `Seek::seek_relative`, `Seek::seek(SeekFrom::Current(off))`: positions past the end are
allowed, negative ones (or beyond 64 bits) are an `InvalidInput` error. -/
def seekRelative (off : Int) (r : Reader) : Res Unit × Reader :=
  let q := (r.pos : Int) + off
  if 0 ≤ q ∧ q < two64 then (.ok (), { r with pos := q.toNat })
  else (.err (.io .invalidInput), r)

/-- `Seek::seek(SeekFrom::Start(p))`. -/
def seekStart (p : Nat) (r : Reader) : Reader := { r with pos := p }

end Reader

end Fitsrs

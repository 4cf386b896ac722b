import Verif.Model.InputData
/-
The bytes of ASCII tables, and of binary tables (`TableData::bytes`), over any reader.  The stream has a buffer of its own, and
asks the reader for as many bytes as the reader likes to give: how far the reader has got depends on it.
-/

namespace Fitsrs

namespace BufReader

/-- `Read::read`, tried again when it is interrupted, as `Bytes::next` does. -/
def readSome : (fuel : Nat) → Nat → BufReader → Res (List UInt8) × BufReader
  | 0, _, b => (.panic, b)
  | fuel + 1, n, b =>
    match b.read n with
    | (.interrupted, b) => readSome fuel n b
    | (.failed, b) => (.err (.io .invalidInput), b)
    | (.bytes bs, b) => (.ok bs, b)

end BufReader

/-- `Read::read`: some of the bytes asked for. -/
abbrev SomeBytes (σ : Type) := Nat → σ → Res (List UInt8) × σ

/-- `BufReader`; `GzReader` passes the reads on (src/gz.rs:21-27). -/
def bufSome : SomeBytes BufReader := fun n b => b.readSome (b.file.plan.length + 1) n

/-- `Cursor`: all that is there. -/
def cursorSome : SomeBytes Reader := fun n r =>
  (.ok ((r.data.drop r.pos).take n), { r with pos := r.pos + ((r.data.drop r.pos).take n).length })

namespace Input
variable {σ : Type}

/-- `Iterator::next` for `Bytes<BufReader<Take<&mut R>>>` (src/hdu/data/asciitable.rs:18-23,
src/hdu/data/bintable/data.rs:188-192): the byte, the bytes left in the buffer and what `Take` still allows, and the reader. -/
def nextByte (more : SomeBytes σ) (rd : σ) (limit : Nat) (buf : List UInt8) : Res (Option UInt8) × (Nat × List UInt8) × σ :=
  match buf with
  | b :: bs => (.ok (some b), (limit, bs), rd)
  | [] =>
    if limit = 0 then (.ok none, (limit, []), rd)
    else
      match more (min 8192 limit) rd with
      | (.ok [], rd) => (.ok none, (limit, []), rd)
      | (.ok (b :: bs), rd) => (.ok (some b), (limit - (bs.length + 1), bs), rd)
      | (.err e, rd) => (.err e, (limit, []), rd)
      | (.panic, rd) => (.panic, (limit, []), rd)

/-- A call, with those on the bytes of tables; and whether a read or a move of the reader failed. -/
def callAny (S : Input σ) (more : SomeBytes σ) (p : Profile) (fuel : Nat) (c : Call) (s : Session σ) :
    Option ((Res Seen × Bool) × Session σ) :=
  match c, s.opened with
  | .next, some (.bytes b) =>
    match nextByte more s.file.rd b.limit b.buf with
    | (.ok v, (limit, buf), rd) =>
      some ((.ok (.byte v), false), { s with file := { s.file with rd }, opened := some (.bytes { b with limit, buf }) })
    | (.err e, (limit, buf), rd) =>
      some ((.err e, true), { s with file := { s.file with rd }, opened := some (.bytes { b with limit, buf }) })
    | (.panic, (limit, buf), rd) =>
      some ((.panic, true), { s with file := { s.file with rd }, opened := some (.bytes { b with limit, buf }) })
  | .bytes, some (.table t) => some ((.ok .unit, false), { s with opened := some (.bytes t.bytes) })
  | c, _ => S.call p fuel c s

/-- What a program sees, up to and including the first call in which a read or a move fails, or which panics. -/
def runAny (S : Input σ) (more : SomeBytes σ) (p : Profile) (fuel : Nat) : List Call → Session σ → List (Option (Res Seen))
  | [], _ => []
  | c :: cs, s =>
    match S.callAny more p fuel c s with
    | none => [none]
    | some ((.panic, _), _) => [some .panic]
    | some ((r, true), _) => [some r]
    | some ((r, false), s) => some r :: S.runAny more p fuel cs s

end Input

/-- Whether a read or a move fails in a call, on the readers of Model/Basic.lean: those of the streams of bytes do not. -/
def Session.failsAny (p : Profile) (fuel : Nat) (c : Call) (s : Session) : Bool :=
  match c, s.opened with
  | .next, some (.bytes _) => false
  | .bytes, some (.table _) => false
  | c, _ => s.failsIn p fuel c

/-- What a program sees, up to and including the first call in which a read or a move fails, or which panics. -/
def Session.runAll (p : Profile) (gz : Gunzip) (fuel : Nat) : List Call → Session → List (Option (Res Seen))
  | [], _ => []
  | c :: cs, s =>
    match s.call p gz fuel c with
    | none => [none]
    | some (.panic, _) => [some .panic]
    | some (r, s') => if s.failsAny p fuel c then [some r] else some r :: runAll p gz fuel cs s'

end Fitsrs

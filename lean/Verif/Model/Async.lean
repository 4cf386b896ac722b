import Verif.Model.Iter
/-
Model of src/async_fits.rs, src/hdu/data/stream.rs and the asynchronous functions of src/hdu/mod.rs and
src/hdu/data/mod.rs.

An asynchronous computation is a tree of requests to the reader.  Polling it runs it until the reader is not ready; what
is left of the computation is then the future that may be polled again, or dropped.
-/

namespace Fitsrs

/-- What the source does at one of the calls of `poll_read` on it: it is not ready, it fails with some kind of error, or it
delivers some bytes (at least one). -/
inductive Event where
  | pending
  | fail (kind : IoKind)
  | chunk (b : UInt8) (bs : List UInt8)
  deriving DecidableEq, Repr

/-- `futures::io::BufReader<R>`: the bytes in the buffer that are not consumed yet, and the source.  After its events the
source is at its end.  Simplifications: the kinds of errors are those of `IoKind`; the capacity of the buffer is not modelled (a source
that delivers less at once is one with smaller chunks), nor is the direct reading into a large buffer of the caller. -/
structure AReader where
  cur : List UInt8
  events : List Event
  deriving DecidableEq, Repr

/-- The bytes of the events. -/
def eventBytes : List Event → List UInt8
  | [] => []
  | .pending :: es => eventBytes es
  | .fail _ :: es => eventBytes es
  | .chunk b bs :: es => b :: bs ++ eventBytes es

/-- All the bytes to come. -/
def AReader.bytes (r : AReader) : List UInt8 := r.cur ++ eventBytes r.events

/-- `poll_fill_buf`: the bytes of the buffer, filled if it is empty, or the error of the source; `none` if the source is not
ready. -/
def AReader.pollFill (r : AReader) : Option (Except IoKind (List UInt8)) × AReader :=
  match r.cur with
  | b :: bs => (some (.ok (b :: bs)), r)
  | [] =>
    match r.events with
    | [] => (some (.ok []), r)
    | .pending :: es => (none, { r with events := es })
    | .fail e :: es => (some (.error e), { r with events := es })
    | .chunk b bs :: es => (some (.ok (b :: bs)), ⟨b :: bs, es⟩)

/-- `consume`. -/
def AReader.consume (n : Nat) (r : AReader) : AReader := { r with cur := r.cur.drop n }

/-- An asynchronous computation with a reader: `fill k e` asks for the bytes of the buffer and goes on with `k`, or with `e`
if the source fails. -/
inductive Fut (α : Type) where
  | done (a : α)
  | fill (k : List UInt8 → Fut α) (e : IoKind → Fut α)
  | consume (n : Nat) (k : Fut α)

/-- `std::task::Poll`; what is pending is the future to be polled again. -/
inductive Poll (α : Type) where
  | pending (f : Fut α)
  | ready (a : α)

namespace Fut

/-- `.await` in the middle of an asynchronous function. -/
def bind {α β : Type} : Fut α → (α → Fut β) → Fut β
  | done a, f => f a
  | fill k e, f => fill (fun b => (k b).bind f) fun x => (e x).bind f
  | consume n k, f => consume n (k.bind f)

/-- `Future::poll`. -/
def poll {α : Type} : Fut α → AReader → Poll α × AReader
  | done a, r => (.ready a, r)
  | consume n k, r => k.poll (r.consume n)
  | fill k e, r =>
    match r.pollFill with
    | (some (.ok b), r) => (k b).poll r
    | (some (.error x), r) => (e x).poll r
    | (none, r) => (.pending (fill k e), r)

/-- An executor: poll at most `n` times. -/
def block {α : Type} : Nat → Fut α → AReader → Option α × AReader
  | 0, _, r => (none, r)
  | n + 1, f, r =>
    match f.poll r with
    | (.ready a, r) => (some a, r)
    | (.pending f, r) => f.block n r

/-- `.await?` with the error left as it is, or changed (`map_err`). -/
def andThen {α β : Type} (f : Fut (Res α)) (onErr : Err → Err) (g : α → Fut (Res β)) : Fut (Res β) :=
  f.bind fun r => match r with
    | .ok a => g a
    | .err e => done (.err (onErr e))
    | .panic => done .panic

/-- `AsyncReadExt::read_exact` (crate futures, io/read_exact.rs).  `fuel` bounds the iterations, of which each reads at
least one byte: `n` of them are enough. -/
def readExactN : (fuel n : Nat) → List UInt8 → Fut (Res (List UInt8))
  | _, 0, acc => done (.ok acc)
  | 0, _ + 1, _ => done .panic
  | fuel + 1, n + 1, acc =>
    fill (fun b =>
      if b = [] then done (.err (.io .unexpectedEof))
      else consume (min (n + 1) b.length) (readExactN fuel (n + 1 - b.length) (acc ++ b.take (n + 1))))
      fun x => done (.err (.io x))

/-- `read_exact` with enough fuel. -/
def readExact (n : Nat) : Fut (Res (List UInt8)) := readExactN n n []

/-- The loop of `read_n_bytes_exact`; `n` is what is left to read.  Each iteration reads at least one byte, so that `n + 1`
of them are enough. -/
def readNBytesN : (fuel n : Nat) → Fut (Res Unit)
  | 0, _ => done .panic
  | fuel + 1, n =>
    fill (fun b =>
      if b = [] then done (if n ≠ 0 then .err (.static "The file has reached EOF") else .ok ())
      else if b.length < n then consume b.length (readNBytesN fuel (n - b.length))
      else consume n (done (.ok ())))
      fun _ => done (.err (.static "The underlying reader was read, but returned an error."))

/-- `read_n_bytes_exact` (src/hdu/data/mod.rs:65-103). -/
def readNBytesExact (n : Nat) : Fut (Res Unit) := readNBytesN (n + 1) n

end Fut

open Fut

/-- The message of `consume_cards_async`. -/
def failHeader : Err := .static "Fail reading the header without encountering the END card"

/-- `consume_cards_async` (src/hdu/mod.rs:79-111) with `consume_next_card_async` (src/hdu/header/mod.rs:36-47): the cards
and `num_bytes_read`. -/
def consumeCardsA : (fuel nread : Nat) → Fut (Res (List Card × Nat))
  | 0, _ => done .panic
  | fuel + 1, nread =>
    (readExact 80).andThen (fun _ => failHeader) fun buf =>
      match recordCard buf with
      | .ok c =>
        if c = .end_ then done (.ok ([c], nread + 80))
        else (consumeCardsA fuel (nread + 80)).andThen id fun (cs, n) => done (.ok (c :: cs, n))
      | .err e => done (.err e)
      | .panic => done .panic

/-- `hdu::AsyncHDU` (src/hdu/mod.rs:204-210), with `async_fits::AsyncHDU` (src/async_fits.rs:205-211). -/
inductive AHdu where
  | primary (h : Header Image)
  | image (h : Header Image)
  | binTable (h : Header BinTable)
  | asciiTable (h : Header AsciiTable)
  deriving DecidableEq, Repr

/-- The size of the data unit, as computed in src/async_fits.rs:168-181. -/
def AHdu.dataSize (p : Profile) : AHdu → Res Nat
  | primary h | image h => h.xtension.numBytes p
  | binTable h => h.xtension.numBytes p
  | asciiTable h => h.xtension.numBytes p

/-- `async_fits::AsyncHDU::new` (src/async_fits.rs:218-252). -/
def AHdu.new {X : Type} (parse : ValueMap → Res X) (cards : List Card) (nread : Nat) : Fut (Res (Header X)) :=
  match Header.parse parse cards with
  | .ok header =>
    if nread % 2880 ≠ 0 then
      (readExact (2880 - nread % 2880)).andThen (fun _ => .static "EOF reached") fun _ => done (.ok header)
    else done (.ok header)
  | .err e => done (.err e)
  | .panic => done .panic

/-- The dispatch on the first card of `AsyncHDU::new_xtension` (src/hdu/mod.rs:225-249). -/
def xtensionOfA (p : Profile) (cards : List Card) (nread : Nat) : Fut (Res AHdu) :=
  match cards with
  | .xtension .image _ :: _ => (AHdu.new Image.parse cards nread).andThen id fun h => done (.ok (.image h))
  | .xtension .binTable _ :: _ => (AHdu.new (BinTable.parse p) cards nread).andThen id fun h => done (.ok (.binTable h))
  | .xtension .asciiTable _ :: _ => (AHdu.new AsciiTable.parse cards nread).andThen id fun h => done (.ok (.asciiTable h))
  | _ :: _ => done (.err (.static "XTENSION card has not been found in the header"))
  | [] => done .panic

/-- `AsyncHDU::new_xtension` (src/hdu/mod.rs:213-252). -/
def AHdu.newXtension (p : Profile) (fuel : Nat) : Fut (Res AHdu) :=
  (consumeCardsA fuel 0).andThen id fun (cards, nread) => xtensionOfA p cards nread

/-- The test of the first card in `AsyncHDU::new_primary` (src/hdu/mod.rs:262-275): the pattern binds a new variable
`_name`, so that the keyword is not compared. -/
def primaryOfA (cards : List Card) (nread : Nat) : Fut (Res AHdu) :=
  match cards with
  | .value _ (.logical true _) :: _ => (AHdu.new Image.parse cards nread).andThen id fun h => done (.ok (.primary h))
  | _ :: _ => done (.err (.static "not a FITSv4 file"))
  | [] => done .panic

/-- `AsyncHDU::new_primary` (src/hdu/mod.rs:254-276). -/
def AHdu.newPrimary (fuel : Nat) : Fut (Res AHdu) :=
  (consumeCardsA fuel 0).andThen id fun (cards, nread) => primaryOfA cards nread

/-- `AsyncFits<R>` (src/async_fits.rs:17-29). -/
structure AFits where
  start : Bool
  remaining : Nat
  numBytes : Nat
  errored : Bool
  rd : AReader
  deriving DecidableEq, Repr

/-- The result of polling a stream. -/
inductive StreamPoll (α : Type) where
  | pending
  | ready (a : Option (Res α))
  deriving DecidableEq, Repr

namespace AFits

/-- `AsyncFits::from_reader` (src/async_fits.rs:36-44). -/
def fromReader (rd : AReader) : AFits := { start := true, remaining := 0, numBytes := 0, errored := false, rd }

/-- The test of the end of the file (src/async_fits.rs:89-90). -/
def atEof : Fut (Res Bool) := fill (fun b => done (.ok (decide (b = [])))) fun x => done (.err (.io x))

/-- The end of `consume_until_next_hdu` (src/async_fits.rs:67-90): the fill of the last block. -/
def skipFill (numBytes : Nat) : Fut (Res Bool) :=
  if numBytes % 2880 ≠ 0 then
    (readExact (2880 - numBytes % 2880)).bind fun r => match r with
      | .err (.io .unexpectedEof) => done (.ok true)
      | .err e => done (.err e)
      | .panic => done .panic
      | .ok _ => atEof
  else atEof

/-- `consume_until_next_hdu` (src/async_fits.rs:55-91). -/
def consumeUntilNextHdu (remaining numBytes : Nat) : Fut (Res Bool) :=
  if remaining > 0 then (readNBytesExact remaining).andThen id fun _ => skipFill numBytes
  else skipFill numBytes

/-- The end of `poll_next` (src/async_fits.rs:163-198). -/
def record (p : Profile) (n : Option (Res AHdu)) (f : AFits) : StreamPoll AHdu × AFits :=
  match n with
  | some (.ok h) =>
    match h.dataSize p with
    | .ok sz => (.ready (some (.ok h)), { f with start := false, numBytes := sz, remaining := sz })
    | .err e => (.ready (some (.err e)), { f with start := false })
    | .panic => (.ready (some .panic), { f with start := false })
  | some (.err e) => (.ready (some (.err e)), { f with start := false, errored := true })
  | some .panic => (.ready (some .panic), { f with start := false })
  | none => (.ready none, { f with start := false })

/-- `Stream::poll_next` for `AsyncFits` (src/async_fits.rs:127-200).  The futures are made in each call, polled once, and
dropped if they are pending. -/
def pollNext (p : Profile) (f : AFits) : StreamPoll AHdu × AFits :=
  if f.errored then (.ready none, f)
  else if f.start then
    match (AHdu.newPrimary (f.rd.bytes.length + 1)).poll f.rd with
    | (.pending _, rd) => (.pending, { f with rd })
    | (.ready r, rd) => record p (some r) { f with rd }
  else
    match (consumeUntilNextHdu f.remaining f.numBytes).poll f.rd with
    | (.pending _, rd) => (.pending, { f with rd })
    | (.ready (.ok true), rd) => record p none { f with rd }
    | (.ready (.ok false), rd) =>
      match (AHdu.newXtension p (rd.bytes.length + 1)).poll rd with
      | (.pending _, rd) => (.pending, { f with rd })
      | (.ready r, rd) => record p (some r) { f with rd }
    | (.ready (.err e), rd) => record p (some (.err e)) { f with rd }
    | (.ready .panic, rd) => record p (some .panic) { f with rd }

/-- An executor collecting the stream: the items returned by at most `n` calls of `poll_next`, stopping after `None` or a
panic. -/
def collect (p : Profile) : Nat → AFits → List (Res AHdu)
  | 0, _ => []
  | n + 1, f =>
    match f.pollNext p with
    | (.pending, f) => collect p n f
    | (.ready none, _) => []
    | (.ready (some .panic), _) => [.panic]
    | (.ready (some r), f) => r :: collect p n f

end AFits

/-- `St<R, T>` (src/hdu/data/stream.rs:26-33); `ty` stands for the type parameter `T`.  `remaining` is the field of
`AsyncFits` it borrows. -/
structure St where
  ty : Bitpix
  rd : AReader
  remaining : Nat
  deriving DecidableEq, Repr

namespace St

/-- `Stream::poll_next` for `St` (src/hdu/data/stream.rs:57-263): the future of `read_exact` is made in each call, polled
once, and dropped if it is pending. -/
def pollNext (p : Profile) (s : St) : StreamPoll Pixel × St :=
  if s.remaining = 0 then (.ready none, s)
  else
    match (readExact s.ty.byteSize).poll s.rd with
    | (.pending _, rd) => (.pending, { s with rd })
    | (.ready (.ok bs), rd) =>
      match usub p s.remaining s.ty.byteSize with
      | .ok remaining => (.ready (some (.ok (Pixel.ofBytes s.ty bs))), { s with rd, remaining })
      | .err e => (.ready (some (.err e)), { s with rd })
      | .panic => (.ready (some .panic), { s with rd })
    | (.ready (.err e), rd) => (.ready (some (.err e)), { s with rd })
    | (.ready .panic, rd) => (.ready (some .panic), { s with rd })

/-- An executor: the items returned by at most `n` calls of `poll_next`, stopping after `None` or a panic. -/
def collect (p : Profile) : Nat → St → List (Res Pixel)
  | 0, _ => []
  | n + 1, s =>
    match s.pollNext p with
    | (.pending, s) => collect p n s
    | (.ready none, _) => []
    | (.ready (some .panic), _) => [.panic]
    | (.ready (some r), s) => r :: collect p n s

end St

/-- `AsyncFits::get_data` (src/async_fits.rs:93-109) for an image (src/hdu/data/image.rs:106-128). -/
def AFits.getImage (f : AFits) (h : Header Image) : St := ⟨h.xtension.bitpix, f.rd, f.remaining⟩

/-- `AsyncFits::get_data` for a table, binary or in ASCII (src/hdu/data/bintable/data.rs:866-880,
src/hdu/data/asciitable.rs:27-42): its bytes. -/
def AFits.getBytes (f : AFits) : St := ⟨.u8, f.rd, f.remaining⟩

/-- The stream of HDUs once the borrow by a data stream ends. -/
def AFits.giveBack (f : AFits) (s : St) : AFits := { f with rd := s.rd, remaining := s.remaining }

end Fitsrs

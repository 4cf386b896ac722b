import Verif.Model.Fits
/-
Readers in general.  The rest of the model uses `Reader`, which delivers all the bytes it is asked for at once.  Here: what the
library needs of a reader, the HDU iterator over any reader (the same code as in Model/Fits.lean), and four readers: a
`BufReader` on a file whose reads deliver any number of bytes, are interrupted or fail, the same inside a `GzReader` (as `FITSFile::open`
makes it), and `Cursor` as of two versions of the standard library, which differ in the position after a read that failed.
-/

namespace Fitsrs

/-- What is used of a reader (`Read + Seek`): `read_exact`, `seek_relative`, `seek(SeekFrom::Current(_))`,
`seek(SeekFrom::Start(_))` and `stream_position`.  `size` is the number of bytes of the file, used only to bound recursion. -/
structure Input (σ : Type) where
  readExact : Nat → σ → Res (List UInt8) × σ
  seekRelative : Int → σ → Res Unit × σ
  seekCurrent : Int → σ → Res Unit × σ
  seekStart : Nat → σ → Res Unit × σ
  tell : σ → Nat × σ
  size : σ → Nat

namespace Input
variable {σ : Type}

/-- `HState` over any reader. -/
structure HSt (σ : Type) where
  rd : σ
  nread : Nat

/-- `consume_next_card` (src/hdu/header/mod.rs:25-34). -/
def consumeNextCard (S : Input σ) (s : HSt σ) : Res (List UInt8) × HSt σ :=
  match S.readExact 80 s.rd with
  | (.ok buf, rd) => (.ok buf, { rd, nread := s.nread + 80 })
  | (.err e, rd) => (.err e, { s with rd })
  | (.panic, rd) => (.panic, { s with rd })

/-- `consume_cards` (src/hdu/mod.rs:48-77). -/
def consumeCardsN (S : Input σ) : (fuel : Nat) → HSt σ → Res (List Card) × HSt σ
  | 0, s => (.panic, s)
  | fuel + 1, s =>
    match S.consumeNextCard s with
    | (.ok buf, s) =>
      match recordCard buf with
      | .ok c =>
        if c = .end_ then (.ok [c], s)
        else
          let (r, s) := S.consumeCardsN fuel s
          (r.map (c :: ·), s)
      | .err e => (.err e, s)
      | .panic => (.panic, s)
    | (.err e, s) => (.err e, s)
    | (.panic, s) => (.panic, s)

/-- `consume_cards` with enough fuel. -/
def consumeCards (S : Input σ) (s : HSt σ) : Res (List Card) × HSt σ := S.consumeCardsN (S.size s.rd + 1) s

/-- `fits::HDU::new` (src/fits.rs:179-211). -/
def hduNew (S : Input σ) {X : Type} (parse : ValueMap → Res X) (cards : List Card) (s : HSt σ) : Res (Hdu X) × HSt σ :=
  match Header.parse parse cards with
  | .ok header =>
    if s.nread % 2880 ≠ 0 then
      let off := 2880 - s.nread % 2880
      match S.readExact off s.rd with
      | (.ok _, rd) => (.ok { header, dataOffset := (S.tell rd).1 }, { rd := (S.tell rd).2, nread := s.nread + off })
      | (.err _, rd) => (.err (.static "EOF reached"), { s with rd })
      | (.panic, rd) => (.panic, { s with rd })
    else (.ok { header, dataOffset := (S.tell s.rd).1 }, { s with rd := (S.tell s.rd).2 })
  | .err e => (.err e, s)
  | .panic => (.panic, s)

/-- Apply a constructor to the value of an outcome. -/
def wrap {X : Type} (f : Hdu X → HDU) (r : Res (Hdu X) × HSt σ) : Res HDU × HSt σ := (r.1.map f, r.2)

/-- The dispatch on the first card of `HDU::new_xtension` (src/hdu/mod.rs:124-152). -/
def xtensionOf (S : Input σ) (p : Profile) (cards : List Card) (s : HSt σ) : Res HDU × HSt σ :=
  match cards with
  | .xtension .image _ :: _ => wrap .image (S.hduNew Image.parse cards s)
  | .xtension .binTable _ :: _ => wrap .binTable (S.hduNew (BinTable.parse p) cards s)
  | .xtension .asciiTable _ :: _ => wrap .asciiTable (S.hduNew AsciiTable.parse cards s)
  | _ :: _ => (.err (.static "XTENSION card has not been found in the header"), s)
  | [] => (.panic, s)

/-- `HDU::new_xtension` (src/hdu/mod.rs:114-153). -/
def newXtension (S : Input σ) (p : Profile) (s : HSt σ) : Res HDU × HSt σ :=
  match S.consumeCards s with
  | (.ok cards, s) => S.xtensionOf p cards s
  | (.err e, s) => (.err e, s)
  | (.panic, s) => (.panic, s)

/-- The test of the first card in `HDU::new_primary` (src/hdu/mod.rs:164-185). -/
def primaryOf (S : Input σ) (cards : List Card) (s : HSt σ) : Res HDU × HSt σ :=
  match cards with
  | .value name (.logical true _) :: _ =>
    if name = "SIMPLE".toList then wrap .primary (S.hduNew Image.parse cards s)
    else (.err .dynamic, s)
  | _ :: _ => (.err (.static "not a FITSv4 file"), s)
  | [] => (.panic, s)

/-- `HDU::new_primary` (src/hdu/mod.rs:155-186). -/
def newPrimary (S : Input σ) (rd : σ) : Res HDU × HSt σ :=
  match S.consumeCards { rd, nread := 0 } with
  | (.ok cards, s) => S.primaryOf cards s
  | (.err e, s) => (.err e, s)
  | (.panic, s) => (.panic, s)

/-- `Fits<R>` (src/fits.rs:12-24). -/
structure File (σ : Type) where
  start : Bool
  posStart : Nat
  numBytes : Nat
  errored : Bool
  rd : σ

/-- `Fits::from_reader` (src/fits.rs:41-49). -/
def fromReader (rd : σ) : File σ := { start := true, posStart := 0, numBytes := 0, errored := false, rd }

/-- Number of bytes to skip in `consume_until_next_hdu` (src/fits.rs:66-75), from the position `pos`. -/
def skipFrom (p : Profile) (pos posStart numBytes : Nat) : Res Nat := do
  let d ← usub p pos posStart
  let n ← usub p numBytes d
  if numBytes % 2880 = 0 then .ok n else uadd p n (2880 - numBytes % 2880)

/-- `consume_until_next_hdu` (src/fits.rs:61-78). -/
def consumeUntilNextHdu (S : Input σ) (p : Profile) (f : File σ) : Res Unit × σ :=
  match skipFrom p (S.tell f.rd).1 f.posStart f.numBytes with
  | .ok n => S.seekRelative (asI64 n) (S.tell f.rd).2
  | .err e => (.err e, (S.tell f.rd).2)
  | .panic => (.panic, (S.tell f.rd).2)

/-- The end of `next` (src/fits.rs:141-158). -/
def record (p : Profile) (n : Option (Res HDU)) (f : File σ) : Option (Res HDU) × File σ :=
  match n with
  | some (.ok h) =>
    match h.dataSize p with
    | .ok sz => (some (.ok h), { f with numBytes := sz, posStart := h.dataOffset })
    | .err e => (some (.err e), f)
    | .panic => (some .panic, f)
  | some (.err e) => (some (.err e), { f with errored := true })
  | some .panic => (some .panic, f)
  | none => (none, f)

/-- The end of the file at the first byte of a header (src/fits.rs:131-137). -/
def atEnd (r : Res HDU) (nread : Nat) : Option (Res HDU) :=
  match r with
  | .err (.io .unexpectedEof) => if nread = 0 then none else some r
  | _ => some r

/-- `Iterator::next` for `Fits` (src/fits.rs:113-161). -/
def next (S : Input σ) (p : Profile) (f : File σ) : Option (Res HDU) × File σ :=
  if f.errored then (none, f)
  else if f.start then
    record p (some (S.newPrimary f.rd).1) { f with start := false, rd := (S.newPrimary f.rd).2.rd }
  else
    match S.consumeUntilNextHdu p f with
    | (.ok _, rd) =>
      record p (atEnd (S.newXtension p { rd, nread := 0 }).1 (S.newXtension p { rd, nread := 0 }).2.nread)
        { f with start := false, rd := (S.newXtension p { rd, nread := 0 }).2.rd }
    | (.err e, rd) => record p (some (.err e)) { f with start := false, rd }
    | (.panic, rd) => record p (some .panic) { f with start := false, rd }

end Input

/-! ### What a program does with the reader -/

/-- `next`, reading bytes through the file (`Read for Fits`, src/fits.rs:26-33, with the provided `read_exact`; the fields of
tables are read in the same way), iterating over values of `n` bytes (`It::next`, src/hdu/data/iter.rs:106-124, which drops errors;
its count of items is left to the program),
moving the reader, asking for its position and returning to a position, as `read_value` and the iterators over tables do. -/
inductive RawCall where
  | hdu
  | read (n : Nat)
  | pixel (n : Nat)
  | move (off : Int)
  | tell
  | goto (pos : Nat)
  deriving DecidableEq, Repr

/-- What such a call gives. -/
inductive RawOut where
  | hdu (r : Option (Res HDU))
  | bytes (r : Res (List UInt8))
  | pixel (v : Option (List UInt8))
  | moved (r : Res Unit)
  | told (pos : Nat)
  deriving DecidableEq, Repr

/-- The call gave an HDU, the bytes, or moved. -/
def RawOut.good : RawOut → Bool
  | hdu (some (.ok _)) => true
  | bytes (.ok _) => true
  | pixel (some _) => true
  | moved (.ok _) => true
  | told _ => true
  | _ => false

/-- `Result::ok`, on the bytes of a value. -/
def valueOf : Res (List UInt8) → RawOut
  | .ok bs => .pixel (some bs)
  | .err _ => .pixel none
  | .panic => .bytes .panic

/-- One call, on the readers of Model/Basic.lean. -/
def Fits.raw (p : Profile) (f : Fits) : RawCall → RawOut × Fits
  | .hdu => (.hdu (f.next p).1, (f.next p).2)
  | .read n => (.bytes (f.rd.readExact n).1, { f with rd := (f.rd.readExact n).2 })
  | .pixel n => (valueOf (f.rd.readExact n).1, { f with rd := (f.rd.readExact n).2 })
  | .move off => (.moved (f.rd.seekRelative off).1, { f with rd := (f.rd.seekRelative off).2 })
  | .tell => (.told f.rd.pos, f)
  | .goto pos => (.moved (.ok ()), { f with rd := f.rd.seekStart pos })

/-- One call, on any reader. -/
def Input.raw {σ : Type} (S : Input σ) (p : Profile) (f : Input.File σ) : RawCall → RawOut × Input.File σ
  | .hdu => (.hdu (S.next p f).1, (S.next p f).2)
  | .read n => (.bytes (S.readExact n f.rd).1, { f with rd := (S.readExact n f.rd).2 })
  | .pixel n => (valueOf (S.readExact n f.rd).1, { f with rd := (S.readExact n f.rd).2 })
  | .move off => (.moved (S.seekRelative off f.rd).1, { f with rd := (S.seekRelative off f.rd).2 })
  | .tell => (.told (S.tell f.rd).1, { f with rd := (S.tell f.rd).2 })
  | .goto pos => (.moved (S.seekStart pos f.rd).1, { f with rd := (S.seekStart pos f.rd).2 })

/-- The results of a program, up to and including the first call that does not succeed. -/
def Fits.rawRun (p : Profile) : List RawCall → Fits → List RawOut
  | [], _ => []
  | c :: cs, f =>
    if (f.raw p c).1.good then (f.raw p c).1 :: rawRun p cs (f.raw p c).2 else [(f.raw p c).1]

/-- The same on any reader. -/
def Input.rawRun {σ : Type} (S : Input σ) (p : Profile) : List RawCall → Input.File σ → List RawOut
  | [], _ => []
  | c :: cs, f =>
    if (S.raw p f c).1.good then (S.raw p f c).1 :: S.rawRun p cs (S.raw p f c).2 else [(S.raw p f c).1]

/-- A program that decides on each call after it has seen the results of the calls before (`none`: it ends).  The iterators
over pixels, tables and tiles are such programs. -/
abbrev Client := List RawOut → Option RawCall

/-- The results of the first `n` calls of a program that has already seen some results, up to and including the first call that
does not succeed. -/
def Fits.clientRun (p : Profile) (prog : Client) : Nat → List RawOut → Fits → List RawOut
  | 0, _, _ => []
  | n + 1, seen, f =>
    match prog seen with
    | none => []
    | some c =>
      if (f.raw p c).1.good then (f.raw p c).1 :: clientRun p prog n (seen ++ [(f.raw p c).1]) (f.raw p c).2
      else [(f.raw p c).1]

/-- The same on any reader. -/
def Input.clientRun {σ : Type} (S : Input σ) (p : Profile) (prog : Client) : Nat → List RawOut → Input.File σ → List RawOut
  | 0, _, _ => []
  | n + 1, seen, f =>
    match prog seen with
    | none => []
    | some c =>
      if (S.raw p f c).1.good then (S.raw p f c).1 :: S.clientRun p prog n (seen ++ [(S.raw p f c).1]) (S.raw p f c).2
      else [(S.raw p f c).1]

/-! ### `Cursor` -/

/-- `Cursor` as of Rust 1.80 and later: after a read that failed the position is the end of the data. -/
def cursorInput : Input Reader where
  readExact n r := match r.readExact n with
    | (.ok bs, r') => (.ok bs, r')
    | (x, _) => (x, { r with pos := r.data.length })
  seekRelative off r := r.seekRelative off
  seekCurrent off r := r.seekRelative off
  seekStart pos r := (.ok (), r.seekStart pos)
  tell r := (r.pos, r)
  size r := r.data.length

/-- `Cursor` in older versions: a read that failed does not move. -/
def oldCursorInput : Input Reader where
  readExact n r := match r.readExact n with
    | (.ok bs, r') => (.ok bs, r')
    | (x, _) => (x, r)
  seekRelative off r := r.seekRelative off
  seekCurrent off r := r.seekRelative off
  seekStart pos r := (.ok (), r.seekStart pos)
  tell r := (r.pos, r)
  size r := r.data.length

/-! ### `BufReader` on a file -/

/-- What a read of a file does: it is interrupted by a signal, it fails, or it delivers at most `k + 1` bytes. -/
inductive ReadEvent where
  | interrupted
  | fails
  | short (k : Nat)
  deriving DecidableEq, Repr

/-- A file, and what its next reads will do.  When the list is used up all the bytes asked for are delivered. -/
structure SlowFile where
  data : List UInt8
  pos : Nat
  plan : List ReadEvent
  deriving DecidableEq, Repr

/-- The outcome of a read. -/
inductive ReadOut where
  | interrupted
  | failed
  | bytes (bs : List UInt8)
  deriving DecidableEq, Repr

/-- `read(2)`. -/
def SlowFile.read (n : Nat) (f : SlowFile) : ReadOut × SlowFile :=
  match f.plan with
  | .interrupted :: plan => (.interrupted, { f with plan })
  | .fails :: plan => (.failed, { f with plan })
  | .short k :: plan =>
    (.bytes ((f.data.drop f.pos).take (min n (k + 1))),
      { f with plan, pos := f.pos + ((f.data.drop f.pos).take (min n (k + 1))).length })
  | [] => (.bytes ((f.data.drop f.pos).take n), { f with pos := f.pos + ((f.data.drop f.pos).take n).length })

/-- `lseek(2)` relative to the position: negative results and results of 2^63 or more are refused. -/
def SlowFile.seek (off : Int) (f : SlowFile) : Res Unit × SlowFile :=
  if 0 ≤ (f.pos : Int) + off ∧ (f.pos : Int) + off < 2 ^ 63 then (.ok (), { f with pos := ((f.pos : Int) + off).toNat })
  else (.err (.io .invalidInput), f)

/-- `lseek(2)` to a position: 2^63 and more are refused. -/
def SlowFile.seekStart (pos : Nat) (f : SlowFile) : Res Unit × SlowFile :=
  if pos < 2 ^ 63 then (.ok (), { f with pos }) else (.err (.io .invalidInput), f)

/-- `std::io::BufReader`: the bytes in the buffer, and how many of them have been consumed. -/
structure BufReader where
  file : SlowFile
  cap : Nat
  buf : List UInt8
  bpos : Nat
  deriving DecidableEq, Repr

namespace BufReader

/-- `BufReader::new`. -/
def new (cap : Nat) (file : SlowFile) : BufReader := { file, cap, buf := [], bpos := 0 }

/-- `BufReader::fill_buf`: what went wrong, if anything. -/
def fillBuf (b : BufReader) : Option ReadOut × BufReader :=
  if b.bpos = b.buf.length then
    match b.file.read b.cap with
    | (.bytes bs, file) => (none, { b with file, buf := bs, bpos := 0 })
    | (r, file) => (some r, { b with file, buf := [], bpos := 0 })
  else (none, b)

/-- `Read::read`. -/
def read (n : Nat) (b : BufReader) : ReadOut × BufReader :=
  if b.bpos = b.buf.length ∧ b.cap ≤ n then
    match b.file.read n with
    | (r, file) => (r, { b with file, buf := [], bpos := 0 })
  else
    match b.fillBuf with
    | (none, b) =>
      (.bytes ((b.buf.drop b.bpos).take n), { b with bpos := b.bpos + ((b.buf.drop b.bpos).take n).length })
    | (some r, b) => (r, b)

/-- `std::io::default_read_exact`: reads until the bytes are there, or a read delivers nothing or fails.  Interrupted reads are
tried again.  (`InvalidInput` stands for the kinds of errors of failed reads.) -/
def readLoop : (fuel : Nat) → Nat → BufReader → Res (List UInt8) × BufReader
  | 0, _, b => (.panic, b)
  | fuel + 1, n, b =>
    if n = 0 then (.ok [], b)
    else
      match b.read n with
      | (.interrupted, b) => readLoop fuel n b
      | (.failed, b) => (.err (.io .invalidInput), b)
      | (.bytes bs, b) =>
        if bs.length = 0 then (.err (.io .unexpectedEof), b)
        else ((readLoop fuel (n - bs.length) b).1.map (bs ++ ·), (readLoop fuel (n - bs.length) b).2)

/-- `BufReader::read_exact`: from the buffer if it holds enough. -/
def readExact (n : Nat) (b : BufReader) : Res (List UInt8) × BufReader :=
  if n ≤ b.buf.length - b.bpos then (.ok ((b.buf.drop b.bpos).take n), { b with bpos := b.bpos + n })
  else readLoop (n + b.file.plan.length + 1) n b

/-- `Seek::seek(SeekFrom::Current(off))`. -/
def seek (off : Int) (b : BufReader) : Res Unit × BufReader :=
  if -(2 : Int) ^ 63 ≤ off - ((b.buf.length : Int) - b.bpos) then
    match b.file.seek (off - ((b.buf.length : Int) - b.bpos)) with
    | (.ok _, file) => (.ok (), { b with file, buf := [], bpos := 0 })
    | (r, file) => (r, { b with file })
  else
    match b.file.seek (-((b.buf.length : Int) - b.bpos)) with
    | (.ok _, file) =>
      match file.seek off with
      | (r, file) => (r, { b with file, buf := [], bpos := 0 })
    | (r, file) => (r, { b with file })

/-- `Seek::seek(SeekFrom::Start(pos))`. -/
def seekStart (pos : Nat) (b : BufReader) : Res Unit × BufReader :=
  match b.file.seekStart pos with
  | (.ok _, file) => (.ok (), { b with file, buf := [], bpos := 0 })
  | (r, file) => (r, { b with file })

/-- `BufReader::seek_relative`: within the buffer if possible. -/
def seekRelative (off : Int) (b : BufReader) : Res Unit × BufReader :=
  if off < 0 then
    if (-off).toNat ≤ b.bpos then (.ok (), { b with bpos := b.bpos - (-off).toNat }) else b.seek off
  else if b.bpos + off.toNat ≤ b.buf.length then (.ok (), { b with bpos := b.bpos + off.toNat })
  else b.seek off

/-- `BufReader::stream_position`. -/
def streamPosition (b : BufReader) : Nat := b.file.pos - (b.buf.length - b.bpos)

end BufReader

/-- A `BufReader` on a file, as a reader. -/
def bufInput : Input BufReader where
  readExact n b := b.readExact n
  seekRelative off b := b.seekRelative off
  seekCurrent off b := b.seek off
  seekStart pos b := b.seekStart pos
  tell b := (b.streamPosition, b)
  size b := b.file.data.length

/-- The same inside a `GzReader` (src/gz.rs:18-44), for a file that is not compressed: `read` and `seek` are passed on, the
other methods are the provided ones, so that `stream_position` is a seek, which empties the buffer. -/
def gzInput : Input BufReader where
  readExact n b := BufReader.readLoop (n + b.file.plan.length + 1) n b
  seekRelative off b := b.seek off
  seekCurrent off b := b.seek off
  seekStart pos b := b.seekStart pos
  tell b := (b.streamPosition, (b.seek 0).2)
  size b := b.file.data.length

end Fitsrs

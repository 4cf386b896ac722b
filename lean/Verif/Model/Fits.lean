import Verif.Model.Extension
/-
Model of src/hdu/mod.rs and src/fits.rs: reading the records of a header, recognising the kind of
HDU, and walking the HDUs of a file.
-/

namespace Fitsrs

/-- One iteration of the loop of `consume_cards` on the 80 bytes of a record
(src/hdu/mod.rs:63-73): an unreadable record is kept as an undefined card. -/
def recordCard (buf : List UInt8) : Res Card :=
  match Card.tryFrom buf with
  | .ok c => .ok c
  | .err _ => .ok (.undefined (utf8Lossy buf))
  | .panic => .panic

/-- State threaded through the reading of a header: the reader and `num_bytes_read`. -/
structure HState where
  rd : Reader
  nread : Nat
  deriving DecidableEq, Repr

/-- `consume_next_card` (src/hdu/header/mod.rs:25-34). -/
def consumeNextCard (s : HState) : Res (List UInt8) × HState :=
  match s.rd.readExact 80 with
  | (.ok buf, rd) => (.ok buf, { rd, nread := s.nread + 80 })
  | (.err e, rd) => (.err e, { s with rd })
  | (.panic, rd) => (.panic, { s with rd })

/-- `consume_cards` (src/hdu/mod.rs:48-77).  `fuel` bounds the number of records; every iteration reads
80 bytes, so `data.length + 1` is more than enough (`Lemmas/Fits.lean`). -/
def consumeCardsN : (fuel : Nat) → HState → Res (List Card) × HState
  | 0, s => (.panic, s)
  | fuel + 1, s =>
    match consumeNextCard s with
    | (.ok buf, s) =>
      match recordCard buf with
      | .ok c =>
        if c = .end_ then (.ok [c], s)
        else
          let (r, s) := consumeCardsN fuel s
          (r.map (c :: ·), s)
      | .err e => (.err e, s)
      | .panic => (.panic, s)
    | (.err e, s) => (.err e, s)
    | (.panic, s) => (.panic, s)

/-- `consume_cards` with enough fuel. -/
def consumeCards (s : HState) : Res (List Card) × HState :=
  consumeCardsN (s.rd.data.length + 1) s

/-- `fits::HDU<X>` (src/fits.rs:164-173). -/
structure Hdu (X : Type) where
  header : Header X
  dataOffset : Nat
  deriving DecidableEq, Repr

/-- `fits::HDU::new` (src/fits.rs:179-211). -/
def Hdu.new {X : Type} (parse : ValueMap → Res X) (cards : List Card) (s : HState) :
    Res (Hdu X) × HState :=
  match Header.parse parse cards with
  | .ok header =>
    if s.nread % 2880 ≠ 0 then
      let off := 2880 - s.nread % 2880
      match s.rd.readExact off with
      | (.ok _, rd) => (.ok { header, dataOffset := rd.pos }, { rd, nread := s.nread + off })
      | (.err _, rd) => (.err (.static "EOF reached"), { s with rd })
      | (.panic, rd) => (.panic, { s with rd })
    else (.ok { header, dataOffset := s.rd.pos }, s)
  | .err e => (.err e, s)
  | .panic => (.panic, s)

/-- `hdu::HDU` (src/hdu/mod.rs:34-45). -/
inductive HDU where
  | primary (h : Hdu Image)
  | image (h : Hdu Image)
  | binTable (h : Hdu BinTable)
  | asciiTable (h : Hdu AsciiTable)
  deriving DecidableEq, Repr

namespace HDU

/-- `HDU::get_data_unit_byte_offset` (src/hdu/mod.rs:188-194). -/
def dataOffset : HDU → Nat
  | primary h | image h => h.dataOffset
  | binTable h => h.dataOffset
  | asciiTable h => h.dataOffset

/-- `HDU::get_data_unit_byte_size` (src/hdu/mod.rs:195-201). -/
def dataSize (p : Profile) : HDU → Res Nat
  | primary h | image h => h.header.xtension.numBytes p
  | binTable h => h.header.xtension.numBytes p
  | asciiTable h => h.header.xtension.numBytes p

/-- The cards of the header. -/
def cards : HDU → List Card
  | primary h | image h => h.header.cards
  | binTable h => h.header.cards
  | asciiTable h => h.header.cards

/-- The keyword map of the header. -/
def values : HDU → ValueMap
  | primary h | image h => h.header.values
  | binTable h => h.header.values
  | asciiTable h => h.header.values

end HDU

/-- Apply a constructor to the value of an outcome. -/
def wrap {X : Type} (f : Hdu X → HDU) (r : Res (Hdu X) × HState) : Res HDU × HState :=
  (r.1.map f, r.2)

/-- The dispatch on the first card of `HDU::new_xtension` (src/hdu/mod.rs:124-152). -/
def xtensionOf (p : Profile) (cards : List Card) (s : HState) : Res HDU × HState :=
  match cards with
  | .xtension .image _ :: _ => wrap .image (Hdu.new Image.parse cards s)
  | .xtension .binTable _ :: _ => wrap .binTable (Hdu.new (BinTable.parse p) cards s)
  | .xtension .asciiTable _ :: _ => wrap .asciiTable (Hdu.new AsciiTable.parse cards s)
  | _ :: _ => (.err (.static "XTENSION card has not been found in the header"), s)
  | [] => (.panic, s)

/-- `HDU::new_xtension` (src/hdu/mod.rs:114-153). -/
def HDU.newXtension (p : Profile) (s : HState) : Res HDU × HState :=
  match consumeCards s with
  | (.ok cards, s) => xtensionOf p cards s
  | (.err e, s) => (.err e, s)
  | (.panic, s) => (.panic, s)

/-- The test of the first card in `HDU::new_primary` (src/hdu/mod.rs:164-185). -/
def primaryOf (cards : List Card) (s : HState) : Res HDU × HState :=
  match cards with
  | .value name (.logical true _) :: _ =>
    if name = "SIMPLE".toList then wrap .primary (Hdu.new Image.parse cards s)
    else (.err .dynamic, s)
  | _ :: _ => (.err (.static "not a FITSv4 file"), s)
  | [] => (.panic, s)

/-- `HDU::new_primary` (src/hdu/mod.rs:155-186). -/
def HDU.newPrimary (rd : Reader) : Res HDU × HState :=
  match consumeCards { rd, nread := 0 } with
  | (.ok cards, s) => primaryOf cards s
  | (.err e, s) => (.err e, s)
  | (.panic, s) => (.panic, s)

/-- `Fits<R>` (src/fits.rs:12-24). -/
structure Fits where
  start : Bool
  posStart : Nat
  numBytes : Nat
  errored : Bool
  rd : Reader
  deriving DecidableEq, Repr

namespace Fits

/-- `Fits::from_reader` (src/fits.rs:41-49). -/
def fromReader (rd : Reader) : Fits :=
  { start := true, posStart := 0, numBytes := 0, errored := false, rd }

/-- Number of bytes to skip in `consume_until_next_hdu` (src/fits.rs:66-75). -/
def skipBytes (p : Profile) (f : Fits) : Res Nat := do
  let d ← usub p f.rd.pos f.posStart
  let n ← usub p f.numBytes d
  if f.numBytes % 2880 = 0 then .ok n else uadd p n (2880 - f.numBytes % 2880)

/-- `consume_until_next_hdu` (src/fits.rs:61-78). -/
def consumeUntilNextHdu (p : Profile) (f : Fits) : Res Unit × Reader :=
  match f.skipBytes p with
  | .ok n => f.rd.seekRelative (asI64 n)
  | .err e => (.err e, f.rd)
  | .panic => (.panic, f.rd)

/-- The end of `next` (src/fits.rs:141-158): record the extent of the data unit, or the error.
`none`: end of the iteration; `some .panic`: the call panics. -/
def record (p : Profile) (n : Option (Res HDU)) (f : Fits) : Option (Res HDU) × Fits :=
  match n with
  | some (.ok h) =>
    match h.dataSize p with
    | .ok sz => (some (.ok h), { f with numBytes := sz, posStart := h.dataOffset })
    | .err e => (some (.err e), f)
    | .panic => (some .panic, f)
  | some (.err e) => (some (.err e), { f with errored := true })
  | some .panic => (some .panic, f)
  | none => (none, f)

/-- `Iterator::next` for `Fits` (src/fits.rs:113-161). -/
def next (p : Profile) (f : Fits) : Option (Res HDU) × Fits :=
  if f.errored then (none, f)
  else if f.start then
    let (r, s) := HDU.newPrimary f.rd
    record p (some r) { f with start := false, rd := s.rd }
  else
    match f.consumeUntilNextHdu p with
    | (.ok _, rd) =>
      let (r, s) := HDU.newXtension p { rd, nread := 0 }
      let n : Option (Res HDU) := match r with
        | .err (.io .unexpectedEof) => if s.nread = 0 then none else some r
        | _ => some r
      record p n { f with start := false, rd := s.rd }
    | (.err e, rd) => record p (some (.err e)) { f with start := false, rd }
    | (.panic, rd) => record p (some .panic) { f with start := false, rd }

/-- Collecting the iterator: the items returned by at most `n` successive calls of `next`, stopping
after `None` or a panic. -/
def collect (p : Profile) : Nat → Fits → List (Res HDU)
  | 0, _ => []
  | n + 1, f =>
    match f.next p with
    | (none, _) => []
    | (some .panic, _) => [.panic]
    | (some r, f') => r :: collect p n f'

end Fits

end Fitsrs

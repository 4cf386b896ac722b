import Verif.Model.Tile
/-
Model of the way a program uses a file: it asks for HDUs, opens their data with `get_data`, and calls the methods of what it
has opened, in any order.  What is opened borrows the reader of the HDU iterator until it is dropped.
-/

namespace Fitsrs

/-- `BufReader<Take<&mut R>>` (src/hdu/data/asciitable.rs:18-23, src/hdu/data/bintable/data.rs:183-193), read byte by
byte (`Read::bytes`): the reader, what `Take` still allows, and the bytes of the buffer that are not consumed yet. -/
structure ByteStream where
  rd : Reader
  limit : Nat
  buf : List UInt8
  deriving DecidableEq, Repr

namespace ByteStream

/-- `BufReader::new(reader.take(limit))`. -/
def new (rd : Reader) (limit : Nat) : ByteStream := { rd, limit, buf := [] }

/-- The bytes delivered when the buffer is empty: at most its capacity, and at most what `Take` allows.  A reader in
memory delivers all that is asked for, up to its end. -/
def fill (s : ByteStream) : List UInt8 := (s.rd.data.drop s.rd.pos).take (min 8192 s.limit)

/-- `Iterator::next` for `Bytes`. -/
def next (s : ByteStream) : Option UInt8 × ByteStream :=
  match s.buf with
  | b :: bs => (some b, { s with buf := bs })
  | [] =>
    match s.fill with
    | [] => (none, s)
    | b :: bs =>
      (some b, { rd := { s.rd with pos := s.rd.pos + (bs.length + 1) }, limit := s.limit - (bs.length + 1), buf := bs })

end ByteStream

/-- `FitsRead<AsciiTable>::read_data_unit` (src/hdu/data/asciitable.rs:20-24). -/
def Fits.openAscii (p : Profile) (f : Fits) (h : Hdu AsciiTable) : Res ByteStream := do
  let limit ← h.header.xtension.numBytes p
  .ok (ByteStream.new f.rd limit)

/-- `TableData::bytes` (src/hdu/data/bintable/data.rs:188-192). -/
def TableData.bytes (t : TableData) : ByteStream := ByteStream.new t.rd t.mainSize

/-- What `get_data` gives, and what can be made of it: pixels, bytes, a table, its rows, or the pixels of a compressed
image. -/
inductive OpenUnit where
  | image (d : ImageData)
  | bytes (s : ByteStream)
  | table (t : TableData)
  | rows (r : TableRows)
  | tiles (it : TileIt)
  deriving DecidableEq, Repr

/-- The reader that is borrowed. -/
def OpenUnit.rd : OpenUnit → Reader
  | image d => d.pixels.rd
  | bytes s => s.rd
  | table t => t.rd
  | rows r => r.data.rd
  | tiles it => it.rows.data.rd

/-- `Fits::get_data` (src/fits.rs:96-105), with `BinaryTableData::new` (src/hdu/data/bintable/data.rs:54-67). -/
def Fits.getData (p : Profile) (f : Fits) : HDU → Res OpenUnit
  | .primary h | .image h => (f.getImage p h).map .image
  | .asciiTable h => (f.openAscii p h).map .bytes
  | .binTable h =>
    match h.header.xtension.zImage with
    | some z => (f.getTiles p h z).map .tiles
    | none => (f.getTable p h).map .table

/-- The calls of a program. -/
inductive Call where
  /-- `Iterator::next` on the HDU iterator; what was opened is dropped. -/
  | hdu
  /-- `get_data` on an HDU returned before (0 is the last one); what was opened is dropped. -/
  | getData (k : Nat)
  /-- `Iterator::next` on what is opened. -/
  | next
  /-- `It::read_value` on pixels. -/
  | readValue (i : Nat)
  /-- `TableData::seek_to_row`. -/
  | seekRow (r : Nat)
  /-- `TableData::select_fields`. -/
  | select (cs : List TableData.ColumnId)
  /-- `row_iter`. -/
  | rowIter
  /-- `table_data`. -/
  | tableData
  /-- `TableData::bytes`. -/
  | bytes
  /-- `raw_bytes`. -/
  | rawBytes

/-- What is seen by the program. -/
inductive Seen where
  | hdu (h : Option HDU)
  | pixel (v : Option Pixel)
  | byte (b : Option UInt8)
  | value (v : Option DataValue)
  | row (vs : Option (List DataValue))
  | tilePixel (v : Option TilePixel)
  | raw (bs : List UInt8)
  | unit
  /-- The call does not exist on what is opened: the program is not well typed. -/
  | illTyped
  deriving DecidableEq, Repr

/-- A program in progress: the HDU iterator, the HDUs returned (the last one first), and what is opened. -/
structure Session where
  fits : Fits
  hdus : List HDU
  opened : Option OpenUnit
  deriving DecidableEq, Repr

namespace Session

/-- The program has just made the iterator. -/
def new (rd : Reader) : Session := { fits := Fits.fromReader rd, hdus := [], opened := none }

/-- The borrow of the reader ends. -/
def close (s : Session) : Session :=
  match s.opened with
  | none => s
  | some o => { s with fits := { s.fits with rd := o.rd }, opened := none }

/-- The next HDU. -/
def nextHdu (p : Profile) (s : Session) : Res Seen × Session :=
  match s.fits.next p with
  | (none, f) => (.ok (.hdu none), { s with fits := f })
  | (some (.ok h), f) => (.ok (.hdu (some h)), { s with fits := f, hdus := h :: s.hdus })
  | (some (.err e), f) => (.err e, { s with fits := f })
  | (some .panic, f) => (.panic, { s with fits := f })

/-- `get_data`. -/
def openData (p : Profile) (k : Nat) (s : Session) : Res Seen × Session :=
  match s.hdus[k]? with
  | none => (.ok .illTyped, s)
  | some h =>
    match s.fits.getData p h with
    | .ok o => (.ok .unit, { s with opened := some o })
    | .err e => (.err e, s)
    | .panic => (.panic, s)

/-- The new state of what is opened. -/
def put (s : Session) (o : OpenUnit) : Session := { s with opened := some o }

/-- `Iterator::next` on what is opened.  `gz` is the GZIP decoder; `none`: a loop has not finished with the fuel given. -/
def nextItem (p : Profile) (gz : Gunzip) (fuel : Nat) (o : OpenUnit) :
    Option (Res Seen × OpenUnit) :=
  match o with
  | .image d => some (.ok (.pixel d.pixels.next.1), .image { d with pixels := d.pixels.next.2 })
  | .bytes b => some (.ok (.byte b.next.1), .bytes b.next.2)
  | .table t => some ((t.next p).1.map .value, .table (t.next p).2)
  | .rows r => (r.next p fuel).map fun x => (x.1.map .row, .rows x.2)
  | .tiles it => (it.next p gz fuel).map fun x => (x.1.map .tilePixel, .tiles x.2)

/-- The other calls on what is opened; `none` as a second component: it is consumed. -/
def onOpened (p : Profile) (c : Call) (o : OpenUnit) : Res Seen × Option OpenUnit :=
  match c, o with
  | .readValue i, .image d =>
    ((d.pixels.readValue p i).1.map (.pixel ∘ some), some (.image { d with pixels := (d.pixels.readValue p i).2 }))
  | .rawBytes, .image d => ((d.rawBytes p).map .raw, none)
  | .rawBytes, .table t => ((t.rawBytes p).map .raw, some (.table t))
  | .seekRow r, .table t => ((t.seekToRow p r).1.map fun _ => .unit, some (.table (t.seekToRow p r).2))
  | .select cs, .table t => (.ok .unit, some (.table (t.selectFields cs)))
  | .rowIter, .table t => (.ok .unit, some (.rows (TableRows.new t)))
  | .rowIter, .tiles it => (.ok .unit, some (.rows it.rows))
  | .tableData, .rows r => (.ok .unit, some (.table r.data))
  | .tableData, .tiles it => (.ok .unit, some (.table it.rows.data))
  | .bytes, .table t => (.ok .unit, some (.bytes t.bytes))
  | _, o => (.ok .illTyped, some o)

/-- A call on what is opened. -/
def useOpened (p : Profile) (gz : Gunzip) (fuel : Nat) (c : Call) (o : OpenUnit) (s : Session) :
    Option (Res Seen × Session) :=
  match c with
  | .next => (nextItem p gz fuel o).map fun x => (x.1, s.put x.2)
  | c =>
    match onOpened p c o with
    | (r, some o) => some (r, s.put o)
    | (r, none) => some (r, s.close)

/-- A call. -/
def call (p : Profile) (gz : Gunzip) (fuel : Nat) (c : Call) (s : Session) :
    Option (Res Seen × Session) :=
  match c with
  | .hdu => some (s.close.nextHdu p)
  | .getData k => some (s.close.openData p k)
  | c =>
    match s.opened with
    | none => some (.ok .illTyped, s)
    | some o => s.useOpened p gz fuel c o

/-- What a program sees; it ends after a panic, or if a loop has not finished with the fuel given. -/
def run (p : Profile) (gz : Gunzip) (fuel : Nat) : List Call → Session → List (Option (Res Seen))
  | [], _ => []
  | c :: cs, s =>
    match s.call p gz fuel c with
    | none => [none]
    | some (.panic, _) => [some .panic]
    | some (r, s) => some r :: run p gz fuel cs s

end Session

end Fitsrs

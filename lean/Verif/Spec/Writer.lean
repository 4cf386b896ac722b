import Verif.Props.C17_C21
import Verif.Props.C25_C28
import Verif.Spec.Table
import Verif.Spec.Tile
import Verif.Spec.Session
/-
How a FITS file is written: the lines of the headers, with their layout, and the data units.  What a reader should
see of it.  Independent of the way files are read; the types of cards and values are taken from the model.
-/

namespace Fitsrs.Spec

/-! ### Header lines -/

/-- A value as it is written. -/
inductive Written where
  | str (s : Str)
  | int (sign : Option Bool) (zeros n : Nat)
  | real (x : Numeral)
  | bool (b : Bool)
  | nothing

namespace Written

/-- The text of the value. -/
def text : Written → Str
  | str s => quoted s
  | int sign zeros n => intText sign zeros n
  | real x => x.text
  | bool b => [if b then 'T' else 'F']
  | nothing => []

/-- A value that can be written: printable text, integer of 64 bits, real number with a point or an exponent. -/
def Legal : Written → Prop
  | str s => Printable s
  | int sign _ n => -(2 ^ 63) ≤ signed sign n ∧ signed sign n < 2 ^ 63
  | real x => x.Legal ['E', 'D'] ∧ (x.frac ≠ none ∨ x.exp ≠ none)
  | bool _ => True
  | nothing => True

/-- The value that is meant, with its comment. -/
def value (c : Option Str) : Written → Value
  | str s => .string (fitsString s) (commentOf c)
  | int sign _ n => .integer (signed sign n) (commentOf c)
  | real x => .float x.value (commentOf c)
  | bool b => .logical b (commentOf c)
  | nothing => .undefined

end Written

/-- A line of a header, with its layout.  A long string takes several records. -/
inductive Line where
  | value (kw : Str) (w : Written) (lead pad : Nat) (comment : Option Str)
  | long (kw first : Str) (lead pad : Nat) (comment : Option Str) (rest : List Piece)
  | hierarch (name : List (Nat × Str)) (sep : Nat) (w : Written) (lead pad : Nat) (comment : Option Str)
  | comment (text : List UInt8)
  | history (text : List UInt8)
  | blank (text : List UInt8)

namespace Line

/-- The records of the line. -/
def records : Line → List (List UInt8)
  | value kw w lead pad c => [valueRecord kw (field lead w.text pad c)]
  | long kw first lead pad c rest => longRecords kw first lead pad c rest
  | hierarch name sep w lead pad c => [hierarchRecord name sep (field lead w.text pad c)]
  | comment text => [commentaryRecord "COMMENT".toList text]
  | history text => [commentaryRecord "HISTORY".toList text]
  | blank text => [commentaryRecord [] text]

/-- The comment is printable. -/
def CommentOk (c : Option Str) : Prop := ∀ t, c = some t → Printable t

/-- A line that can be written: its records have 80 bytes, its parts are legal. -/
def Legal (l : Line) : Prop :=
  (∀ r ∈ l.records, r.length = 80) ∧
  match l with
  | value kw w _ _ c => Name kw ∧ w.Legal ∧ CommentOk c
  | long kw first _ _ c rest => Name kw ∧ Printable first ∧ CommentOk c ∧ PiecesOk rest ∧ rest ≠ [] ∧
      (stripEnd (first ++ pieces rest)).getLast? ≠ some '&'
  | hierarch name _ w _ _ c => Tokens name ∧ w.Legal ∧ CommentOk c
  | comment _ => True
  | history _ => True
  | blank _ => True

/-- The cards that stand for the line. -/
def cards : Line → List Card
  | value kw w _ _ c => [.value kw (w.value c)]
  | long kw first _ _ c rest => .value kw (.string (first ++ ['&']) (commentOf c)) :: continueCards rest
  | hierarch name _ w _ _ c => [.hierarch (dotted (name.map (·.2))) (w.value c)]
  | comment text => [.comment (commentaryText text)]
  | history text => [.history (commentaryText text)]
  | blank text => [if commentaryText text = [] then .space else .comment (commentaryText text)]

/-- The keyword and the value that the line gives. -/
def entry : Line → Option (Str × Value)
  | value kw w _ _ c => some (kw, w.value c)
  | long kw first _ _ c rest =>
    some (kw, .string (stripEnd (first ++ pieces rest)) (joinedComments (commentOf c) rest))
  | hierarch name _ w _ _ c => some (dotted (name.map (·.2)), w.value c)
  | comment _ => none
  | history _ => none
  | blank _ => none

end Line

/-- The first line of a header. -/
inductive FirstLine where
  | simple (lead pad : Nat) (comment : Option Str)
  | xtension (x : XtensionType) (inner lead pad : Nat) (comment : Option Str)

namespace FirstLine

/-- The record of the first line. -/
def record : FirstLine → List UInt8
  | simple lead pad c => valueRecord "SIMPLE".toList (field lead ['T'] pad c)
  | xtension x inner lead pad c => xtensionRecord (xtensionName x) inner lead pad c

/-- A first line that can be written. -/
def Legal (l : FirstLine) : Prop :=
  l.record.length = 80 ∧
  match l with
  | simple _ _ c => Line.CommentOk c
  | xtension _ _ _ _ c => Line.CommentOk c

/-- Its card. -/
def card : FirstLine → Card
  | simple _ _ c => .value "SIMPLE".toList (.logical true (commentOf c))
  | xtension x _ _ _ c => .xtension x (commentOf c)

/-- The keyword and the value that it gives. -/
def entry : FirstLine → Str × Value
  | simple _ _ c => ("SIMPLE".toList, .logical true (commentOf c))
  | xtension x _ _ _ _ => ("XTENSION".toList, .string (xtensionName x) none)

end FirstLine

/-- A header as written, without its `END` record. -/
structure Heading where
  first : FirstLine
  lines : List Line

namespace Heading

/-- The last record of a header. -/
def endRecord : List UInt8 := toBytes ("END".toList ++ blank 77)

/-- The records of the header. -/
def records (h : Heading) : List (List UInt8) := h.first.record :: h.lines.flatMap Line.records ++ [endRecord]

/-- A header that can be written. -/
def Legal (h : Heading) : Prop := h.first.Legal ∧ ∀ l ∈ h.lines, l.Legal

/-- The cards of the header. -/
def cards (h : Heading) : List Card := h.first.card :: h.lines.flatMap Line.cards ++ [.end_]

/-- The value of a keyword: that of the last line that gives one. -/
def lookup (h : Heading) (kw : Str) : Option Value := lastValue (h.first.entry :: h.lines.filterMap Line.entry) kw

/-- The header gives this integer to the keyword. -/
def Says (h : Heading) (kw : Str) (n : Int) : Prop := ∃ c, h.lookup kw = some (.integer n c)

/-- The header gives this text to the keyword. -/
def SaysText (h : Heading) (kw s : Str) : Prop := ∃ c, h.lookup kw = some (.string s c)

/-- The names of the first `n` columns. -/
def names (h : Heading) (n : Nat) : List (Option Str) :=
  (List.range n).map fun i => match h.lookup (kwN "TTYPE" (i + 1)) with | some (.string s _) => some s | _ => none

end Heading

/-! ### Data units -/

/-- A column of a binary table: values with a repeat count, or arrays of any length (with descriptors of 32 or 64 bits). -/
inductive WrittenColumn where
  | plain (ty : ElemTy) (rep : Nat)
  | array (wide : Bool) (ty : ElemTy)

/-- What is written in a column of a row: values, or an array that is found at some offset in the heap. -/
inductive WrittenField where
  | values (vs : List Cell)
  | array (wide : Bool) (offset : Nat) (vs : List Cell)

namespace WrittenColumn

/-- The format of the column. -/
def form : WrittenColumn → TForm
  | plain ty rep => .plain ty rep
  | array false ty => .P ty
  | array true ty => .Q ty

/-- A text of `TFORM` for the column.  Arrays of bits are left out. -/
def Text (s : Str) : WrittenColumn → Prop
  | plain ty rep => ∃ ds c rest, s = ds ++ c :: rest ∧ Digits ds ∧ (c, ty) ∈ letters ∧ natOf ds < 2 ^ 64 ∧ rep = countOf ds
  | array wide ty => ty ≠ .X ∧
    ∃ ds c rest, s = ds ++ (if wide then 'Q' else 'P') :: c :: rest ∧ Digits ds ∧ (c, ty) ∈ letters

end WrittenColumn

namespace WrittenField

/-- The values. -/
def cells : WrittenField → List Cell
  | values vs => vs
  | array _ _ vs => vs

/-- The size of the two numbers of a descriptor. -/
def half (wide : Bool) : Nat := if wide then 8 else 4

/-- The bytes in the row: the values, or the number of elements of the array and its place in the heap. -/
def bytes : WrittenField → List UInt8
  | values vs => vs.flatMap cellBytes
  | array wide offset vs => bigEndian (half wide) vs.length ++ bigEndian (half wide) offset

/-- The field has the format of the column, and the heap holds its array. -/
def Ok (heap : List UInt8) : WrittenColumn → WrittenField → Prop
  | .plain ty rep, .values vs => vs.length = count ty rep ∧ ∀ v ∈ vs, CellOk ty v
  | .array wide ty, .array wide' offset vs => wide' = wide ∧ (∀ v ∈ vs, CellOk ty v) ∧
    vs.length < 256 ^ half wide ∧ offset < 256 ^ half wide ∧ vs.flatMap cellBytes <+: heap.drop offset
  | _, _ => False

end WrittenField

/-- A binary table as it is written: its columns, its rows, and the heap, possibly after a gap. -/
structure WrittenTable where
  columns : List WrittenColumn
  rows : List (List WrittenField)
  gap : List UInt8
  heap : List UInt8

namespace WrittenTable

/-- The formats of the columns. -/
def forms (t : WrittenTable) : List TForm := t.columns.map WrittenColumn.form

/-- The width of a row. -/
def width (t : WrittenTable) : Nat := total (t.forms.map colBytes)

/-- The bytes of the rows. -/
def main (t : WrittenTable) : List UInt8 := t.rows.flatMap (·.flatMap WrittenField.bytes)

/-- The bytes of the table. -/
def data (t : WrittenTable) : List UInt8 := t.main ++ t.gap ++ t.heap

/-- Every row has a field for each column. -/
def RowsOk (t : WrittenTable) : Prop :=
  ∀ row ∈ t.rows, row.length = t.columns.length ∧
    ∀ (c : Nat) (h1 : c < t.columns.length) (h2 : c < row.length), WrittenField.Ok t.heap t.columns[c] row[c]

/-- What the library gives for a value: logical values are always true (D6). -/
def given : Cell → Cell
  | .logical _ => .logical true
  | v => v

/-- The values of the table that the library gives. -/
def givenCells (t : WrittenTable) : List DataValue :=
  tableOf (t.rows.map (·.map fun field => field.cells.map given))

/-- The values of the table in order, with their column and their index. -/
def cells (t : WrittenTable) : List DataValue := tableOf (t.rows.map (·.map WrittenField.cells))

end WrittenTable

/-- A tile-compressed image as it is written (FITS 10): the table that holds it, the algorithm, the type of the pixels, the
axes of the image and of the tiles, the column of the compressed data; the integers of each tile, and the scalings of the
tiles when the pixels are floats. -/
structure WrittenTiles where
  table : WrittenTable
  cmp : ZCmpType
  bitpix : Bitpix
  axes : List Nat
  tileAxes : List Nat
  column : Nat
  tiles : List (List Int)
  scalings : List Scaling

namespace WrittenTiles

/-- The integers of tile `r`. -/
def tile (w : WrittenTiles) (r : Nat) : List Int := w.tiles.getD r []

/-- The scaling of tile `r`. -/
def scaling (w : WrittenTiles) (r : Nat) : Scaling := w.scalings.getD r ⟨.one, .zero, none⟩

/-- The pixels, tile after tile. -/
def pixels (w : WrittenTiles) : List TilePixel :=
  (List.range w.table.rows.length).flatMap fun r => (w.tile r).map (pixelOf w.bitpix (w.scaling r))

/-- The first column with that name holds `v` in row `r`. -/
def Holds (w : WrittenTiles) (h : Heading) (name : Str) (r : Nat) (v : Cell) : Prop :=
  ∃ c : Nat, (h.names w.table.columns.length)[c]? = some (some name) ∧
    (∀ d < c, (h.names w.table.columns.length)[d]? ≠ some (some name)) ∧
    ∃ row, w.table.rows[r]? = some row ∧ row[c]? = some (WrittenField.values [v])

/-- The scaling of the tile of row `r`: columns `ZSCALE` and `ZZERO`, and either a column or a keyword `ZBLANK`. -/
structure Scaled (w : WrittenTiles) (h : Heading) (r : Nat) (s : Scaling) : Prop where
  scale : ∃ v, w.Holds h "ZSCALE".toList r v ∧ IsScalar v s.scale
  zero : ∃ v, w.Holds h "ZZERO".toList r v ∧ IsScalar v s.zero
  column : some "ZBLANK".toList ∈ h.names w.table.columns.length →
    ∃ v b, w.Holds h "ZBLANK".toList r v ∧ IsInteger v b ∧ s.blank = some b
  keyword : some "ZBLANK".toList ∉ h.names w.table.columns.length →
    ∀ b, s.blank = some b ↔ h.Says "ZBLANK".toList b ∧ InI32 b

/-- The keywords of an algorithm: the size of the blocks of RICE is the value of the only parameter named `BLOCKSIZE`, and
32 if there is none. -/
def Algorithm (h : Heading) : ZCmpType → Prop
  | .gzip1 => h.SaysText "ZCMPTYPE".toList "GZIP_1".toList
  | .gzip2 => h.SaysText "ZCMPTYPE".toList "GZIP_2".toList
  | .rice n => (h.SaysText "ZCMPTYPE".toList "RICE_1".toList ∨ h.SaysText "ZCMPTYPE".toList "RICE_ONE".toList) ∧
    ((∃ i, h.Says (kwN "ZVAL" i) (n : Nat) ∧ n < 256 ∧ h.SaysText (kwN "ZNAME" i) "BLOCKSIZE".toList ∧
        ∀ t, h.SaysText ("ZNAME".toList ++ t) "BLOCKSIZE".toList → t = natStr i) ∨
      (n = 32 ∧ ∀ t, ¬ h.SaysText ("ZNAME".toList ++ t) "BLOCKSIZE".toList))
  | _ => False

/-- The keywords of the image, and the sizes of its tiles. -/
structure Described (h : Heading) (w : WrittenTiles) : Prop where
  algorithm : Algorithm h w.cmp
  bitpix : h.Says "ZBITPIX".toList w.bitpix.code
  bitpix64 : w.bitpix ≠ .i64
  znaxis : h.Says "ZNAXIS".toList w.axes.length ∧ w.axes.length ≤ 999
  znaxisn : ∀ i (hi : i < w.axes.length), h.Says (kwN "ZNAXIS" (i + 1)) w.axes[i]
  ztiles : w.tileAxes.length = w.axes.length
  ztilen : ∀ i (hi : i < w.tileAxes.length) (hi' : i < w.axes.length), h.Says (kwN "ZTILE" (i + 1)) w.tileAxes[i] ∨
    (h.lookup (kwN "ZTILE" (i + 1)) = none ∧ w.tileAxes[i] = if i = 0 then w.axes[i] else 1)
  positive : ∀ t ∈ w.tileAxes, 0 < t
  column : CompressedColumn (h.names w.table.columns.length) w.column
  array : ∃ wide, w.table.columns[w.column]? = some (.array wide .B)
  rows : w.table.rows.length = tileCount w.axes w.tileAxes
  tiles : ∀ r < w.table.rows.length, (w.tile r).length = tilePixels w.axes w.tileAxes r
  range : ∀ r < w.table.rows.length, ∀ v ∈ w.tile r, InType w.bitpix v
  scaleNames : IsFloat w.bitpix → some "ZSCALE".toList ∈ h.names w.table.columns.length ∧
    some "ZZERO".toList ∈ h.names w.table.columns.length
  scaled : IsFloat w.bitpix → ∀ r < w.table.rows.length, w.Scaled h r (w.scaling r)

/-- The bytes of the compressed tile `r`. -/
def compressed (w : WrittenTiles) (r : Nat) : List UInt8 :=
  (((w.table.rows.getD r []).getD w.column (WrittenField.values [])).cells).flatMap cellBytes

/-- The compressed data hold the tiles; `gz` gives the bytes decompressed by gzip. -/
def Compressed (gz : Gunzip) (w : WrittenTiles) : Prop :=
  ∀ r < w.table.rows.length, Spec.Holds gz w.cmp (w.tile r) (w.compressed r)

end WrittenTiles

/-- What is written in a data unit: the pixels of an image, the text of an ASCII table, a binary table, or a tile-compressed
image. -/
inductive Body where
  | image (b : Bitpix) (axes : List Nat) (pixels : List Pixel)
  | ascii (width rows fields : Nat) (text : List UInt8)
  | table (t : WrittenTable)
  | tiles (w : WrittenTiles)

namespace Body

/-- The bytes of the data unit. -/
def data : Body → List UInt8
  | image _ _ ps => arrayBytes ps
  | ascii _ _ _ text => text
  | table t => t.data
  | tiles w => w.table.data

/-- The keywords of a table. -/
structure TableSays (h : Heading) (width rows pcount fields : Nat) : Prop where
  bitpix : h.Says "BITPIX".toList 8
  naxis : h.Says "NAXIS".toList 2
  naxis1 : h.Says "NAXIS1".toList width
  naxis2 : h.Says "NAXIS2".toList rows
  pcount_ : h.Says "PCOUNT".toList pcount
  gcount : h.Says "GCOUNT".toList 1
  tfields : h.Says "TFIELDS".toList fields

/-- The keywords of a binary table, and its columns and rows. -/
def TableDescribed (h : Heading) (t : WrittenTable) : Prop :=
  TableSays h t.width t.rows.length (t.gap.length + t.heap.length) t.columns.length ∧
  t.columns ≠ [] ∧ t.width < 2 ^ 60 ∧
  (∀ i (hi : i < t.columns.length), ∃ s, h.SaysText (kwN "TFORM" (i + 1)) s ∧ t.columns[i].Text s) ∧
  ((h.lookup "THEAP".toList = none ∧ t.gap = []) ∨ h.Says "THEAP".toList (t.main.length + t.gap.length : Nat)) ∧ t.RowsOk

/-- The header describes the data unit, whose contents are legal. -/
def Described (h : Heading) : Body → Prop
  | image b axes ps =>
    h.Says "BITPIX".toList b.code ∧ h.Says "NAXIS".toList axes.length ∧
    (∀ i (hi : i < axes.length), h.Says (kwN "NAXIS" (i + 1)) (axes[i] : Nat)) ∧
    (∀ v ∈ ps, PixelOk b v) ∧ ps.length = (if axes = [] then 0 else product axes) ∧
    (0 ∈ axes → ∀ k ≤ axes.length, product (axes.take k) < 2 ^ 64)
  | ascii width rows fields text =>
    TableSays h width rows 0 fields ∧ fields ≤ 999 ∧ text.length = width * rows
  | table t => TableDescribed h t ∧ h.lookup "ZCMPTYPE".toList = none ∧ h.lookup "ZNAXIS".toList = none
  | tiles w => TableDescribed h w.table ∧ w.Described h

/-- A binary table that the library reads right: no bit columns, no columns without values, no empty arrays, no logical
values that are false (C24, C33, C37, C39). -/
def Readable : Body → Prop
  | table t =>
    (∀ ty rep, .plain ty rep ∈ t.columns → ty ≠ .X ∧ 0 < rep) ∧
    (∀ row ∈ t.rows, ∀ wide offset, .array wide offset [] ∉ row) ∧
    ∀ row ∈ t.rows, ∀ field ∈ row, ∀ v ∈ field.cells, v ≠ .logical false
  | tiles _ => False
  | _ => True

/-- The same with false logical values. -/
def Legible : Body → Prop
  | table t =>
    (∀ ty rep, .plain ty rep ∈ t.columns → ty ≠ .X ∧ 0 < rep) ∧
    ∀ row ∈ t.rows, ∀ wide offset, .array wide offset [] ∉ row
  | tiles _ => False
  | _ => True

/-- The compressed data hold the pixels, given what gzip does, and the sizes are in the range of the loops, with a bound on
the number of their steps.  Tables without compressed image as in C72. -/
def Held (gz : Gunzip) (fuel : Nat) : Body → Prop
  | tiles w =>
    w.Compressed gz ∧ 4 * product w.tileAxes < 2 ^ 63 ∧ w.table.width < fuel ∧ 2 * product w.tileAxes + 1 ≤ fuel ∧
    ∀ n, w.cmp = .rice n → product w.tileAxes + n ≤ 2 ^ 31
  | b => b.Readable

/-- What the library reads right, given what gzip does and a bound on the number of steps of the loops.  Compressed images:
no bit columns, columns of one value before the compressed data and (for floats) before the scalings, tiles that are not cut at the edge of the image, no 8-bit pixels with GZIP_2; in checked builds, no
large differences of pixels with RICE (C40, C43, C44). -/
def ReadableBy (p : Profile) (gz : Gunzip) (fuel : Nat) : Body → Prop
  | tiles w =>
    w.Compressed gz ∧ (∀ (c : Nat) ty rep, w.table.columns[c]? = some (.plain ty rep) →
      ty ≠ .X ∧ 0 < rep ∧ (c < w.column ∨ IsFloat w.bitpix → count ty rep = 1)) ∧
    (∀ r < w.table.rows.length, w.compressed r ≠ []) ∧
    4 * product w.tileAxes < 2 ^ 63 ∧ w.table.width < fuel ∧ 2 * product w.tileAxes + 1 ≤ fuel ∧
    (∀ r < w.table.rows.length, tilePixels w.axes w.tileAxes r = product w.tileAxes) ∧
    (w.bitpix = .u8 → w.cmp ≠ .gzip2) ∧
    ∀ n, w.cmp = .rice n → product w.tileAxes + n ≤ 2 ^ 31 ∧
      (p = .wrapping ∨ ∀ r < w.table.rows.length, Smooth (w.tile r))
  | b => b.Readable

/-- The same with false logical values. -/
def LegibleBy (p : Profile) (gz : Gunzip) (fuel : Nat) : Body → Prop
  | tiles w => (tiles w).ReadableBy p gz fuel
  | b => b.Legible

/-- The bit columns of a table have whole bytes (C24). -/
def Whole : Body → Prop
  | table t => WholeBytes t.forms
  | tiles w => WholeBytes w.table.forms
  | _ => True

/-- What the `i`-th call of `next` on the opened data unit should give. -/
def item (i : Nat) : Body → Seen
  | image _ _ ps => .pixel ps[i]?
  | ascii _ _ _ text => .byte text[i]?
  | table t => .value t.cells[i]?
  | tiles w => .tilePixel w.pixels[i]?

/-- What it gives. -/
def given (i : Nat) : Body → Seen
  | table t => .value t.givenCells[i]?
  | b => b.item i

end Body

/-! ### Files -/

/-- An HDU as written, with the fill of the last header block and of the last data block. -/
structure WrittenHdu where
  heading : Heading
  headerFill : List UInt8
  body : Body
  dataFill : List UInt8

namespace WrittenHdu

/-- The bytes of the HDU, in parts. -/
def segment (u : WrittenHdu) : Segment :=
  { records := u.heading.records, headerFill := u.headerFill, data := u.body.data, dataFill := u.dataFill }

/-- The kind of HDU announced by the first line is that of the data. -/
def Kind : (primary : Bool) → FirstLine → Body → Prop
  | true, .simple _ _ _, .image _ _ _ => True
  | false, .xtension .image _ _ _ _, .image _ _ _ => True
  | false, .xtension .asciiTable _ _ _ _, .ascii _ _ _ _ => True
  | false, .xtension .binTable _ _ _ _, .table _ => True
  | false, .xtension .binTable _ _ _ _, .tiles _ => True
  | _, _, _ => False

/-- An HDU that can be written. -/
structure Legal (primary : Bool) (u : WrittenHdu) : Prop where
  kind : Kind primary u.heading.first u.body
  heading : u.heading.Legal
  described : u.body.Described u.heading
  headerFill : (80 * u.heading.records.length + u.headerFill.length) = roundUp2880 (80 * u.heading.records.length)

end WrittenHdu

/-- A file as written: the first HDU is primary, the others are extensions; every data unit is filled to a multiple of
2880 bytes, but the fill of the last one may be missing, incomplete, or followed by less than one record. -/
inductive File : (primary : Bool) → List WrittenHdu → Prop
  | last {primary u} : u.Legal primary →
    u.body.data.length + u.dataFill.length < roundUp2880 u.body.data.length + 80 → File primary [u]
  | cons {primary u us} : u.Legal primary →
    u.body.data.length + u.dataFill.length = roundUp2880 u.body.data.length → File false us → File primary (u :: us)

/-- The bytes of a file. -/
def fileBytes (us : List WrittenHdu) : List UInt8 := (us.map fun u => u.segment.bytes).flatten

end Fitsrs.Spec

namespace Fitsrs
open Spec

/-- The table returned by the reader is the one written: formats and names of the columns, sizes, place of
the heap. -/
def Spec.WrittenTable.Shown (g : Heading) (t : WrittenTable) (x : BinTable) : Prop :=
  x.tforms = t.forms ∧ x.ttypes = g.names t.columns.length ∧ x.naxis1 = t.width ∧ x.naxis2 = t.rows.length ∧ x.pcount = t.gap.length + t.heap.length ∧
  x.theap = t.main.length + t.gap.length ∧ x.tfields = t.columns.length

/-- The contents of an HDU, as announced by its header, are those written. -/
def Spec.Body.Shown (g : Heading) : Body → HDU → Prop
  | .image b axes _, .primary h => h.header.xtension = { bitpix := b, naxisn := axes }
  | .image b axes _, .image h => h.header.xtension = { bitpix := b, naxisn := axes }
  | .ascii width rows fields _, .asciiTable h =>
    h.header.xtension.naxis1 = width ∧ h.header.xtension.naxis2 = rows ∧ h.header.xtension.tfields = fields
  | .table t, .binTable h => t.Shown g h.header.xtension ∧ h.header.xtension.zImage = none
  | .tiles w, .binTable h => w.table.Shown g h.header.xtension ∧
    ∃ z, h.header.xtension.zImage = some z ∧ z.zCmpType = w.cmp ∧ z.zBitpix = w.bitpix ∧ z.zNaxisn = w.axes ∧
      z.zTilen = w.tileAxes ∧ z.dataCompressedIdx = w.column ∧ z.zQuantiz = none
  | _, _ => False

/-- The HDU returned by the reader is the one written at offset `o`: kind, cards, values of all the keywords, contents
announced, and place of the data unit. -/
structure Spec.ShownAs (primary : Bool) (o : Nat) (u : WrittenHdu) (h : HDU) : Prop where
  kind : (∃ x, h = .primary x) ↔ primary = true
  cards : h.cards = u.heading.cards
  values : ∀ k, h.values.get k = u.heading.lookup k
  body : u.body.Shown u.heading h
  offset : h.dataOffset = o + u.segment.header.length

/-- The HDUs returned by the reader are those written one after the other from offset `o` on. -/
inductive Spec.ShownAll : (primary : Bool) → (o : Nat) → List WrittenHdu → List HDU → Prop
  | nil {primary o} : ShownAll primary o [] []
  | cons {primary o u us h hs} : ShownAs primary o u h → ShownAll false (o + u.segment.bytes.length) us hs →
    ShownAll primary o (u :: us) (h :: hs)

/-- A program that opens the data of every HDU and asks for `k` items of it, for the successive `k` of a list, and then
asks for one more HDU. -/
def Spec.visits : List Nat → List Call
  | [] => [.hdu]
  | k :: ks => .hdu :: .getData 0 :: (List.replicate k .next ++ visits ks)

/-- What the program should see. -/
def Spec.seenVisits : List Nat → List WrittenHdu → List HDU → List (Option (Res Seen))
  | k :: ks, u :: us, h :: hs =>
    some (.ok (.hdu (some h))) :: some (.ok .unit) ::
      ((List.range k).map (fun i => some (.ok (u.body.item i))) ++ seenVisits ks us hs)
  | _, _, _ => [some (.ok (.hdu none))]

/-- What the program sees. -/
def Spec.givenVisits : List Nat → List WrittenHdu → List HDU → List (Option (Res Seen))
  | k :: ks, u :: us, h :: hs =>
    some (.ok (.hdu (some h))) :: some (.ok .unit) ::
      ((List.range k).map (fun i => some (.ok (u.body.given i))) ++ givenVisits ks us hs)
  | _, _, _ => [some (.ok (.hdu none))]

end Fitsrs

import Verif.Model.Header
/-
Model of src/hdu/header/extension/{image,asciitable,bintable}.rs: mandatory keywords of each kind
of HDU and the size of its data unit.
-/

namespace Fitsrs

/-- `format!("{prefix}{n}")`. -/
def kwN (pre : String) (n : Nat) : Str := pre.toList ++ natStr n

/-! ### Images -/

/-- `Image` (src/hdu/header/extension/image.rs:10-16). -/
structure Image where
  bitpix : Bitpix
  naxisn : List Nat
  deriving DecidableEq, Repr

/-- `(i..i+k).map(check_for_naxisi).collect::<Result<_, _>>()`
(src/hdu/header/extension/image.rs:50-52). -/
def collectAxes (m : ValueMap) : (i k : Nat) → Res (List Nat)
  | _, 0 => .ok []
  | i, k + 1 => do
    let n ← m.getU64 (kwN "NAXIS" i)
    let ns ← collectAxes m (i + 1) k
    .ok (n :: ns)

/-- `Image::parse` (src/hdu/header/extension/image.rs:44-55). -/
def Image.parse (m : ValueMap) : Res Image := do
  let bitpix ← m.getBitpix "BITPIX".toList
  let naxis ← m.getU64 "NAXIS".toList
  let naxisn ← collectAxes m 1 naxis
  .ok { bitpix, naxisn }

/-- `Iterator::product::<u64>`: left to right, starting from one. -/
def uprod (p : Profile) : List Nat → Nat → Res Nat
  | [], acc => .ok acc
  | n :: ns, acc => do
    let a ← umul p acc n
    uprod p ns a

/-- `Image::get_num_pixels` (src/hdu/header/extension/image.rs:29-35). -/
def Image.numPixels (p : Profile) (x : Image) : Res Nat :=
  if x.naxisn = [] then .ok 0 else uprod p x.naxisn 1

/-- `Image::get_num_bytes_data_block` (src/hdu/header/extension/image.rs:40-42). -/
def Image.numBytes (p : Profile) (x : Image) : Res Nat := do
  let n ← x.numPixels p
  umul p x.bitpix.byteSize n

/-! ### ASCII tables -/

/-- `TFormAsciiTable` (src/hdu/header/extension/asciitable.rs:178-185). -/
inductive TFormAscii where
  | character (w : Nat)
  | decimalInteger (w : Nat)
  | floatFixed (w d : Nat)
  | floatE (w d : Nat)
  | floatD (w d : Nat)
  deriving DecidableEq, Repr

/-- `str::split_once('.')`. -/
def splitOnceDot (s : Str) : Option (Str × Str) :=
  if '.' ∈ s then some (s.takeWhile (· ≠ '.'), (s.dropWhile (· ≠ '.')).drop 1) else none

/-- `TFormAsciiTable::deserialize`, `visit_str` (src/hdu/header/extension/asciitable.rs:201-257);
`none` is an error. -/
def TFormAscii.ofStr (v : Str) : Option TFormAscii :=
  match trimEndStr v with
  | [] => none
  | first :: rest =>
    let two (mk : Nat → Nat → TFormAscii) : Option TFormAscii := do
      let (a, b) ← splitOnceDot rest
      let w ← parseUsize a
      let d ← parseUsize b
      some (mk w d)
    if first = 'A' then (parseUsize rest).map .character
    else if first = 'I' then (parseUsize rest).map .decimalInteger
    else if first = 'F' then two .floatFixed
    else if first = 'E' then two .floatE
    else if first = 'D' then two .floatD
    else none

/-- `get_parsed::<TFormAsciiTable>`: `deserialize_str` on a string or an invalid value. -/
def ValueMap.getTFormAscii (m : ValueMap) (k : Str) : Res TFormAscii := do
  let s ← m.getString k
  match TFormAscii.ofStr s with
  | some t => .ok t
  | none => .err .dynamic

/-- `AsciiTable` (src/hdu/header/extension/asciitable.rs:14-40). -/
structure AsciiTable where
  bitpix : Bitpix
  naxis1 : Nat
  naxis2 : Nat
  tfields : Nat
  tbcols : List Nat
  tforms : List TFormAscii
  pcount : Nat
  gcount : Nat
  deriving DecidableEq, Repr

/-- `Vec::with_capacity(n)` for elements of `size` bytes: panics when the allocation would exceed
`isize::MAX` bytes.  Simplification: a smaller allocation that the system refuses is not modelled. -/
def withCapacity (size n : Nat) : Res Unit := if n * size < 2 ^ 63 then .ok () else .panic

/-- The loop over the fields (src/hdu/header/extension/asciitable.rs:136-155): fields whose `TBCOLn`
or `TFORMn` cannot be read are skipped.  The two lists returned are `tbcols` and `tforms`. -/
def asciiFields (m : ValueMap) : (i k : Nat) → List Nat × List TFormAscii
  | _, 0 => ([], [])
  | i, k + 1 =>
    let (bs, fs) := asciiFields m (i + 1) k
    match m.getU64 (kwN "TBCOL" i), m.getTFormAscii (kwN "TFORM" i) with
    | .ok b, .ok f => (b :: bs, f :: fs)
    | _, _ => (bs, fs)

/-- `AsciiTable::parse` (src/hdu/header/extension/asciitable.rs:101-168).  The elements of `tforms`
occupy 24 bytes. -/
def AsciiTable.parse (m : ValueMap) : Res AsciiTable := do
  let bitpix ← m.getBitpix "BITPIX".toList
  if bitpix ≠ .u8 then .err (.static "Ascii Table HDU must have a BITPIX = 8")
  else
    let naxis ← m.getU64 "NAXIS".toList
    if naxis ≠ 2 then .err (.static "Ascii Table HDU must have NAXIS = 2")
    else
      let naxis1 ← m.getU64 (kwN "NAXIS" 1)
      let naxis2 ← m.getU64 (kwN "NAXIS" 2)
      let pcount ← m.getU64 "PCOUNT".toList
      if pcount ≠ 0 then .err (.static "Ascii Table HDU must have PCOUNT = 0")
      else
        let gcount ← m.getU64 "GCOUNT".toList
        if gcount ≠ 1 then .err (.static "Ascii Table HDU must have GCOUNT = 1")
        else
          let tfields ← m.getU64 "TFIELDS".toList
          withCapacity 8 tfields
          withCapacity 24 tfields
          let fields := asciiFields m 1 tfields
          .ok { bitpix, naxis1, naxis2, tfields, tbcols := fields.1, tforms := fields.2, pcount, gcount }

/-- `AsciiTable::get_num_bytes_data_block` (src/hdu/header/extension/asciitable.rs:97-99). -/
def AsciiTable.numBytes (p : Profile) (x : AsciiTable) : Res Nat := umul p x.naxis1 x.naxis2

/-! ### Binary tables -/

/-- Element types of binary tables, `VariableArrayTy` (src/hdu/header/extension/bintable.rs:737-760) and
the zero-sized types of bintable.rs:549-634. -/
inductive ElemTy where
  | L | X | B | I | J | K | A | E | D | C | M
  deriving DecidableEq, Repr

namespace ElemTy

/-- `TForm::BITS_SIZE` (src/hdu/header/extension/bintable.rs:539-634). -/
def bits : ElemTy → Nat
  | L => 8 | X => 1 | B => 8 | I => 16 | J => 32 | K => 64 | A => 8 | E => 32 | D => 64 | C => 64
  | M => 128

/-- `TForm::BYTES_SIZE` (src/hdu/header/extension/bintable.rs:543): `BITS_SIZE.div_ceil(8)`. -/
def bytes (t : ElemTy) : Nat := (t.bits + 7) / 8

/-- The type letters (src/hdu/header/extension/bintable.rs:386-396, 406-429). -/
def ofChar (c : Char) : Option ElemTy :=
  if c = 'L' then some L else if c = 'X' then some X else if c = 'B' then some B
  else if c = 'I' then some I else if c = 'J' then some J else if c = 'K' then some K
  else if c = 'A' then some A else if c = 'E' then some E else if c = 'D' then some D
  else if c = 'C' then some C else if c = 'M' then some M else none

end ElemTy

/-- `TFormType` (src/hdu/header/extension/bintable.rs:656-720): a repeated elementary type, or an array
descriptor (32 or 64 bits) with the type of its elements.  The fields `t_byte_size` (always
`ElemTy.bytes`) and `e_max` (always 999, unused) are left out. -/
inductive TForm where
  | plain (ty : ElemTy) (rep : Nat)
  | P (ty : ElemTy)
  | Q (ty : ElemTy)
  deriving DecidableEq, Repr

/-- `TFormType::num_bits_field` (src/hdu/header/extension/bintable.rs:769-785). -/
def TForm.numBits (p : Profile) : TForm → Res Nat
  | .plain t r => umul p r t.bits
  | .P _ => .ok 64
  | .Q _ => .ok 128

/-- `TFormType::num_bytes_field` (src/hdu/header/extension/bintable.rs:787-789). -/
def TForm.numBytes (p : Profile) (t : TForm) : Res Nat := (t.numBits p).map fun n => (n + 7) / 8

/-- Parsing of a `TFORMn` string (src/hdu/header/extension/bintable.rs:364-452); `none`: discarded. -/
def TForm.ofStr (s : Str) : Option TForm :=
  let count := s.takeWhile isDigit
  let rep := (parseUsize count).getD 1
  match s.drop count.length with
  | [] => none
  | c :: rest =>
    match ElemTy.ofChar c with
    | some t => some (.plain t rep)
    | none =>
      let elem : Option ElemTy := rest.head?.bind ElemTy.ofChar
      if c = 'P' then elem.map .P
      else if c = 'Q' then elem.map .Q
      else none

/-- `ZCmpType` (src/hdu/header/extension/bintable.rs:152-167); `bytepix` is always 4. -/
inductive ZCmpType where
  | gzip1
  | gzip2
  | rice (blocksize : Nat)
  | plio1
  | hcompress1
  deriving DecidableEq, Repr

/-- `ZQuantiz` (src/hdu/header/extension/bintable.rs:142-150). -/
inductive ZQuantiz where
  | noDither
  | subtractiveDither1
  | subtractiveDither2
  deriving DecidableEq, Repr

/-- `TileCompressedImage` (src/hdu/header/extension/bintable.rs:97-140). -/
structure TileCompressedImage where
  zCmpType : ZCmpType
  zBitpix : Bitpix
  zNaxisn : List Nat
  zTilen : List Nat
  zQuantiz : Option ZQuantiz
  zDither0 : Option Int
  dataCompressedIdx : Nat
  deriving DecidableEq, Repr

/-- `BinTable` (src/hdu/header/extension/bintable.rs:15-66). -/
structure BinTable where
  bitpix : Bitpix
  naxis1 : Nat
  naxis2 : Nat
  tfields : Nat
  theap : Nat
  tforms : List TForm
  ttypes : List (Option Str)
  pcount : Nat
  gcount : Nat
  zImage : Option TileCompressedImage
  deriving DecidableEq, Repr

/-- `find_field_by_ttype` (src/hdu/header/extension/bintable.rs:68-76): index of the first field with that
name. -/
def findFieldByTtype (ttypes : List (Option Str)) (s : Str) : Option Nat :=
  let i := ttypes.findIdx (· = some s)
  if i < ttypes.length then some i else none

/-- `zname.replace("NAME", "VAL")` (src/hdu/header/extension/bintable.rs:237). -/
def replaceName : Str → Str
  | 'N' :: 'A' :: 'M' :: 'E' :: t => 'V' :: 'A' :: 'L' :: replaceName t
  | c :: t => c :: replaceName t
  | [] => []

/-- RICE block size (src/hdu/header/extension/bintable.rs:232-249): value of the first `ZVALn` readable as
a byte whose `ZNAMEn` is `BLOCKSIZE`, 32 by default. -/
def riceBlocksize (m : ValueMap) : Nat :=
  (m.findSome? fun (zname, v) =>
    match v with
    | .string s _ =>
      if s = "BLOCKSIZE".toList ∧ "ZNAME".toList.isPrefixOf zname then
        match m.getU8 (replaceName zname) with
        | .ok n => some n
        | _ => none
      else none
    | _ => none).getD 32

/-- `ZCMPTYPE` (src/hdu/header/extension/bintable.rs:222-265). -/
def getZCmpType (m : ValueMap) : Option ZCmpType :=
  match m.get "ZCMPTYPE".toList with
  | some (.string s _) =>
    let t := trimAsciiEndStr s
    if t = "GZIP_1".toList then some .gzip1
    else if t = "GZIP_2".toList then some .gzip2
    else if t = "RICE_1".toList ∨ t = "RICE_ONE".toList then some (.rice (riceBlocksize m))
    else if t = "PLI0_1".toList then some .plio1
    else if t = "HCOMPRESS_1".toList then some .hcompress1
    else none
  | _ => none

/-- `Result::ok` on an outcome that is not a panic, for functions that never panic. -/
def okOpt {α : Type} : Res α → Option α
  | .ok a => some a
  | _ => none

/-- `unwrap_or_else(|_| None)` on an outcome that is not a panic. -/
def orNone {α : Type} : Res (Option α) → Option α
  | .ok a => a
  | _ => none

/-- `ZTILEn` and its default (src/hdu/header/extension/bintable.rs:304-315). -/
def zTile (m : ValueMap) (i n : Nat) : Nat :=
  match m.getU64 (kwN "ZTILE" i) with
  | .ok t => t
  | _ => if i = 1 then n else 1

/-- The loop over the axes (src/hdu/header/extension/bintable.rs:294-320): stops at the first `ZNAXISn`
which is missing. Returns `z_naxisn` and `z_tilen`. -/
def zAxes (m : ValueMap) : (i k : Nat) → List Nat × List Nat
  | _, 0 => ([], [])
  | i, k + 1 =>
    match m.getU64 (kwN "ZNAXIS" i) with
    | .ok n =>
      let (ns, ts) := zAxes m (i + 1) k
      (n :: ns, zTile m i n :: ts)
    | _ => ([], [])

/-- `z_naxisn` and `z_tilen` (src/hdu/header/extension/bintable.rs:272-331). -/
def getZAxes (m : ValueMap) : Res (Option (List Nat × List Nat)) :=
  match m.getU64 "ZNAXIS".toList with
  | .ok z => do
    withCapacity 8 z
    let (ns, ts) := zAxes m 1 z
    if ns.length ≠ z then .ok none else .ok (some (ns, ts))
  | _ => .ok none

/-- `TFORMn`/`TTYPEn` (src/hdu/header/extension/bintable.rs:346-457): the fields whose format is readable,
with their name. -/
def binFields (m : ValueMap) : (i k : Nat) → List (TForm × Option Str)
  | _, 0 => []
  | i, k + 1 =>
    let rest := binFields m (i + 1) k
    match m.getString (kwN "TFORM" i) with
    | .ok s =>
      match TForm.ofStr s with
      | some f => (f, okOpt (m.getString (kwN "TTYPE" i))) :: rest
      | none => rest
    | _ => rest

/-- `iter().sum::<u64>()` of the field widths in bits (src/hdu/header/extension/bintable.rs:512-515). -/
def rowBits (p : Profile) : List TForm → Nat → Res Nat
  | [], acc => .ok acc
  | f :: fs, acc => do
    let b ← f.numBits p
    let a ← uadd p acc b
    rowBits p fs a

/-- `z_image` (src/hdu/header/extension/bintable.rs:459-503). -/
def mkZImage (m : ValueMap) (axes : Option (List Nat × List Nat)) (ttypes : List (Option Str)) :
    Option TileCompressedImage :=
  let zq : Option ZQuantiz := orNone (m.getOpt (ValueMap.getEnum ZQuantiz) "ZQUANTIZ".toList)
  let zb : Option Bitpix := orNone (m.getOpt ValueMap.getBitpix "ZBITPIX".toList)
  let zd : Option Int := okOpt (m.getI64 "ZDITHER0".toList)
  let idx := (findFieldByTtype ttypes "COMPRESSED_DATA".toList).or
    (findFieldByTtype ttypes "GZIP_COMPRESSED_DATA".toList)
  match getZCmpType m, zb, axes, idx with
  | some c, some b, some (ns, ts), some i =>
    if c = .hcompress1 then none
    else if c = .plio1 then none
    else if b = .i64 then none
    else some { zCmpType := c, zBitpix := b, zNaxisn := ns, zTilen := ts, zQuantiz := zq
                zDither0 := zd, dataCompressedIdx := i }
  | _, _, _, _ => none

/-- `THEAP`, by default the size of the main table (src/hdu/header/extension/bintable.rs:505-510). -/
def getTheap (p : Profile) (m : ValueMap) (naxis1 naxis2 : Nat) : Res Nat :=
  match m.getU64 "THEAP".toList with
  | .ok t => .ok t
  | _ => umul p naxis1 naxis2

/-- `BinTable::parse` (src/hdu/header/extension/bintable.rs:189-534). -/
def BinTable.parse (p : Profile) (m : ValueMap) : Res BinTable := do
  let bitpix ← m.getBitpix "BITPIX".toList
  if bitpix ≠ .u8 then .err (.static "Binary Table HDU must have a BITPIX = 8")
  else
    let naxis ← m.getU64 "NAXIS".toList
    if naxis ≠ 2 then .err (.static "Binary Table HDU must have NAXIS = 2")
    else
      let naxis1 ← m.getU64 (kwN "NAXIS" 1)
      let naxis2 ← m.getU64 (kwN "NAXIS" 2)
      let pcount ← m.getU64 "PCOUNT".toList
      let gcount ← m.getU64 "GCOUNT".toList
      if gcount ≠ 1 then .err (.static "Ascii Table HDU must have GCOUNT = 1")
      else
        let tfields ← m.getU64 "TFIELDS".toList
        let axes ← getZAxes m
        let fields := binFields m 1 tfields
        let tforms := fields.map Prod.fst
        let ttypes := fields.map Prod.snd
        let zImage := mkZImage m axes ttypes
        let theap ← getTheap p m naxis1 naxis2
        let bits ← rowBits p tforms 0
        if bits >>> 3 ≠ naxis1 then
          .err (.static "BinTable NAXIS1 and TFORMS does not give the same amount of bytes the table should have per row.")
        else
          .ok { bitpix, naxis1, naxis2, tfields, theap, tforms, ttypes, pcount, gcount, zImage }

/-- `BinTable::get_num_bytes_data_block` (src/hdu/header/extension/bintable.rs:185-187). -/
def BinTable.numBytes (p : Profile) (x : BinTable) : Res Nat := do
  let n ← umul p x.naxis1 x.naxis2
  uadd p n x.pcount

end Fitsrs

import Verif.Model.Fits
/-
The command `fits struct` (crates/cli/src/struct.rs).  Not modelled: opening the file, the parsing of the arguments
(crates/cli/src/main.rs, `clap`), logging, failing writes to the standard output, the text of errors.  The reader is the
plain reader of the model (C69 relates it to `BufReader`).
-/

namespace Fitsrs.Cli

/-- `Debug` of `Bitpix` (derived, src/hdu/header/mod.rs:65-74). -/
def debugBitpix : Bitpix → Str
  | .u8 => "U8".toList
  | .i16 => "I16".toList
  | .i32 => "I32".toList
  | .i64 => "I64".toList
  | .f32 => "F32".toList
  | .f64 => "F64".toList

/-- The elements of a slice after the first one, in `Debug` (standard library). -/
def debugTail : List Nat → Str
  | [] => []
  | d :: ds => ',' :: ' ' :: (natStr d ++ debugTail ds)

/-- `Debug` of a slice of integers (standard library). -/
def debugSlice : List Nat → Str
  | [] => "[]".toList
  | d :: ds => '[' :: (natStr d ++ debugTail ds ++ [']'])

/-- The dimensions: `map`, `reduce` and `unwrap_or_else` of `print_img_header` (crates/cli/src/struct.rs:91-99). -/
def dimensions (axes : List Nat) : Str :=
  match axes.map natStr with
  | [] => ['0']
  | d :: ds => ds.foldl (fun s d => (s ++ ['x']) ++ d) d

/-- `print_hdu_type` (crates/cli/src/struct.rs:70-72). -/
def typeLine (name : String) : Str := " * HDU type: ".toList ++ name.toList

/-- `print_img_header` (crates/cli/src/struct.rs:86-101). -/
def imageLine (x : Image) : Str :=
  " * HEAD naxis: ".toList ++ debugSlice x.naxisn ++ "; bitpix : ".toList ++ debugBitpix x.bitpix ++
    "; dimensions: ".toList ++ dimensions x.naxisn ++ ['.']

/-- `print_bintable_header`, `print_asciitable_header` (crates/cli/src/struct.rs:103-117). -/
def tableLine (cols rows : Nat) : Str :=
  " * HEAD n_cols: ".toList ++ natStr cols ++ "; n_rows: ".toList ++ natStr rows ++ ['.']

/-- `print_data_struct` (crates/cli/src/struct.rs:74-84), given the offset and the size. -/
def dataLine (offset size : Nat) : Str :=
  " * DATA starting byte: ".toList ++ natStr offset ++ "; byte size: ".toList ++ natStr size ++ ['.']

/-- The lines printed for the header (crates/cli/src/struct.rs:42-68). -/
def headLines : HDU → List Str
  | .primary h => [typeLine "PRIMARY", imageLine h.header.xtension]
  | .image h => [typeLine "IMAGE", imageLine h.header.xtension]
  | .binTable h => [typeLine "BINTABLE", tableLine h.header.xtension.tfields h.header.xtension.naxis2]
  | .asciiTable h => [typeLine "ASCIITABLE", tableLine h.header.xtension.tfields h.header.xtension.naxis2]

/-- `print_hdu_struct` (crates/cli/src/struct.rs:32-40): the lines printed and the result. -/
def printHdu (p : Profile) (i : Nat) (h : HDU) : List Str × Res Unit :=
  let head := ("HDU[".toList ++ natStr i ++ "]:".toList) :: headLines h
  match h.dataSize p with
  | .ok n => (head ++ [dataLine h.dataOffset n], .ok ())
  | .err e => (head, .err e)
  | .panic => (head, .panic)

/-- The loop of `Struct::exec` (crates/cli/src/struct.rs:24-27), from the HDU of index `i` on, with at most `n` calls of
the iterator: the lines printed, and the result (`none`: not finished). -/
def exec (p : Profile) : (n i : Nat) → Fits → List Str × Option (Res Unit)
  | 0, _, _ => ([], none)
  | n + 1, i, f =>
    match f.next p with
    | (none, _) => ([], some (.ok ()))
    | (some (.ok h), f') =>
      match printHdu p i h with
      | (ls, .ok _) => (ls ++ (exec p n (i + 1) f').1, (exec p n (i + 1) f').2)
      | (ls, .err e) => (ls, some (.err e))
      | (ls, .panic) => (ls, some .panic)
    | (some (.err e), _) => ([], some (.err e))
    | (some .panic, _) => ([], some .panic)

end Fitsrs.Cli

import Verif.Spec.Writer
/-
What `fits struct` should print of a written file.
-/

namespace Fitsrs.Spec

/-- A number in decimal. -/
def decimal (n : Nat) : Str := Nat.toDigits 10 n

/-- The name of a kind of pixel. -/
def pixelName : Bitpix → String
  | .u8 => "U8"
  | .i16 => "I16"
  | .i32 => "I32"
  | .i64 => "I64"
  | .f32 => "F32"
  | .f64 => "F64"

/-- Texts with a separator between them. -/
def joinWith (sep : Str) : List Str → Str
  | [] => []
  | [t] => t
  | t :: ts => t ++ sep ++ joinWith sep ts

/-- The lines on the contents of a data unit. -/
def Body.report (primary : Bool) : Body → List Str
  | .image b axes _ =>
    [(if primary then " * HDU type: PRIMARY" else " * HDU type: IMAGE").toList,
     " * HEAD naxis: [".toList ++ joinWith ", ".toList (axes.map decimal) ++ "]; bitpix : ".toList ++ (pixelName b).toList ++
       "; dimensions: ".toList ++ (if axes = [] then ['0'] else joinWith ['x'] (axes.map decimal)) ++ ['.']]
  | .ascii _ rows fields _ =>
    [" * HDU type: ASCIITABLE".toList,
     " * HEAD n_cols: ".toList ++ decimal fields ++ "; n_rows: ".toList ++ decimal rows ++ ['.']]
  | .table t =>
    [" * HDU type: BINTABLE".toList,
     " * HEAD n_cols: ".toList ++ decimal t.columns.length ++ "; n_rows: ".toList ++ decimal t.rows.length ++ ['.']]
  | .tiles w =>
    [" * HDU type: BINTABLE".toList,
     " * HEAD n_cols: ".toList ++ decimal w.table.columns.length ++ "; n_rows: ".toList ++ decimal w.table.rows.length ++ ['.']]

/-- The lines on the `i`-th HDU, which starts at offset `o`. -/
def WrittenHdu.report (primary : Bool) (i o : Nat) (u : WrittenHdu) : List Str :=
  ["HDU[".toList ++ decimal i ++ "]:".toList] ++ u.body.report primary ++
    [" * DATA starting byte: ".toList ++ decimal (o + u.segment.header.length) ++ "; byte size: ".toList ++
      decimal u.body.data.length ++ ['.']]

/-- What should be printed of a file cut after `n` bytes, from the `i`-th HDU at offset `o` on, and how it should end: the
HDUs with a complete header are reported, a part of a header is an error. -/
def cutReport (n : Nat) : (primary : Bool) → (i o : Nat) → List WrittenHdu → List Str × Res Unit
  | _, _, _, [] => ([], .ok ())
  | primary, i, o, u :: us =>
    if o + u.segment.header.length ≤ n then
      (u.report primary i o ++ (cutReport n false (i + 1) (o + u.segment.bytes.length) us).1,
       (cutReport n false (i + 1) (o + u.segment.bytes.length) us).2)
    else if primary = false ∧ n < o + 80 then ([], .ok ())
    else ([], .err (if n < o + 80 * u.heading.records.length then .io .unexpectedEof else .static "EOF reached"))

/-- What should be printed of a whole file. -/
def fullReport : (primary : Bool) → (i o : Nat) → List WrittenHdu → List Str
  | _, _, _, [] => []
  | primary, i, o, u :: us => u.report primary i o ++ fullReport false (i + 1) (o + u.segment.bytes.length) us

end Fitsrs.Spec

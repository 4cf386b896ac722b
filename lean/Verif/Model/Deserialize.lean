import Verif.Model.Header
import Verif.Model.ImageDecoder
/-
Model of the deserialization of values and headers with `serde`: `Deserializer for &Value` (src/card.rs:470-511),
`ValueMap::get_parsed` (src/hdu/header/mod.rs:101-107), `IntoDeserializer for &ValueMap` (src/hdu/header/mod.rs:177-183), and
what `#[derive(Deserialize)]` generates for a struct.
-/

namespace Fitsrs

/-- The methods of a visitor that are called. -/
inductive Visit where
  | i64 (n : Int)
  | f64 (x : Dec)
  | bool (b : Bool)
  | str (s : Str)
  | unit
  deriving DecidableEq, Repr

/-- `deserialize_any` (src/card.rs:473-485): the method that is called. -/
def Value.visit : Value → Visit
  | .integer n _ => .i64 n
  | .float x _ => .f64 x
  | .logical b _ => .bool b
  | .string s _ => .str s
  | .undefined => .unit
  | .invalid s => .str s

/-- `T::deserialize`, for a type `T` that hands its visitor to any of the methods of src/card.rs:498-502. -/
def deserializeAny {α : Type} (visitor : Visit → Res α) (v : Value) : Res α := visitor v.visit

/-- `Option<T>::deserialize` (src/card.rs:487-496). -/
def deserializeOption {α : Type} (de : Value → Res α) (v : Value) : Res (Option α) :=
  if v = .undefined then .ok none else (de v).map some

/-- The visitor of an integer type with values in `[lo, hi]` (`serde`). -/
def intVisitor (lo hi : Int) : Visit → Res Int
  | .i64 n => if lo ≤ n ∧ n ≤ hi then .ok n else .err .dynamic
  | _ => .err .dynamic

/-- The visitor of `f64` (`serde`): integers are converted (value before rounding). -/
def f64Visitor : Visit → Res Dec
  | .f64 x => .ok x
  | .i64 n => .ok (.fin (n < 0) n.natAbs 0)
  | _ => .err .dynamic

/-- The visitor of `bool` (`serde`). -/
def boolVisitor : Visit → Res Bool
  | .bool b => .ok b
  | _ => .err .dynamic

/-- The visitor of `String` (`serde`). -/
def stringVisitor : Visit → Res Str
  | .str s => .ok s
  | _ => .err .dynamic

/-- `ValueMap::get_parsed` (src/hdu/header/mod.rs:101-107). -/
def ValueMap.getParsed {α : Type} (de : Value → Res α) (m : ValueMap) (k : Str) : Res α := de ((m.get k).getD .undefined)

/-- A field of a struct: its keyword, its type, `Deserialize` of the type, and what is done if the keyword is missing. -/
structure SField where
  name : Str
  type : Type
  de : Value → Res type
  missing : Res type

/-- A field of a type other than `Option`: a missing keyword is an error. -/
def SField.plain (name : Str) {α : Type} (de : Value → Res α) : SField := ⟨name, α, de, .err .dynamic⟩

/-- A field of type `Option`: a missing keyword is `None`. -/
def SField.option (name : Str) {α : Type} (de : Value → Res α) : SField :=
  ⟨name, Option α, deserializeOption de, .ok none⟩

/-- A field with `#[serde(default)]`. -/
def SField.default (name : Str) {α : Type} (de : Value → Res α) (d : α) : SField := ⟨name, α, de, .ok d⟩

/-- The fields seen so far, while the map is visited. -/
def Filled : List SField → Type
  | [] => Unit
  | f :: fs => Option f.type × Filled fs

/-- The struct. -/
def Struct : List SField → Type
  | [] => Unit
  | f :: fs => f.type × Struct fs

/-- No field has been seen. -/
def Filled.start : (fs : List SField) → Filled fs
  | [] => ()
  | _ :: fs => (none, start fs)

/-- A field whose keyword is found: a second entry is an error. -/
def SField.read (f : SField) (v : Value) : Option f.type → Res (Option f.type)
  | some _ => .err .dynamic
  | none => (f.de v).map some

/-- A field at the end of the map. -/
def SField.orMissing (f : SField) : Option f.type → Res f.type
  | some x => .ok x
  | none => f.missing

/-- One entry of the map: the field with this name is read; other keywords are ignored. -/
def Filled.entry (k : Str) (v : Value) : (fs : List SField) → Filled fs → Res (Filled fs)
  | [], u => .ok u
  | f :: fs, (o, r) =>
    if f.name = k then f.read v o >>= fun o' => .ok (o', r) else entry k v fs r >>= fun r' => .ok (o, r')

/-- All the entries. -/
def Filled.entries {fs : List SField} : List (Str × Value) → Filled fs → Res (Filled fs)
  | [], s => .ok s
  | (k, v) :: m, s => entry k v fs s >>= entries m

/-- The end of `visit_map`: the fields that have not been seen. -/
def Filled.finish : (fs : List SField) → Filled fs → Res (Struct fs)
  | [], u => .ok u
  | f :: fs, (o, r) => f.orMissing o >>= fun x => finish fs r >>= fun s => .ok (x, s)

/-- `T::deserialize(header.into_deserializer())` for a struct with `#[derive(Deserialize)]`: the entries of the map are
visited in order. -/
def Struct.deserialize (fs : List SField) (m : ValueMap) : Res (Struct fs) :=
  Filled.entries m (Filled.start fs) >>= Filled.finish fs

/-- The fields of `Scale` (src/image_integration.rs:150-164). -/
def scaleFields : List SField :=
  [.default "BZERO".toList (deserializeAny f64Visitor) (.fin false 0 0),
    .default "BSCALE".toList (deserializeAny f64Visitor) (.fin false 1 0)]

end Fitsrs

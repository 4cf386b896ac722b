import Verif.Model.Card
/-
Model of src/hdu/header/mod.rs: the keyword map of a header and typed access to it.
-/

namespace Fitsrs

/-- `Bitpix` (src/hdu/header/mod.rs:65-74). -/
inductive Bitpix where
  | u8 | i16 | i32 | i64 | f32 | f64
  deriving DecidableEq, Repr

namespace Bitpix

/-- Discriminant of the enumeration (src/hdu/header/mod.rs:67-73). -/
def code : Bitpix → Int
  | u8 => 8 | i16 => 16 | i32 => 32 | i64 => 64 | f32 => -32 | f64 => -64

/-- `Bitpix::byte_size` (src/hdu/header/mod.rs:76-80): absolute value of the discriminant, shifted
right by three. -/
def byteSize (b : Bitpix) : Nat := b.code.natAbs >>> 3

/-- `Deserialize_repr` for `Bitpix`: the variant with the given discriminant. -/
def ofCode (n : Int) : Option Bitpix :=
  if n = 8 then some u8 else if n = 16 then some i16 else if n = 32 then some i32
  else if n = 64 then some i64 else if n = -32 then some f32 else if n = -64 then some f64
  else none

end Bitpix

/-- `ValueMap` (src/hdu/header/mod.rs:82-86): an `IndexMap`, i.e. an association list in insertion
order with distinct keys. -/
abbrev ValueMap := List (Str × Value)

namespace ValueMap

/-- `IndexMap::insert`: replace in place, or add at the end. -/
def insert : ValueMap → Str → Value → ValueMap
  | [], k, v => [(k, v)]
  | (k', v') :: m, k, v => if k' = k then (k, v) :: m else (k', v') :: insert m k v

/-- `ValueMap::get` (src/hdu/header/mod.rs:88-93). -/
def get : ValueMap → Str → Option Value
  | [], _ => none
  | (k', v') :: m, k => if k' = k then some v' else get m k

/-- `ValueMap::keywords` (src/hdu/header/mod.rs:131-135). -/
def keywords (m : ValueMap) : List Str := m.map Prod.fst

/-- `ValueMap::get_keyword` (src/hdu/header/mod.rs:123-126), `eq` being the equality of values (on floating-point numbers
that of `f64`, which is not modelled). -/
def getKeyword (eq : Value → Value → Bool) (m : ValueMap) (v : Value) : Option Str :=
  m.findSome? fun (k, w) => if eq w v then some k else none

/-! `ValueMap::get_parsed` (src/hdu/header/mod.rs:95-109) at the types used by the crate.  Serde's
deserializers accept `visit_i64` for integer types when in range, refuse `visit_f64` for integers,
and accept `visit_i64` for floats; an absent keyword reads as `Undefined` (`visit_unit`). -/

/-- `get_parsed::<i64>`. -/
def getI64 (m : ValueMap) (k : Str) : Res Int :=
  match m.get k with
  | some (.integer n _) => .ok n
  | _ => .err .dynamic

/-- `get_parsed` at an integer type with values in `[lo, hi]`. -/
def getInt (lo hi : Int) (m : ValueMap) (k : Str) : Res Int := do
  let n ← m.getI64 k
  if lo ≤ n ∧ n ≤ hi then .ok n else .err .dynamic

/-- `get_parsed::<u64>`, `get_parsed::<usize>`. -/
def getU64 (m : ValueMap) (k : Str) : Res Nat := do
  let n ← m.getI64 k
  if 0 ≤ n then .ok n.toNat else .err .dynamic

/-- `get_parsed::<u8>`. -/
def getU8 (m : ValueMap) (k : Str) : Res Nat := do
  let n ← m.getInt 0 255 k
  .ok n.toNat

/-- `get_parsed::<Bitpix>`: an `i8` which is one of the discriminants. -/
def getBitpix (m : ValueMap) (k : Str) : Res Bitpix := do
  let n ← m.getInt (-128) 127 k
  match Bitpix.ofCode n with
  | some b => .ok b
  | none => .err .dynamic

/-- `get_parsed::<bool>`. -/
def getBool (m : ValueMap) (k : Str) : Res Bool :=
  match m.get k with
  | some (.logical b _) => .ok b
  | _ => .err .dynamic

/-- `get_parsed::<String>`: strings, and the text of invalid values. -/
def getString (m : ValueMap) (k : Str) : Res Str :=
  match m.get k with
  | some (.string s _) => .ok s
  | some (.invalid s) => .ok s
  | _ => .err .dynamic

/-- `get_parsed::<f64>`: floats, and integers converted (value before rounding). -/
def getF64 (m : ValueMap) (k : Str) : Res Dec :=
  match m.get k with
  | some (.float x _) => .ok x
  | some (.integer n _) => .ok (.fin (n < 0) n.natAbs 0)
  | _ => .err .dynamic

/-- `get_parsed::<Option<T>>`, given `get_parsed::<T>`: absent and undefined values are `None`. -/
def getOpt {α : Type} (f : ValueMap → Str → Res α) (m : ValueMap) (k : Str) : Res (Option α) :=
  match m.get k with
  | none => .ok none
  | some .undefined => .ok none
  | some _ => (f m k).map some

/-- `get_parsed` at an enumeration with `#[derive(Deserialize)]`: every value is handed to a
`visit_*` method that the derived visitor does not implement (it only has `visit_enum`). -/
def getEnum (α : Type) (_ : ValueMap) (_ : Str) : Res α := .err .dynamic

end ValueMap

/-- Loop of `process_cards` (src/hdu/header/mod.rs:250-316): `m` is the map built so far, `kw` the
keyword whose string value is still continued. -/
def processLoop : ValueMap → Option Str → List Card → Res ValueMap
  | _, _, [] => .err (.static "Missing END card")
  | m, kw, c :: cs =>
    match c with
    | .value name v | .hierarch name v =>
      processLoop (m.insert name v) (if v.continued then some name else none) cs
    | .continuation s cm =>
      match kw with
      | some name =>
        match m.get name with
        | some v =>
          match v.append s cm with
          | .ok v' =>
            processLoop (m.insert name v') (if v'.continued then some name else none) cs
          | .err e => .err e
          | .panic => .panic
        | none => .panic
      | none => processLoop m none cs
    | .xtension x _ => processLoop (m.insert "XTENSION".toList (.string x.asStr none)) none cs
    | .end_ => if cs = [] then .ok m else .panic
    | _ => processLoop m kw cs

/-- `process_cards` (src/hdu/header/mod.rs:250-316). -/
def processCards (cards : List Card) : Res ValueMap := processLoop [] none cards

/-- `Header<X>` (src/hdu/header/mod.rs:186-202). -/
structure Header (X : Type) where
  cards : List Card
  values : ValueMap
  xtension : X
  deriving DecidableEq, Repr

/-- `Header::parse` (src/hdu/header/mod.rs:216-226), for the parser `parse` of the extension. -/
def Header.parse {X : Type} (parse : ValueMap → Res X) (cards : List Card) : Res (Header X) := do
  let values ← processCards cards
  let xtension ← parse values
  .ok { cards, values, xtension }

/-- `Header::history` (src/hdu/header/mod.rs:238-247). -/
def Header.history {X : Type} (h : Header X) : List Str :=
  h.cards.filterMap fun
    | .history s => some s
    | _ => none

end Fitsrs

import Verif.Model.Text
/-
Model of src/card.rs: the 80-byte records of a header.
-/

namespace Fitsrs

/-- `XtensionType` (src/hdu/header/extension/mod.rs:13-18). -/
inductive XtensionType where
  | image
  | binTable
  | asciiTable
  deriving DecidableEq, Repr

namespace XtensionType

/-- `XtensionType::as_str` (src/hdu/header/extension/mod.rs:20-28). -/
def asStr : XtensionType → Str
  | image => "IMAGE".toList
  | binTable => "BINTABLE".toList
  | asciiTable => "TABLE".toList

/-- `XtensionType::from_str` (src/hdu/header/extension/mod.rs:36-47). -/
def fromStr (s : Str) : Res XtensionType :=
  if s = "IMAGE".toList ∨ s = "IUEIMAGE".toList then .ok image
  else if s = "TABLE".toList then .ok asciiTable
  else if s = "BINTABLE".toList then .ok binTable
  else .err .notSupportedXtensionType

end XtensionType

/-- `Value` (src/card.rs:422-448). -/
inductive Value where
  | integer (value : Int) (comment : Option Str)
  | float (value : Dec) (comment : Option Str)
  | logical (value : Bool) (comment : Option Str)
  | string (value : Str) (comment : Option Str)
  | undefined
  | invalid (s : Str)
  deriving DecidableEq, Repr

/-- `Card` (src/card.rs:12-39). -/
inductive Card where
  | value (name : Str) (value : Value)
  | continuation (string : Option Str) (comment : Option Str)
  | xtension (x : XtensionType) (comment : Option Str)
  | comment (text : Str)
  | history (text : Str)
  | hierarch (name : Str) (value : Value)
  | space
  | end_
  | undefined (text : Str)
  deriving DecidableEq, Repr

/-- Printable ASCII, `' '..='~'` (src/card.rs:351, 380). -/
def isPrintable (c : Char) : Bool := ' ' ≤ c && c ≤ '~'

/-- The loop of `split_value_and_comment` (src/card.rs:325-370): `tic`/`toc` automaton.  Returns the
value characters pushed so far and, if the loop stopped at a slash, the characters after that
slash.  (The Rust code remembers the character index of the slash and later skips `slash + 1`
characters, which is the same remainder.) -/
def splitLoop : (tic toc : Bool) → Str → Res (Str × Option Str)
  | _, _, [] => .ok ([], none)
  | tic, toc, c :: cs =>
    let push (c : Char) (r : Res (Str × Option Str)) : Res (Str × Option Str) :=
      r.map fun (v, rest) => (c :: v, rest)
    if c = '\'' then
      match tic, toc with
      | true, true => splitLoop true false cs
      | true, false => push '\'' (splitLoop true true cs)
      | false, false => push '\'' (splitLoop true false cs)
      | false, true => .panic
    else if c = '/' then
      match tic, toc with
      | true, false => push '/' (splitLoop true false cs)
      | true, true => .ok ([], some cs)
      | false, false => .ok ([], some cs)
      | false, true => .panic
    else if isPrintable c then
      if toc then push c (splitLoop false false cs) else push c (splitLoop tic toc cs)
    else if tic then push replacement (splitLoop tic toc cs)
    else .err (.static "invalid character in value")

/-- `split_value_and_comment` (src/card.rs:315-387). -/
def splitValueAndComment (buf : List UInt8) : Res (Str × Option Str) :=
  (splitLoop false false (utf8Lossy (trimAscii buf))).map fun (v, rest) =>
    match rest with
    | none => (trimStr v, none)
    | some cs =>
      (trimStr v, some (trimEndStr (cs.map fun c => if isPrintable c then c else replacement)))

/-- `parse_string` (src/card.rs:276-296).  The slice `[1..len - 1]` panics on a string of length
one. -/
def parseString (s : Str) : Res Str :=
  let startQuote := s.head? = some '\''
  let endQuote := s.getLast? = some '\''
  let inner : Res Str :=
    if startQuote ∧ endQuote then
      if s.length = 1 then .panic else .ok (s.drop 1).dropLast
    else if ¬ startQuote ∧ ¬ endQuote then .ok s
    else if startQuote then .err (.static "missing single quote at end")
    else .err (.static "missing single quote at start")
  inner.map fun v =>
    if v = [] then []
    else
      let t := trimEndStr v
      if t = [] then [' '] else t

/-- `parse_number` (src/card.rs:245-272). -/
def parseNumber (v : Str) (c : Option Str) : Value :=
  if v = [] then .undefined
  else match parseI64 v with
    | some n => .integer n c
    | none =>
      match parseF64 v with
      | some x => .float x c
      | none =>
        let v' := v.map fun ch => if ch = 'D' then 'E' else ch
        match parseF64 v' with
        | some x => .float x c
        | none => .invalid v'

/-- `parse_value` (src/card.rs:218-241). -/
def parseValue (buf : List UInt8) : Res Value := do
  let (v, c) ← splitValueAndComment buf
  match v with
  | [] => .ok .undefined
  | ch :: _ =>
    if ch = '\'' then (parseString v).map fun s => .string s c
    else if ch = 'T' then .ok (.logical true c)
    else if ch = 'F' then .ok (.logical false c)
    else if ch = '(' then .err (.static "Complex values not yet supported")
    else if isDigit ch || ch = '-' || ch = '+' || ch = '.' then .ok (parseNumber v c)
    else .ok (.invalid (utf8Lossy buf))

/-- `parse_extension` (src/card.rs:175-185).  The slice `[1..end]` panics on a lone quote. -/
def parseExtension (buf : List UInt8) : Res Card := do
  let (value, comment) ← splitValueAndComment (buf.drop 10)
  if value.head? = some '\'' ∧ value.getLast? = some '\'' then
    if value.length = 1 then .panic
    else (XtensionType.fromStr (trimAsciiStr (value.drop 1).dropLast)).map fun x =>
      .xtension x comment
  else .err .dynamic

/-- The non-empty pieces of a byte string split at ASCII white space
(`split(..).filter(|s| !s.is_empty())`, src/card.rs:192-193). -/
def tokens (buf : List UInt8) : List (List UInt8) :=
  (buf.splitOnP isAsciiWs).filter (· ≠ [])

/-- The decoded tokens joined by dots (`reduce`, src/card.rs:194-199). -/
def joinDots : List Str → Str
  | [] => []
  | [s] => s
  | s :: t => s ++ '.' :: joinDots t

/-- `parse_hierarch` (src/card.rs:187-215). -/
def parseHierarch (buf : List UInt8) : Res Card :=
  let rest := buf.drop 9
  if (0x3D : UInt8) ∈ rest then
    let kw := rest.takeWhile (· != 0x3D)
    let val := (rest.dropWhile (· != 0x3D)).drop 1
    match tokens kw with
    | [] => .err .dynamic
    | ts => (parseValue val).map fun v => .hierarch (joinDots (ts.map utf8Lossy)) v
  else .err .dynamic

/-- `parse_continuation` (src/card.rs:389-393). -/
def parseContinuation (buf : List UInt8) : Res Card := do
  let (value, comment) ← splitValueAndComment (buf.drop 8)
  (parseString value).map fun s => .continuation (some s) comment

/-- `parse_comment_text` (src/card.rs:395-407). -/
def parseCommentText (buf : List UInt8) : Str :=
  trimAsciiEndStr (buf.map fun b =>
    if 0x20 ≤ b.toNat ∧ b.toNat ≤ 0x7E then Char.ofNat b.toNat else replacement)

/-- `parse_empty_keyword_card` (src/card.rs:412-419). -/
def parseEmptyKeywordCard (buf : List UInt8) : Card :=
  let c := parseCommentText (buf.drop 8)
  if c = [] then .space else .comment c

/-- `TryFrom<&CardBuf> for Card` (src/card.rs:146-173), `buf` being the 80 bytes of the record. -/
def Card.tryFrom (buf : List UInt8) : Res Card :=
  match utf8Strict (trimAscii (buf.take 8)) with
  | none => .err .utf8
  | some kw =>
    if kw = [] then .ok (parseEmptyKeywordCard buf)
    else if kw = "COMMENT".toList then .ok (.comment (parseCommentText (buf.drop 8)))
    else if kw = "HISTORY".toList then .ok (.history (parseCommentText (buf.drop 8)))
    else if kw = "CONTINUE".toList then parseContinuation buf
    else if kw = "XTENSION".toList then parseExtension buf
    else if kw = "HIERARCH".toList then parseHierarch buf
    else if kw = "END".toList then .ok .end_
    else if (buf.drop 8).take 2 = [0x3D, 0x20] then
      (parseValue (buf.drop 10)).map fun v => .value kw v
    else .ok (.undefined (utf8Lossy buf))

/-- `Value::continued` (src/card.rs:460-467). -/
def Value.continued : Value → Bool
  | .string s _ => s.getLast? = some '&'
  | _ => false

/-- `Card::continued` (src/card.rs:46-61). -/
def Card.continued : Card → Bool
  | .value _ v => v.continued
  | .hierarch _ v => v.continued
  | .continuation (some s) _ => s.getLast? = some '&'
  | _ => false

/-- `append_string` (src/card.rs:121-137).  The string must end with an ampersand
(`debug_assert!`; without it the last byte is cut off whatever it is, which is not modelled: panic). -/
def appendString (value : Str) (v : Option Str) : Res Str :=
  if value.getLast? = some '&' then
    let base := value.dropLast
    match v with
    | some s => if s = [] ∨ s = [' '] then .ok (trimEndStr base) else .ok (base ++ s)
    | none => .ok (trimEndStr base)
  else .panic

/-- `append_comment` (src/card.rs:139-144) and its use in `Value::append` (src/card.rs:534-546). -/
def appendComment (comment c : Option Str) : Option Str :=
  match comment with
  | none => c
  | some d =>
    match c with
    | some e => some (d ++ '\n' :: e)
    | none => some d

/-- `Value::append` (src/card.rs:534-546). -/
def Value.append (self : Value) (v c : Option Str) : Res Value :=
  match self with
  | .string value comment => (appendString value v).map fun s => .string s (appendComment comment c)
  | _ => .panic

/-- `parse_unit` (src/card.rs:517-531). -/
def parseUnit : Option Str → Option Str
  | some ('[' :: t) => if ']' ∈ t then some (t.takeWhile (· ≠ ']')) else none
  | _ => none

/-- `Value::unit` (src/card.rs:450-458). -/
def Value.unit : Value → Option Str
  | .integer _ c | .float _ c | .string _ c | .logical _ c => parseUnit c
  | _ => none

/-- `Card::append` (src/card.rs:78-97). -/
def Card.append (self r : Card) : Res Card :=
  if self.continued then
    match r with
    | .continuation s c =>
      match self with
      | .value n v => (v.append s c).map (.value n)
      | .hierarch n v => (v.append s c).map (.hierarch n)
      | _ => .panic
    | _ => .panic
  else .panic

end Fitsrs

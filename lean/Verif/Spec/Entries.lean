import Verif.Model.Card
/-
What the cards of a header say about keywords, independently of the way the map is built.
-/

namespace Fitsrs.Spec

/-- The comments of a continued value are put on separate lines. -/
def joinComments : Option Str → Option Str → Option Str
  | none, d => d
  | some c, none => some c
  | some c, some d => some (c ++ ['\n'] ++ d)

/-- The effect of a `CONTINUE` record on a value: if the value is a string ending with an ampersand, the
ampersand is replaced by the text (by nothing, trailing blanks being dropped, if the text is blank).  `none`:
the value is not continued. -/
def joined : Value → Option Str → Option Str → Option Value
  | .string s c, text, d =>
    if s.getLast? = some '&' then
      some (.string
        (if text ∈ [none, some [], some [' ']] then trimEndStr s.dropLast else s.dropLast ++ text.getD [])
        (joinComments c d))
    else none
  | _, _, _ => none

/-- A value extended by the `CONTINUE` records that follow it; other records without a value may be
interspersed. -/
def extend : Value → List Card → Value
  | v, [] => v
  | v, .continuation s c :: cs =>
    match joined v s c with
    | some w => extend w cs
    | none => v
  | v, .value _ _ :: _ => v
  | v, .hierarch _ _ :: _ => v
  | v, .xtension _ _ :: _ => v
  | v, .end_ :: _ => v
  | v, .comment _ :: cs => extend v cs
  | v, .history _ :: cs => extend v cs
  | v, .space :: cs => extend v cs
  | v, .undefined _ :: cs => extend v cs

/-- The names given by the `XTENSION` cards. -/
def xtensionName : XtensionType → Str
  | .image => "IMAGE".toList
  | .binTable => "BINTABLE".toList
  | .asciiTable => "TABLE".toList

/-- The keywords given a value by the cards, in order, with these values. -/
def entries : List Card → List (Str × Value)
  | [] => []
  | .value n v :: cs => (n, extend v cs) :: entries cs
  | .hierarch n v :: cs => (n, extend v cs) :: entries cs
  | .xtension x _ :: cs => ("XTENSION".toList, .string (xtensionName x) none) :: entries cs
  | _ :: cs => entries cs

/-- The last value given to a keyword. -/
def lastValue (es : List (Str × Value)) (k : Str) : Option Value :=
  ((es.filter fun e => e.1 = k).getLast?).map Prod.snd

/-- The names in order of first appearance, each one once. -/
def firsts (l : List Str) : List Str := l.foldl (fun acc k => if k ∈ acc then acc else acc ++ [k]) []

end Fitsrs.Spec

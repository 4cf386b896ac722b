import Verif.Model.Fits
import Verif.Model.Keyword
/-
The unit tests of the library that need no sample file, run on the model: evidence that the model is the code.  These are
tests, not properties.  Each `example` cites the test it repeats.  Floating-point values are compared as decimal numbers.
-/

namespace Fitsrs.Upstream

/-- `mock_fits_data` (src/hdu/header/mod.rs:659-668): the records in a block of blanks. -/
def mockFile (cards : List (List UInt8)) : List UInt8 :=
  cards.flatten ++ List.replicate (2880 - cards.flatten.length) 32

/-- Joining cards one after the other (`Card::splice`, src/card.rs:115-118). -/
def splices : Res Card → List (Res Card) → Res Card
  | r, [] => r
  | r, c :: cs => splices (r >>= fun a => c >>= fun b => a.append b) cs

/-- The cards and the history of the primary HDU, if it is returned. -/
def primaryCards (p : Profile) (file : List UInt8) : Option (List Card × List Str) :=
  match ((Fits.fromReader ⟨file, 0⟩).next p).1 with
  | some (.ok (.primary h)) => some (h.header.cards, h.header.history)
  | _ => none

/-- The call returned an error. -/
def isError : Option (Res HDU) → Bool
  | some (.err _) => true
  | _ => false

set_option maxRecDepth 20000

/-- `strings` (src/card.rs:568-640): null FITS string should return empty string. -/
example : parseString "''".toList = .ok "".toList := by decide +kernel

/-- `strings` (src/card.rs:568-640): null FITS comment should return empty string. -/
example : parseString "".toList = .ok "".toList := by decide +kernel

/-- `strings` (src/card.rs:568-640): empty FITS string should return single space. -/
example : parseString "' '".toList = .ok " ".toList := by decide +kernel

/-- `strings` (src/card.rs:568-640): empty FITS comment should return single space. -/
example : parseString " ".toList = .ok " ".toList := by decide +kernel

/-- `strings` (src/card.rs:568-640): empty FITS string should return single space. -/
example : parseString "'     '".toList = .ok " ".toList := by decide +kernel

/-- `strings` (src/card.rs:568-640): empty FITS comment should return single space. -/
example : parseString "        ".toList = .ok " ".toList := by decide +kernel

/-- `strings` (src/card.rs:568-640): quotes should be removed. -/
example : parseString "'some string'".toList = .ok "some string".toList := by decide +kernel

/-- `strings` (src/card.rs:568-640): trailing space should be removed. -/
example : parseString "'some string   '".toList = .ok "some string".toList := by decide +kernel

/-- `strings` (src/card.rs:568-640): trailing space should be removed. -/
example : parseString "some string   ".toList = .ok "some string".toList := by decide +kernel

/-- `strings` (src/card.rs:568-640): quotes should be preserved. -/
example : parseString "''some' 'string''".toList = .ok "'some' 'string'".toList := by decide +kernel

/-- `strings` (src/card.rs:568-640): leading space should be kept. -/
example : parseString "'    some string'".toList = .ok "    some string".toList := by decide +kernel

/-- `strings` (src/card.rs:568-640): leading space should be kept. -/
example : parseString "    some string".toList = .ok "    some string".toList := by decide +kernel

/-- `strings` (src/card.rs:568-640). -/
example : parseString "'missing end quote".toList = .err (.static "missing single quote at end") := by decide +kernel

/-- `strings` (src/card.rs:568-640). -/
example : parseString "missing start quote'".toList = .err (.static "missing single quote at start") := by decide +kernel

/-- `number_values` (src/card.rs:643-681). -/
example : parseNumber "42".toList none = .integer 42 none := by decide +kernel

/-- `number_values` (src/card.rs:643-681). -/
example : parseNumber "42.".toList none = .float (.fin false 42 0) none := by decide +kernel

/-- `number_values` (src/card.rs:643-681). -/
example : parseNumber ".42".toList none = .float (.fin false 42 (-2)) none := by decide +kernel

/-- `number_values` (src/card.rs:643-681). -/
example : parseNumber "4E2".toList none = .float (.fin false 4 2) none := by decide +kernel

/-- `number_values` (src/card.rs:643-681). -/
example : parseNumber "4D2".toList none = .float (.fin false 4 2) none := by decide +kernel

/-- `forward_slash` (src/card.rs:722). -/
example : splitValueAndComment [39, 83, 116, 114, 105, 110, 103, 32, 118, 97, 108, 117, 101, 32, 119, 105, 116, 104,
      111, 117, 116, 32, 99, 111, 109, 109, 101, 110, 116, 39] =
    .ok ("'String value without comment'".toList, none) := by decide +kernel

/-- `forward_slash` (src/card.rs:722). -/
example : splitValueAndComment [39, 39, 32, 47, 32, 67, 111, 109, 109, 101, 110, 116, 32, 119, 105, 116, 104, 32,
      110, 117, 108, 108, 32, 115, 116, 114, 105, 110, 103] =
    .ok ("''".toList, (some " Comment with null string".toList)) := by decide +kernel

/-- `forward_slash` (src/card.rs:722). -/
example : splitValueAndComment [39, 32, 39, 32, 47, 32, 67, 111, 109, 109, 101, 110, 116, 32, 119, 105, 116, 104, 32,
      101, 109, 112, 116, 121, 32, 115, 116, 114, 105, 110, 103] =
    .ok ("' '".toList, (some " Comment with empty string".toList)) := by decide +kernel

/-- `forward_slash` (src/card.rs:722). -/
example : splitValueAndComment [39, 83, 116, 114, 105, 110, 103, 32, 118, 97, 108, 117, 101, 32, 39, 32, 47, 32, 97,
      110, 100, 32, 97, 32, 99, 111, 109, 109, 101, 110, 116] =
    .ok ("'String value '".toList, (some " and a comment".toList)) := by decide +kernel

/-- `forward_slash` (src/card.rs:722). -/
example : splitValueAndComment [39, 83, 116, 114, 105, 110, 103, 32, 118, 97, 108, 117, 101, 32, 119, 105, 116, 104,
      32, 101, 109, 98, 101, 100, 100, 101, 100, 32, 47, 39, 32, 47, 32, 97, 110, 100, 32, 97, 32, 99, 111, 109, 109,
      101, 110, 116] =
    .ok ("'String value with embedded /'".toList, (some " and a comment".toList)) := by decide +kernel

/-- `forward_slash` (src/card.rs:722). -/
example : splitValueAndComment [32, 32, 32, 32, 39, 70, 114, 101, 101, 45, 115, 116, 114, 105, 110, 103, 39, 32, 32,
      32, 32, 32, 47, 32, 32, 32, 119, 105, 116, 104, 32, 99, 111, 109, 109, 101, 110, 116] =
    .ok ("'Free-string'".toList, (some "   with comment".toList)) := by decide +kernel

/-- `invalid_characters` (src/card.rs:759). -/
example : splitValueAndComment [39, 83, 116, 114, 105, 110, 103, 32, 119, 105, 116, 104, 32, 10, 32, 110, 101, 119,
      108, 105, 110, 101, 39] =
    .ok ("'String with � newline'".toList, none) := by decide +kernel

/-- `invalid_characters` (src/card.rs:759). -/
example : splitValueAndComment [39, 240, 159, 152, 136, 39, 32, 47, 32, 84, 104, 101, 32, 100, 101, 118, 105, 108,
      32, 105, 115, 32, 105, 110, 32, 116, 104, 101, 32, 100, 101, 116, 97, 105, 108, 115, 33] =
    .ok ("'�'".toList, (some " The devil is in the details!".toList)) := by decide +kernel

/-- `invalid_characters` (src/card.rs:759). -/
example : splitValueAndComment [39, 39, 74, 117, 115, 116, 39, 32, 115, 109, 105, 108, 101, 32, 240, 159, 152, 128,
      39, 32, 47, 32, 119, 105, 116, 104, 32, 10, 32, 110, 101, 119, 108, 105, 110, 101, 32, 97, 110, 100, 32, 9, 32,
      116, 97, 98, 32, 105, 110, 32, 99, 111, 109, 109, 101, 110, 116] =
    .ok ("''Just' smile �'".toList, (some " with � newline and � tab in comment".toList)) := by decide +kernel

/-- `string_tic_escape` (src/card.rs:776). -/
example : splitValueAndComment [39, 69, 115, 99, 97, 112, 101, 100, 32, 39, 39, 116, 105, 99, 115, 39, 39, 39, 32,
      47, 32, 99, 111, 109, 109, 101, 110, 116] =
    .ok ("'Escaped 'tics''".toList, (some " comment".toList)) := by decide +kernel

/-- The example in the documentation of `split_value_and_comment` (src/card.rs:308-314). -/
example : splitValueAndComment [39, 39, 115, 116, 114, 105, 110, 103, 39, 32, 119, 105, 116, 104, 32, 9, 44, 32, 47,
      44, 32, 97, 110, 100, 32, 39, 39, 108, 101, 97, 100, 105, 110, 103, 39, 39, 32, 97, 110, 100, 32, 39, 39, 116,
      114, 97, 105, 108, 105, 110, 103, 39, 39, 32, 39, 39, 39, 32, 47, 32, 10, 97, 110, 100, 32, 97, 32, 99, 111,
      109, 109, 101, 110, 116, 32, 32, 32, 32] =
    .ok ("''string' with �, /, and 'leading' and 'trailing' ''".toList, (some " �and a comment".toList)) := by decide +kernel

/-- `comment_card` (src/card.rs:709). -/
example : Card.tryFrom [67, 79, 77, 77, 69, 78, 84, 32, 99, 111, 109, 109, 101, 110, 116, 32, 115, 116, 97, 114, 116,
      115, 32, 47, 32, 101, 110, 100, 115, 32, 104, 101, 114, 101, 46, 46, 46, 10, 32, 32, 32, 32, 32, 32, 32, 32,
      32, 32, 32, 32, 32, 32, 32, 32, 32, 32, 32, 32, 32, 32, 32, 32, 32, 32, 32, 32, 32, 32, 32, 32, 32, 32, 32, 32,
      32, 32, 32, 32, 32, 32] =
    .ok (.comment "comment starts / ends here...�".toList) := by decide +kernel

/-- `trailing_ampersand` (src/card.rs:788). -/
example : Card.tryFrom [83, 84, 82, 75, 69, 89, 32, 32, 61, 32, 39, 84, 114, 97, 105, 108, 105, 110, 103, 32, 97,
      109, 112, 101, 114, 115, 97, 110, 100, 32, 115, 104, 111, 117, 108, 100, 32, 98, 101, 32, 112, 114, 101, 115,
      101, 114, 118, 101, 100, 38, 39, 32, 32, 32, 32, 32, 32, 32, 32, 32, 32, 32, 32, 32, 32, 32, 32, 32, 32, 32,
      32, 32, 32, 32, 32, 32, 32, 32, 32, 32] =
    .ok (.value "STRKEY".toList (.string "Trailing ampersand should be preserved&".toList none)) := by decide +kernel

/-- `xtension_card` (src/card.rs:794). -/
example : Card.tryFrom [88, 84, 69, 78, 83, 73, 79, 78, 61, 32, 39, 84, 65, 66, 76, 69, 32, 32, 32, 39, 32, 47, 32,
      97, 110, 32, 101, 120, 116, 101, 110, 115, 105, 111, 110, 32, 116, 97, 98, 108, 101, 32, 32, 32, 32, 32, 32,
      32, 32, 32, 32, 32, 32, 32, 32, 32, 32, 32, 32, 32, 32, 32, 32, 32, 32, 32, 32, 32, 32, 32, 32, 32, 32, 32, 32,
      32, 32, 32, 32, 32] =
    .ok (.xtension .asciiTable (some " an extension table".toList)) := by decide +kernel

/-- `empty_keyword_card` (src/card.rs:806). -/
example : parseEmptyKeywordCard [32, 32, 32, 32, 32, 32, 32, 32, 101, 109, 112, 116, 121, 32, 104, 101, 97, 100, 101,
      114, 32, 99, 111, 109, 109, 101, 110, 116, 32, 119, 105, 116, 104, 32, 97, 110, 32, 105, 108, 108, 101, 103,
      97, 108, 32, 9, 32, 116, 97, 98, 32, 97, 110, 100, 32, 10, 32, 110, 101, 119, 108, 105, 110, 101, 32, 32, 32,
      32, 32, 32, 32, 32, 32, 32, 32, 32, 32, 32, 32, 32] =
    .comment "empty header comment with an illegal � tab and � newline".toList := by decide +kernel

/-- `empty_keyword_card` (src/card.rs:806). -/
example : parseEmptyKeywordCard (List.replicate 80 32) = .space := by decide +kernel

/-- `undefined_card` (src/card.rs:819). -/
example : Card.tryFrom [83, 79, 77, 69, 75, 69, 89, 32, 32, 32, 119, 104, 105, 99, 104, 32, 105, 115, 32, 110, 111,
      116, 32, 97, 32, 118, 97, 108, 117, 101, 32, 97, 115, 32, 105, 116, 32, 100, 111, 101, 115, 32, 110, 111, 116,
      32, 104, 97, 118, 101, 32, 39, 61, 32, 39, 32, 97, 116, 32, 112, 111, 115, 32, 57, 32, 97, 110, 100, 32, 49,
      48, 32, 32, 32, 32, 32, 32, 32, 32, 32] =
    .ok (.undefined "SOMEKEY   which is not a value as it does not have '= ' at pos 9 and 10         ".toList) := by decide +kernel

/-- `string_value_trimming` (src/card.rs:832). -/
example : Card.tryFrom [83, 84, 82, 75, 69, 89, 32, 32, 61, 32, 39, 84, 114, 97, 105, 108, 105, 110, 103, 32, 115,
      112, 97, 99, 101, 32, 115, 104, 111, 117, 108, 100, 32, 98, 101, 32, 114, 101, 109, 111, 118, 101, 100, 46, 32,
      32, 32, 32, 32, 32, 32, 32, 32, 39, 32, 32, 32, 32, 32, 32, 32, 32, 32, 32, 32, 32, 32, 32, 32, 32, 32, 32, 32,
      32, 32, 32, 32, 32, 32, 32] =
    .ok (.value "STRKEY".toList (.string "Trailing space should be removed.".toList none)) := by decide +kernel

/-- `string_value_trimming` (src/card.rs:832). -/
example : Card.tryFrom [83, 84, 82, 75, 69, 89, 32, 32, 61, 32, 39, 32, 32, 32, 32, 32, 32, 32, 76, 101, 97, 100,
      105, 110, 103, 32, 115, 112, 97, 99, 101, 32, 115, 104, 111, 117, 108, 100, 32, 98, 101, 32, 112, 114, 101,
      115, 101, 114, 118, 101, 100, 46, 39, 32, 32, 32, 32, 32, 32, 32, 32, 32, 32, 32, 32, 32, 32, 32, 32, 32, 32,
      32, 32, 32, 32, 32, 32, 32, 32, 32] =
    .ok (.value "STRKEY".toList (.string "       Leading space should be preserved.".toList none)) := by decide +kernel

/-- `string_value_trimming` (src/card.rs:832). -/
example : Card.tryFrom [83, 84, 82, 75, 69, 89, 32, 32, 61, 32, 39, 39, 32, 32, 32, 32, 32, 32, 32, 32, 32, 32, 32,
      32, 32, 32, 32, 32, 32, 32, 32, 32, 32, 32, 32, 32, 32, 32, 32, 32, 32, 32, 32, 32, 32, 32, 32, 32, 32, 32, 32,
      32, 32, 32, 32, 32, 32, 32, 32, 32, 32, 32, 32, 32, 32, 32, 32, 32, 32, 32, 32, 32, 32, 32, 32, 32, 32, 32, 32,
      32] =
    .ok (.value "STRKEY".toList (.string "".toList none)) := by decide +kernel

/-- `string_value_trimming` (src/card.rs:832). -/
example : Card.tryFrom [83, 84, 82, 75, 69, 89, 32, 32, 61, 32, 39, 32, 32, 32, 32, 32, 32, 32, 32, 39, 32, 32, 32,
      32, 32, 32, 32, 32, 32, 32, 32, 32, 32, 32, 32, 32, 32, 32, 32, 32, 32, 32, 32, 32, 32, 32, 32, 32, 32, 32, 32,
      32, 32, 32, 32, 32, 32, 32, 32, 32, 32, 32, 32, 32, 32, 32, 32, 32, 32, 32, 32, 32, 32, 32, 32, 32, 32, 32, 32,
      32] =
    .ok (.value "STRKEY".toList (.string " ".toList none)) := by decide +kernel

/-- `logic_value` (src/card.rs:853). -/
example : Card.tryFrom [83, 84, 82, 75, 69, 89, 32, 32, 61, 32, 32, 32, 32, 32, 32, 32, 32, 32, 32, 32, 32, 32, 32,
      32, 32, 32, 32, 32, 32, 84, 32, 47, 32, 97, 32, 116, 114, 117, 101, 32, 115, 116, 97, 116, 101, 109, 101, 110,
      116, 33, 32, 32, 32, 32, 32, 32, 32, 32, 32, 32, 32, 32, 32, 32, 32, 32, 32, 32, 32, 32, 32, 32, 32, 32, 32,
      32, 32, 32, 32, 32] =
    .ok (.value "STRKEY".toList (.logical true (some " a true statement!".toList))) := by decide +kernel

/-- `long_string_value` (src/card.rs:878). -/
example : splices (Card.tryFrom [83, 84, 82, 75, 69, 89, 32, 32, 61, 32, 39, 84, 104, 105, 115, 32, 107, 101, 121,
      119, 111, 114, 100, 32, 118, 97, 108, 117, 101, 32, 105, 115, 32, 99, 111, 110, 116, 105, 110, 117, 101, 100,
      38, 39, 32, 32, 32, 32, 32, 32, 32, 32, 32, 32, 32, 32, 32, 32, 32, 32, 32, 32, 32, 32, 32, 32, 32, 32, 32, 32,
      32, 32, 32, 32, 32, 32, 32, 32, 32, 32])
    [Card.tryFrom [67, 79, 78, 84, 73, 78, 85, 69, 32, 39, 32, 111, 118, 101, 114, 32, 109, 117, 108, 116, 105, 112,
      108, 101, 32, 107, 101, 121, 119, 111, 114, 100, 32, 99, 97, 114, 100, 115, 46, 32, 38, 39, 32, 32, 32, 32, 32,
      32, 32, 32, 32, 32, 32, 32, 32, 32, 32, 32, 32, 32, 32, 32, 32, 32, 32, 32, 32, 32, 32, 32, 32, 32, 32, 32, 32,
      32, 32, 32, 32, 32],
     Card.tryFrom [67, 79, 78, 84, 73, 78, 85, 69, 32, 39, 38, 39, 32, 47, 32, 84, 104, 101, 32, 99, 111, 109, 109,
      101, 110, 116, 32, 102, 105, 101, 108, 100, 32, 102, 111, 114, 32, 116, 104, 105, 115, 32, 32, 32, 32, 32, 32,
      32, 32, 32, 32, 32, 32, 32, 32, 32, 32, 32, 32, 32, 32, 32, 32, 32, 32, 32, 32, 32, 32, 32, 32, 32, 32, 32, 32,
      32, 32, 32, 32, 32],
     Card.tryFrom [67, 79, 78, 84, 73, 78, 85, 69, 32, 39, 38, 39, 32, 47, 32, 107, 101, 121, 119, 111, 114, 100, 32,
      105, 115, 32, 97, 108, 115, 111, 32, 99, 111, 110, 116, 105, 110, 117, 101, 100, 32, 32, 32, 32, 32, 32, 32,
      32, 32, 32, 32, 32, 32, 32, 32, 32, 32, 32, 32, 32, 32, 32, 32, 32, 32, 32, 32, 32, 32, 32, 32, 32, 32, 32, 32,
      32, 32, 32, 32, 32],
     Card.tryFrom [67, 79, 78, 84, 73, 78, 85, 69, 32, 39, 39, 32, 47, 32, 111, 118, 101, 114, 32, 109, 117, 108,
      116, 105, 112, 108, 101, 32, 99, 97, 114, 100, 115, 46, 32, 32, 32, 32, 32, 32, 32, 32, 32, 32, 32, 32, 32, 32,
      32, 32, 32, 32, 32, 32, 32, 32, 32, 32, 32, 32, 32, 32, 32, 32, 32, 32, 32, 32, 32, 32, 32, 32, 32, 32, 32, 32,
      32, 32, 32, 32]] =
    .ok (.value "STRKEY".toList (.string "This keyword value is continued over multiple keyword cards.".toList
      (some " The comment field for this\n keyword is also continued\n over multiple cards.".toList))) := by decide +kernel

/-- `hierarch_keyword_record` (src/card.rs:922). -/
example : Card.tryFrom [72, 73, 69, 82, 65, 82, 67, 72, 32, 69, 83, 79, 32, 84, 69, 76, 32, 70, 79, 67, 85, 32, 83,
      67, 65, 76, 69, 32, 61, 32, 49, 46, 52, 56, 57, 32, 47, 32, 40, 100, 101, 103, 47, 109, 41, 32, 70, 111, 99,
      117, 115, 32, 108, 101, 110, 103, 116, 104, 32, 61, 32, 53, 46, 51, 54, 34, 47, 109, 109, 32, 32, 32, 32, 32,
      32, 32, 32, 32, 32, 32] =
    .ok (.hierarch "ESO.TEL.FOCU.SCALE".toList (.float (.fin false 1489 (-3))
      (some " (deg/m) Focus length = 5.36\"/mm".toList))) := by decide +kernel

/-- `card_keyword` (src/hdu/header/mod.rs:340). -/
example : checkCardKeyword [83, 84, 82, 75, 69, 89, 32, 32, 61, 32, 39, 83, 111, 109, 101, 32, 116, 101, 120, 116,
      39, 32, 32, 32, 32, 32, 32, 32, 32, 32, 32, 32, 32, 32, 32, 32, 32, 32, 32, 32, 32, 32, 32, 32, 32, 32, 32, 32,
      32, 32, 32, 32, 32, 32, 32, 32, 32, 32, 32, 32, 32, 32, 32, 32, 32, 32, 32, 32, 32, 32, 32, 32, 32, 32, 32, 32,
      32, 32, 32, 32]
    [83, 84, 82, 75, 69, 89, 32, 32] = .ok (.string "Some text".toList none) := by decide +kernel

/-- The records of `primary_hdu_without_simple_keyword` (src/hdu/header/mod.rs:351). -/
def wrongKwFile : List UInt8 :=
  mockFile
    [[87, 82, 79, 78, 71, 75, 87, 32, 61, 32, 32, 32, 32, 32, 32, 32, 32, 32, 32, 32, 32, 32, 32, 32, 32, 32, 32, 32,
      32, 84, 32, 47, 32, 116, 104, 105, 115, 32, 105, 115, 32, 97, 32, 102, 97, 107, 101, 32, 70, 73, 84, 83, 32,
      102, 105, 108, 101, 32, 32, 32, 32, 32, 32, 32, 32, 32, 32, 32, 32, 32, 32, 32, 32, 32, 32, 32, 32, 32, 32, 32],
     [66, 73, 84, 80, 73, 88, 32, 32, 61, 32, 32, 32, 32, 32, 32, 32, 32, 32, 32, 32, 32, 32, 32, 32, 32, 32, 32, 32,
      32, 56, 32, 47, 32, 98, 121, 116, 101, 32, 115, 105, 122, 101, 100, 32, 110, 117, 109, 98, 101, 114, 115, 32,
      32, 32, 32, 32, 32, 32, 32, 32, 32, 32, 32, 32, 32, 32, 32, 32, 32, 32, 32, 32, 32, 32, 32, 32, 32, 32, 32, 32],
     [78, 65, 88, 73, 83, 32, 32, 32, 61, 32, 32, 32, 32, 32, 32, 32, 32, 32, 32, 32, 32, 32, 32, 32, 32, 32, 32, 32,
      32, 48, 32, 47, 32, 110, 111, 32, 100, 97, 116, 97, 32, 97, 114, 114, 97, 121, 115, 32, 32, 32, 32, 32, 32, 32,
      32, 32, 32, 32, 32, 32, 32, 32, 32, 32, 32, 32, 32, 32, 32, 32, 32, 32, 32, 32, 32, 32, 32, 32, 32, 32],
     [69, 78, 68, 32, 32, 32, 32, 32, 32, 32, 32, 32, 32, 32, 32, 32, 32, 32, 32, 32, 32, 32, 32, 32, 32, 32, 32, 32,
      32, 32, 32, 32, 32, 32, 32, 32, 32, 32, 32, 32, 32, 32, 32, 32, 32, 32, 32, 32, 32, 32, 32, 32, 32, 32, 32, 32,
      32, 32, 32, 32, 32, 32, 32, 32, 32, 32, 32, 32, 32, 32, 32, 32, 32, 32, 32, 32, 32, 32, 32, 32]]

/-- `primary_hdu_without_simple_keyword` (src/hdu/header/mod.rs:351). -/
example (p : Profile) : ((Fits.fromReader ⟨wrongKwFile,
      0⟩).next p).1 = some (.err .dynamic) := by cases p <;> decide +kernel

/-- The records of `primary_hdu_with_no_data` (src/hdu/header/mod.rs:373). -/
def noDataFile : List UInt8 :=
  mockFile
    [[83, 73, 77, 80, 76, 69, 32, 32, 61, 32, 32, 32, 32, 32, 32, 32, 32, 32, 32, 32, 32, 32, 32, 32, 32, 32, 32, 32,
      32, 84, 32, 47, 32, 116, 104, 105, 115, 32, 105, 115, 32, 97, 32, 102, 97, 107, 101, 32, 70, 73, 84, 83, 32,
      102, 105, 108, 101, 32, 32, 32, 32, 32, 32, 32, 32, 32, 32, 32, 32, 32, 32, 32, 32, 32, 32, 32, 32, 32, 32, 32],
     [66, 73, 84, 80, 73, 88, 32, 32, 61, 32, 32, 32, 32, 32, 32, 32, 32, 32, 32, 32, 32, 32, 32, 32, 32, 32, 32, 32,
      32, 56, 32, 47, 32, 98, 121, 116, 101, 32, 115, 105, 122, 101, 100, 32, 110, 117, 109, 98, 101, 114, 115, 32,
      32, 32, 32, 32, 32, 32, 32, 32, 32, 32, 32, 32, 32, 32, 32, 32, 32, 32, 32, 32, 32, 32, 32, 32, 32, 32, 32, 32],
     [78, 65, 88, 73, 83, 32, 32, 32, 61, 32, 32, 32, 32, 32, 32, 32, 32, 32, 32, 32, 32, 32, 32, 32, 32, 32, 32, 32,
      32, 48, 32, 47, 32, 110, 111, 32, 100, 97, 116, 97, 32, 97, 114, 114, 97, 121, 115, 32, 32, 32, 32, 32, 32, 32,
      32, 32, 32, 32, 32, 32, 32, 32, 32, 32, 32, 32, 32, 32, 32, 32, 32, 32, 32, 32, 32, 32, 32, 32, 32, 32],
     [67, 79, 77, 77, 69, 78, 84, 32, 115, 111, 109, 101, 32, 99, 111, 110, 116, 101, 120, 116, 117, 97, 108, 32, 99,
      111, 109, 109, 101, 110, 116, 32, 111, 110, 32, 116, 104, 101, 32, 104, 101, 97, 100, 101, 114, 32, 32, 32, 32,
      32, 32, 32, 32, 32, 32, 32, 32, 32, 32, 32, 32, 32, 32, 32, 32, 32, 32, 32, 32, 32, 32, 32, 32, 32, 32, 32, 32,
      32, 32, 32],
     [67, 79, 77, 77, 69, 78, 84, 32, 46, 46, 46, 32, 111, 118, 101, 114, 32, 116, 119, 111, 32, 108, 105, 110, 101,
      115, 32, 32, 32, 32, 32, 32, 32, 32, 32, 32, 32, 32, 32, 32, 32, 32, 32, 32, 32, 32, 32, 32, 32, 32, 32, 32,
      32, 32, 32, 32, 32, 32, 32, 32, 32, 32, 32, 32, 32, 32, 32, 32, 32, 32, 32, 32, 32, 32, 32, 32, 32, 32, 32, 32],
     [72, 73, 83, 84, 79, 82, 89, 32, 116, 104, 105, 115, 32, 119, 97, 115, 32, 112, 114, 111, 99, 101, 115, 115,
      101, 100, 32, 109, 97, 110, 117, 97, 108, 108, 121, 32, 117, 115, 105, 110, 103, 32, 118, 115, 99, 111, 100,
      101, 32, 32, 32, 32, 32, 32, 32, 32, 32, 32, 32, 32, 32, 32, 32, 32, 32, 32, 32, 32, 32, 32, 32, 32, 32, 32,
      32, 32, 32, 32, 32, 32],
     [67, 79, 77, 77, 69, 78, 84, 32, 99, 111, 109, 109, 101, 110, 116, 32, 111, 110, 32, 116, 104, 101, 32, 104,
      105, 115, 116, 111, 114, 121, 63, 32, 32, 32, 32, 32, 32, 32, 32, 32, 32, 32, 32, 32, 32, 32, 32, 32, 32, 32,
      32, 32, 32, 32, 32, 32, 32, 32, 32, 32, 32, 32, 32, 32, 32, 32, 32, 32, 32, 32, 32, 32, 32, 32, 32, 32, 32, 32,
      32, 32],
     [72, 73, 83, 84, 79, 82, 89, 32, 100, 105, 100, 32, 115, 111, 109, 101, 32, 109, 111, 114, 101, 32, 112, 114,
      111, 99, 101, 115, 115, 105, 110, 103, 46, 46, 46, 32, 32, 32, 32, 32, 32, 32, 32, 32, 32, 32, 32, 32, 32, 32,
      32, 32, 32, 32, 32, 32, 32, 32, 32, 32, 32, 32, 32, 32, 32, 32, 32, 32, 32, 32, 32, 32, 32, 32, 32, 32, 32, 32,
      32, 32],
     [69, 78, 68, 32, 32, 32, 32, 32, 32, 32, 32, 32, 32, 32, 32, 32, 32, 32, 32, 32, 32, 32, 32, 32, 32, 32, 32, 32,
      32, 32, 32, 32, 32, 32, 32, 32, 32, 32, 32, 32, 32, 32, 32, 32, 32, 32, 32, 32, 32, 32, 32, 32, 32, 32, 32, 32,
      32, 32, 32, 32, 32, 32, 32, 32, 32, 32, 32, 32, 32, 32, 32, 32, 32, 32, 32, 32, 32, 32, 32, 32]]

/-- `primary_hdu_with_no_data` (src/hdu/header/mod.rs:373): the cards and the history. -/
example (p : Profile) : primaryCards p noDataFile =
    some ([.value "SIMPLE".toList (.logical true (some " this is a fake FITS file".toList)),
      .value "BITPIX".toList (.integer 8 (some " byte sized numbers".toList)),
      .value "NAXIS".toList (.integer 0 (some " no data arrays".toList)),
      .comment "some contextual comment on the header".toList,
      .comment "... over two lines".toList,
      .history "this was processed manually using vscode".toList,
      .comment "comment on the history?".toList,
      .history "did some more processing...".toList,
      .end_],
     ["this was processed manually using vscode".toList, "did some more processing...".toList]) := by
  cases p <;> decide +kernel

/-- The records of `end_card_not_found` (src/hdu/header/mod.rs:466). -/
def noEndFile : List UInt8 :=
  mockFile
    [[83, 73, 77, 80, 76, 69, 32, 32, 61, 32, 32, 32, 32, 32, 32, 32, 32, 32, 32, 32, 32, 32, 32, 32, 32, 32, 32, 32,
      32, 84, 32, 47, 32, 83, 116, 97, 110, 100, 97, 114, 100, 32, 70, 73, 84, 83, 32, 70, 111, 114, 109, 97, 116,
      32, 32, 32, 32, 32, 32, 32, 32, 32, 32, 32, 32, 32, 32, 32, 32, 32, 32, 32, 32, 32, 32, 32, 32, 32, 32, 32],
     [66, 73, 84, 80, 73, 88, 32, 32, 61, 32, 32, 32, 32, 32, 32, 32, 32, 32, 32, 32, 32, 32, 32, 32, 32, 32, 32, 32,
      32, 56, 32, 47, 32, 67, 104, 97, 114, 97, 99, 116, 101, 114, 32, 100, 97, 116, 97, 32, 32, 32, 32, 32, 32, 32,
      32, 32, 32, 32, 32, 32, 32, 32, 32, 32, 32, 32, 32, 32, 32, 32, 32, 32, 32, 32, 32, 32, 32, 32, 32, 32],
     [78, 65, 88, 73, 83, 32, 32, 32, 61, 32, 32, 32, 32, 32, 32, 32, 32, 32, 32, 32, 32, 32, 32, 32, 32, 32, 32, 32,
      32, 48, 32, 47, 32, 78, 111, 32, 73, 109, 97, 103, 101, 32, 45, 45, 45, 32, 106, 117, 115, 116, 32, 101, 120,
      116, 101, 110, 115, 105, 111, 110, 40, 115, 41, 32, 32, 32, 32, 32, 32, 32, 32, 32, 32, 32, 32, 32, 32, 32, 32,
      32],
     [69, 88, 84, 69, 78, 68, 32, 32, 61, 32, 32, 32, 32, 32, 32, 32, 32, 32, 32, 32, 32, 32, 32, 32, 32, 32, 32, 32,
      32, 84, 32, 47, 32, 84, 104, 101, 114, 101, 32, 97, 114, 101, 32, 115, 116, 97, 110, 100, 97, 114, 100, 32,
      101, 120, 116, 101, 110, 115, 105, 111, 110, 115, 32, 32, 32, 32, 32, 32, 32, 32, 32, 32, 32, 32, 32, 32, 32,
      32, 32, 32]]

/-- `end_card_not_found` (src/hdu/header/mod.rs:466). -/
example (p : Profile) : ((Fits.fromReader ⟨noEndFile, 0⟩).next p).1 = some (.err (.io .unexpectedEof)) ∧
    (((Fits.fromReader ⟨noEndFile, 0⟩).next p).2.next p).1 = none := by
  cases p <;> decide +kernel

/-- The records of `blank_interpreted_as_comments` (src/hdu/header/mod.rs:483). -/
def blankFile : List UInt8 :=
  mockFile
    [[83, 73, 77, 80, 76, 69, 32, 32, 61, 32, 32, 32, 32, 32, 32, 32, 32, 32, 32, 32, 32, 32, 32, 32, 32, 32, 32, 32,
      32, 84, 32, 47, 32, 83, 116, 97, 110, 100, 97, 114, 100, 32, 70, 73, 84, 83, 32, 70, 111, 114, 109, 97, 116,
      32, 32, 32, 32, 32, 32, 32, 32, 32, 32, 32, 32, 32, 32, 32, 32, 32, 32, 32, 32, 32, 32, 32, 32, 32, 32, 32],
     [66, 73, 84, 80, 73, 88, 32, 32, 61, 32, 32, 32, 32, 32, 32, 32, 32, 32, 32, 32, 32, 32, 32, 32, 32, 32, 32, 32,
      32, 56, 32, 47, 32, 67, 104, 97, 114, 97, 99, 116, 101, 114, 32, 100, 97, 116, 97, 32, 32, 32, 32, 32, 32, 32,
      32, 32, 32, 32, 32, 32, 32, 32, 32, 32, 32, 32, 32, 32, 32, 32, 32, 32, 32, 32, 32, 32, 32, 32, 32, 32],
     [78, 65, 88, 73, 83, 32, 32, 32, 61, 32, 32, 32, 32, 32, 32, 32, 32, 32, 32, 32, 32, 32, 32, 32, 32, 32, 32, 32,
      32, 48, 32, 47, 32, 78, 111, 32, 73, 109, 97, 103, 101, 32, 45, 45, 45, 32, 106, 117, 115, 116, 32, 101, 120,
      116, 101, 110, 115, 105, 111, 110, 40, 115, 41, 32, 32, 32, 32, 32, 32, 32, 32, 32, 32, 32, 32, 32, 32, 32, 32,
      32],
     [69, 88, 84, 69, 78, 68, 32, 32, 61, 32, 32, 32, 32, 32, 32, 32, 32, 32, 32, 32, 32, 32, 32, 32, 32, 32, 32, 32,
      32, 84, 32, 47, 32, 84, 104, 101, 114, 101, 32, 97, 114, 101, 32, 115, 116, 97, 110, 100, 97, 114, 100, 32,
      101, 120, 116, 101, 110, 115, 105, 111, 110, 115, 32, 32, 32, 32, 32, 32, 32, 32, 32, 32, 32, 32, 32, 32, 32,
      32, 32, 32],
     [79, 82, 73, 71, 73, 78, 32, 32, 61, 32, 39, 120, 109, 108, 50, 102, 105, 116, 115, 95, 118, 49, 46, 57, 53, 39,
      32, 32, 32, 32, 32, 47, 32, 67, 111, 110, 118, 101, 114, 116, 101, 100, 32, 102, 114, 111, 109, 32, 88, 77, 76,
      45, 65, 115, 116, 114, 111, 114, 101, 115, 32, 116, 111, 32, 70, 73, 84, 83, 32, 32, 32, 32, 32, 32, 32, 32,
      32, 32, 32, 32],
     [32, 32, 32, 32, 32, 32, 32, 32, 32, 32, 32, 32, 32, 32, 32, 32, 32, 32, 32, 32, 32, 32, 32, 32, 101, 45, 109,
      97, 105, 108, 58, 32, 113, 117, 101, 115, 116, 105, 111, 110, 64, 115, 105, 109, 98, 97, 100, 46, 117, 45, 115,
      116, 114, 97, 115, 98, 103, 46, 102, 114, 32, 32, 32, 32, 32, 32, 32, 32, 32, 32, 32, 32, 32, 32, 32, 32, 32,
      32, 32, 32],
     [76, 79, 78, 71, 83, 84, 82, 78, 61, 32, 39, 79, 71, 73, 80, 32, 49, 46, 48, 39, 32, 32, 32, 32, 32, 32, 32, 32,
      32, 32, 32, 47, 32, 76, 111, 110, 103, 32, 115, 116, 114, 105, 110, 103, 32, 99, 111, 110, 118, 101, 110, 116,
      105, 111, 110, 32, 40, 38, 47, 67, 79, 78, 84, 73, 78, 85, 69, 41, 32, 109, 97, 121, 32, 98, 101, 32, 117, 115,
      101, 100],
     [68, 65, 84, 69, 32, 32, 32, 32, 61, 32, 39, 50, 48, 49, 56, 45, 48, 52, 45, 49, 50, 39, 32, 32, 32, 32, 32, 32,
      32, 32, 32, 47, 32, 87, 114, 105, 116, 116, 101, 110, 32, 111, 110, 32, 50, 48, 49, 56, 45, 48, 52, 45, 49, 50,
      58, 49, 51, 58, 50, 53, 58, 48, 57, 32, 40, 71, 77, 84, 41, 32, 32, 32, 32, 32, 32, 32, 32, 32, 32, 32],
     [32, 32, 32, 32, 32, 32, 32, 32, 32, 32, 32, 32, 32, 32, 32, 32, 32, 32, 32, 32, 32, 32, 32, 32, 32, 32, 32, 32,
      98, 121, 58, 32, 97, 112, 97, 99, 104, 101, 64, 118, 105, 122, 105, 101, 114, 46, 117, 45, 115, 116, 114, 97,
      115, 98, 103, 46, 102, 114, 32, 32, 32, 32, 32, 32, 32, 32, 32, 32, 32, 32, 32, 32, 32, 32, 32, 32, 32, 32, 32,
      32],
     [32, 32, 32, 32, 32, 32, 32, 32, 42, 42, 42, 42, 42, 42, 42, 42, 42, 42, 42, 42, 42, 42, 42, 42, 42, 42, 42, 42,
      42, 42, 42, 42, 42, 42, 42, 42, 42, 42, 42, 42, 42, 42, 42, 42, 42, 42, 42, 42, 42, 42, 42, 42, 42, 42, 42, 42,
      42, 42, 42, 42, 42, 42, 42, 42, 42, 42, 32, 32, 32, 32, 32, 32, 32, 32, 32, 32, 32, 32, 32, 32],
     [32, 32, 32, 32, 32, 32, 32, 32, 32, 32, 32, 32, 69, 88, 67, 69, 82, 80, 84, 32, 102, 114, 111, 109, 32, 99, 97,
      116, 97, 108, 111, 103, 117, 101, 115, 32, 115, 116, 111, 114, 101, 100, 32, 105, 110, 32, 86, 105, 122, 105,
      101, 82, 32, 40, 67, 68, 83, 41, 32, 32, 32, 32, 32, 32, 32, 32, 32, 32, 32, 32, 32, 32, 32, 32, 32, 32, 32,
      32, 32, 32],
     [32, 32, 32, 32, 32, 32, 32, 32, 32, 32, 32, 32, 32, 32, 32, 32, 32, 32, 32, 32, 32, 32, 32, 32, 119, 105, 116,
      104, 32, 116, 104, 101, 32, 102, 111, 108, 108, 111, 119, 105, 110, 103, 32, 99, 111, 110, 100, 105, 116, 105,
      111, 110, 115, 58, 32, 32, 32, 32, 32, 32, 32, 32, 32, 32, 32, 32, 32, 32, 32, 32, 32, 32, 32, 32, 32, 32, 32,
      32, 32, 32],
     [32, 32, 32, 32, 32, 32, 32, 32, 42, 42, 42, 42, 42, 42, 42, 42, 42, 42, 42, 42, 42, 42, 42, 42, 42, 42, 42, 42,
      42, 42, 42, 42, 42, 42, 42, 42, 42, 42, 42, 42, 42, 42, 42, 42, 42, 42, 42, 42, 42, 42, 42, 42, 42, 42, 42, 42,
      42, 42, 42, 42, 42, 42, 42, 42, 42, 42, 32, 32, 32, 32, 32, 32, 32, 32, 32, 32, 32, 32, 32, 32],
     [32, 32, 32, 32, 32, 32, 32, 32, 32, 32, 32, 32, 32, 32, 32, 32, 32, 32, 32, 32, 32, 32, 32, 32, 32, 32, 32, 32,
      32, 32, 32, 32, 32, 32, 32, 32, 32, 32, 32, 32, 32, 32, 32, 32, 32, 32, 32, 32, 32, 32, 32, 32, 32, 32, 32, 32,
      32, 32, 32, 32, 32, 32, 32, 32, 32, 32, 32, 32, 32, 32, 32, 32, 32, 32, 32, 32, 32, 32, 32, 32],
     [32, 32, 32, 32, 32, 32, 32, 32, 86, 105, 122, 105, 101, 82, 32, 65, 115, 116, 114, 111, 110, 111, 109, 105, 99,
      97, 108, 32, 83, 101, 114, 118, 101, 114, 32, 118, 105, 122, 105, 101, 114, 46, 117, 45, 115, 116, 114, 97,
      115, 98, 103, 46, 102, 114, 32, 32, 32, 32, 32, 32, 32, 32, 32, 32, 32, 32, 32, 32, 32, 32, 32, 32, 32, 32, 32,
      32, 32, 32, 32, 32],
     [32, 32, 32, 32, 32, 32, 32, 32, 68, 97, 116, 101, 58, 32, 50, 48, 49, 56, 45, 48, 52, 45, 49, 50, 84, 49, 51,
      58, 50, 53, 58, 48, 57, 32, 91, 86, 49, 46, 57, 57, 43, 32, 40, 49, 52, 45, 79, 99, 116, 45, 50, 48, 49, 51,
      41, 93, 32, 32, 32, 32, 32, 32, 32, 32, 32, 32, 32, 32, 32, 32, 32, 32, 32, 32, 32, 32, 32, 32, 32, 32],
     [32, 32, 32, 32, 32, 32, 32, 32, 73, 110, 32, 99, 97, 115, 101, 32, 111, 102, 32, 112, 114, 111, 98, 108, 101,
      109, 44, 32, 112, 108, 101, 97, 115, 101, 32, 114, 101, 112, 111, 114, 116, 32, 116, 111, 58, 32, 99, 100, 115,
      45, 113, 117, 101, 115, 116, 105, 111, 110, 64, 117, 110, 105, 115, 116, 114, 97, 46, 102, 114, 32, 32, 32, 32,
      32, 32, 32, 32, 32, 32, 32],
     [32, 32, 32, 32, 32, 32, 32, 32, 32, 32, 32, 32, 32, 32, 32, 32, 32, 32, 32, 32, 32, 32, 32, 32, 32, 32, 32, 32,
      32, 32, 32, 32, 32, 32, 32, 32, 32, 32, 32, 32, 32, 32, 32, 32, 32, 32, 32, 32, 32, 32, 32, 32, 32, 32, 32, 32,
      32, 32, 32, 32, 32, 32, 32, 32, 32, 32, 32, 32, 32, 32, 32, 32, 32, 32, 32, 32, 32, 32, 32, 32],
     [73, 78, 70, 79, 32, 32, 32, 32, 61, 32, 39, 118, 111, 116, 97, 98, 108, 101, 45, 118, 101, 114, 115, 105, 111,
      110, 61, 49, 46, 57, 57, 43, 32, 40, 49, 52, 45, 79, 99, 116, 45, 50, 48, 49, 51, 41, 39, 32, 47, 32, 35, 32,
      32, 32, 32, 32, 32, 32, 32, 32, 32, 32, 32, 32, 32, 32, 32, 32, 32, 32, 32, 32, 32, 32, 32, 32, 32, 32, 32, 32],
     [73, 78, 70, 79, 32, 32, 32, 32, 61, 32, 39, 45, 114, 101, 102, 61, 86, 73, 90, 53, 97, 99, 102, 53, 100, 102,
      101, 55, 100, 54, 54, 39, 32, 47, 32, 35, 32, 32, 32, 32, 32, 32, 32, 32, 32, 32, 32, 32, 32, 32, 32, 32, 32,
      32, 32, 32, 32, 32, 32, 32, 32, 32, 32, 32, 32, 32, 32, 32, 32, 32, 32, 32, 32, 32, 32, 32, 32, 32, 32, 32],
     [73, 78, 70, 79, 32, 32, 32, 32, 61, 32, 39, 45, 111, 117, 116, 46, 109, 97, 120, 61, 53, 48, 39, 32, 32, 32,
      32, 32, 32, 32, 32, 47, 32, 35, 32, 32, 32, 32, 32, 32, 32, 32, 32, 32, 32, 32, 32, 32, 32, 32, 32, 32, 32, 32,
      32, 32, 32, 32, 32, 32, 32, 32, 32, 32, 32, 32, 32, 32, 32, 32, 32, 32, 32, 32, 32, 32, 32, 32, 32, 32],
     [69, 78, 68, 32, 32, 32, 32, 32, 32, 32, 32, 32, 32, 32, 32, 32, 32, 32, 32, 32, 32, 32, 32, 32, 32, 32, 32, 32,
      32, 32, 32, 32, 32, 32, 32, 32, 32, 32, 32, 32, 32, 32, 32, 32, 32, 32, 32, 32, 32, 32, 32, 32, 32, 32, 32, 32,
      32, 32, 32, 32, 32, 32, 32, 32, 32, 32, 32, 32, 32, 32, 32, 32, 32, 32, 32, 32, 32, 32, 32, 32]]

/-- `blank_interpreted_as_comments` (src/hdu/header/mod.rs:483): the first cards. -/
example (p : Profile) : (primaryCards p blankFile).map (fun c => c.1.take 17) =
    some [.value "SIMPLE".toList (.logical true (some " Standard FITS Format".toList)),
      .value "BITPIX".toList (.integer 8 (some " Character data".toList)),
      .value "NAXIS".toList (.integer 0 (some " No Image --- just extension(s)".toList)),
      .value "EXTEND".toList (.logical true (some " There are standard extensions".toList)),
      .value "ORIGIN".toList (.string "xml2fits_v1.95".toList (some " Converted from XML-Astrores to FITS".toList)),
      .comment "                e-mail: question@simbad.u-strasbg.fr".toList,
      .value "LONGSTRN".toList (.string "OGIP 1.0".toList (some " Long string convention (&/CONTINUE) may be used".toList)),
      .value "DATE".toList (.string "2018-04-12".toList (some " Written on 2018-04-12:13:25:09 (GMT)".toList)),
      .comment "                    by: apache@vizier.u-strasbg.fr".toList,
      .comment "**********************************************************".toList,
      .comment "    EXCERPT from catalogues stored in VizieR (CDS)".toList,
      .comment "                with the following conditions:".toList,
      .comment "**********************************************************".toList,
      .space,
      .comment "VizieR Astronomical Server vizier.u-strasbg.fr".toList,
      .comment "Date: 2018-04-12T13:25:09 [V1.99+ (14-Oct-2013)]".toList,
      .comment "In case of problem, please report to: cds-question@unistra.fr".toList] := by
  cases p <;> decide +kernel

/-- The bytes of `test_bad_bytes` (src/lib.rs:479): an HTML page. -/
def badBytes : List UInt8 :=
  [60, 33, 68, 79, 67, 84, 89, 80, 69, 32, 72, 84, 77, 76, 32, 80, 85, 66, 76, 73, 67, 32, 34, 45, 47, 47, 73, 69,
      84, 70, 47, 47, 68, 84, 68, 32, 72, 84, 77, 76, 32, 50, 46, 48, 47, 47, 69, 78, 34, 62, 10, 60, 104, 116, 109,
      108, 62, 60, 104, 101, 97, 100, 62, 10, 60, 116, 105, 116, 108, 101, 62, 52, 48, 52, 32, 78, 111, 116, 32, 70,
      111, 117, 110, 100, 60, 47, 116, 105, 116, 108, 101, 62, 10, 60, 47, 104, 101, 97, 100, 62, 60, 98, 111, 100,
      121, 62, 10, 60, 104, 49, 62, 78, 111, 116, 32, 70, 111, 117, 110, 100, 60, 47, 104, 49, 62, 10, 60, 112, 62,
      84, 104, 101, 32, 114, 101, 113, 117, 101, 115, 116, 101, 100, 32, 85, 82, 76, 32, 47, 97, 108, 108, 115, 107,
      121, 47, 80, 78, 82, 101, 100, 47, 78, 111, 114, 100, 101, 114, 55, 47, 68, 105, 114, 52, 48, 48, 48, 48, 47,
      78, 112, 105, 120, 52, 52, 49, 49, 49, 46, 102, 105, 116, 115, 32, 119, 97, 115, 32, 110, 111, 116, 32, 102,
      111, 117, 110, 100, 32, 111, 110, 32, 116, 104, 105, 115, 32, 115, 101, 114, 118, 101, 114, 46, 60, 47, 112,
      62, 10, 60, 47, 98, 111, 100, 121, 62, 60, 47, 104, 116, 109, 108, 62, 10]

/-- `test_bad_bytes`: the first HDU is an error. -/
example (p : Profile) : isError ((Fits.fromReader ⟨badBytes, 0⟩).next p).1 = true := by cases p <;> decide +kernel

end Fitsrs.Upstream

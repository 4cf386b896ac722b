import Verif.Model.Card
/-
Model of `check_card_keyword` (src/hdu/header/mod.rs:49-63).
-/

namespace Fitsrs

/-- `Err(Error::FailFindingKeyword(std::str::from_utf8(keyword)?.to_owned()))` (src/hdu/header/mod.rs:54-56,
59-61).  The payload of the error is dropped. -/
def keywordNotFound (keyword : List UInt8) : Err :=
  match utf8Strict keyword with
  | none => .utf8
  | some _ => .failFindingKeyword

/-- `check_card_keyword` (src/hdu/header/mod.rs:49-63), `card` being the 80 bytes of a record and `keyword` eight
bytes. -/
def checkCardKeyword (card keyword : List UInt8) : Res Value :=
  if card.take 8 = keyword then
    Card.tryFrom card >>= fun c =>
      match c with
      | .value _ v => .ok v
      | _ => .err (keywordNotFound keyword)
  else .err (keywordNotFound keyword)

end Fitsrs

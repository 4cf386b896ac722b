import Verif.Spec.Async
/-
What is left of the bytes of an asynchronous source, if what has been read of an item is dropped at each delay.
-/

namespace Fitsrs.Spec

/-- The bytes that are not lost (if the source does not fail) when items of `w` bytes are read one by one and what has been read of an item is dropped at
each delay: before a delay only whole items are kept.  `cur` are the bytes delivered since the last delay. -/
def kept (w : Nat) : (cur : List UInt8) → List Event → List UInt8
  | cur, [] => cur
  | cur, .pending :: es => cur.take (cur.length / w * w) ++ kept w [] es
  | cur, .fail _ :: es => kept w cur es
  | cur, .chunk b bs :: es => kept w (cur ++ b :: bs) es

/-- The events after the first delay. -/
def afterDelay : List Event → List Event
  | [] => []
  | .pending :: es => es
  | .fail _ :: es => afterDelay es
  | .chunk _ _ :: es => afterDelay es

/-- The number of bytes delivered before the first delay. -/
def bytesBefore : List Event → Nat
  | [] => 0
  | .pending :: _ => 0
  | .fail _ :: es => bytesBefore es
  | .chunk _ bs :: es => bs.length + 1 + bytesBefore es

end Fitsrs.Spec

import Verif.Spec.Hdu
/-
What should be seen of a file that is cut short.
-/

namespace Fitsrs.Spec

/-- The items of the iteration over a file cut after `n` bytes, from offset `o` on: the HDUs whose headers are complete
(whatever is left of their data), then an error if the cut leaves a part of a header that has at least one record (any
part, for the first header). -/
def cutItems (n : Nat) : (first : Bool) → (o : Nat) → List Segment → List HDU → List (Res HDU)
  | first, o, s :: ss, h :: hs =>
    if o + s.header.length ≤ n then .ok h :: cutItems n false (o + s.bytes.length) ss hs
    else if first = false ∧ n < o + 80 then []
    else [.err (if n < o + 80 * s.records.length then .io .unexpectedEof else .static "EOF reached")]
  | _, _, _, _ => []

end Fitsrs.Spec

import Verif.Spec.Hdu
import Verif.Spec.Async
/-
What should be seen of a file that is cut short and is read from an asynchronous source.
-/

namespace Fitsrs.Spec

/-- The stream of the HDUs of a file cut after `n` bytes, from offset `o` on: the HDUs whose headers are complete, and
whether an error follows them, because bytes of a header or of a data unit are missing.  Only the fill after a data unit
may be missing. -/
def cutStream (n : Nat) : (first : Bool) → (o : Nat) → List Segment → List HDU → List HDU × Bool
  | first, o, s :: ss, h :: hs =>
    if o + s.header.length ≤ n then
      if n < o + s.header.length + s.data.length then ([h], true)
      else
        let rest := cutStream n false (o + s.bytes.length) ss hs
        (h :: rest.1, rest.2)
    else ([], first || decide (o < n))
  | _, _, _, _ => ([], false)

/-- The items of a stream that gives these HDUs, and then fails or not. -/
def Gives (x : List HDU × Bool) (items : List (Res AHdu)) : Prop :=
  ∃ e, items = (x.1.map fun h => .ok h.forget) ++ if x.2 then [.err e] else []

end Fitsrs.Spec

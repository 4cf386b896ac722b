import Verif.Spec.Hdu
/-
Histories of the HDU iterator: calls of `next` interleaved with reads of the current data unit.
-/

namespace Fitsrs
open Spec

/-- `History p data hs f`: starting from a reader on `data`, some sequence of calls of the iterator, with
reads inside the current data unit between them, has returned the HDUs `hs` (oldest first) and left the
iterator in state `f`.  Calls that return `None` or an error are allowed anywhere; a call that panics ends
the history. -/
inductive History (p : Profile) (data : List UInt8) : List HDU → Fits → Prop
  | start : History p data [] (Fits.fromReader ⟨data, 0⟩)
  | hdu {hs f h f'} (k : Nat) :
    History p data hs f → f.next p = (some (.ok h), f') → History p data (hs ++ [h]) (readData k f')
  | none {hs f f'} : History p data hs f → f.next p = (none, f') → History p data hs f'
  | error {hs f f' e} : History p data hs f → f.next p = (some (.err e), f') → History p data hs f'

/-- Where the header following an HDU starts: the end of its data unit rounded up to 2880 bytes. -/
def nextHeader (p : Profile) (h : HDU) : Nat :=
  match h.dataSize p with
  | .ok n => h.dataOffset + roundUp2880 n
  | _ => 0

/-- All the announced data units end at an offset that fits in a signed 64-bit integer. -/
def SizesFit (p : Profile) (hs : List HDU) : Prop := ∀ h ∈ hs, nextHeader p h < 2 ^ 63

/-- Where the header of the `i`-th HDU of a list starts. -/
def headerStart (p : Profile) (hs : List HDU) : Nat → Nat
  | 0 => 0
  | i + 1 => match hs[i]? with
    | some h => nextHeader p h
    | none => 0

/-- The results of `n` successive calls of the iterator. -/
def calls (p : Profile) : Nat → Fits → List (Option (Res HDU))
  | 0, _ => []
  | n + 1, f => (f.next p).1 :: calls p n (f.next p).2

/-- What the records of a returned header are. -/
structure HeaderAt (data : List UInt8) (pos : Nat) (cards : List Card) : Prop where
  nonempty : 0 < cards.length
  inFile : pos + 80 * cards.length ≤ data.length
  card : ∀ i (hi : i < cards.length), recordCard (recordAt data pos i) = .ok cards[i]
  endLast : ∀ i (hi : i < cards.length), cards[i] = .end_ ↔ i + 1 = cards.length

/-- The kind of HDU announced by the first card of an extension header. -/
inductive KindOk : List Card → HDU → Prop
  | image {c cs h} : KindOk (.xtension .image c :: cs) (.image h)
  | binTable {c cs h} : KindOk (.xtension .binTable c :: cs) (.binTable h)
  | asciiTable {c cs h} : KindOk (.xtension .asciiTable c :: cs) (.asciiTable h)

/-- The first card and the kind of a primary HDU. -/
def PrimaryOk (cards : List Card) (h : HDU) : Prop :=
  (∃ c cs, cards = .value "SIMPLE".toList (.logical true c) :: cs) ∧ ∃ x, h = .primary x

end Fitsrs

import Verif.Model.Fits
import Verif.Spec.Layout
/-
What it means that a file consists of given HDUs: the relation between the bytes of a file, cut in
segments, and the HDUs they stand for.
-/

namespace Fitsrs
open Spec

/-- The cards read from the records of a header. -/
def CardsOf (records : List (List UInt8)) (cards : List Card) : Prop :=
  records.map recordCard = cards.map .ok

/-- An HDU read from a segment placed at offset `o`: kind, cards, offset and size. -/
inductive Describes (p : Profile) (o : Nat) (s : Segment) : (first : Bool) → HDU → Prop
  | primary {h : Hdu Image} {c cs} :
    CardsOf s.records h.header.cards →
    h.header.cards = .value "SIMPLE".toList (.logical true c) :: cs →
    Header.parse Image.parse h.header.cards = .ok h.header →
    h.dataOffset = o + s.header.length →
    h.header.xtension.numBytes p = .ok s.data.length →
    Describes p o s true (.primary h)
  | image {h : Hdu Image} {c cs} :
    CardsOf s.records h.header.cards →
    h.header.cards = .xtension .image c :: cs →
    Header.parse Image.parse h.header.cards = .ok h.header →
    h.dataOffset = o + s.header.length →
    h.header.xtension.numBytes p = .ok s.data.length →
    Describes p o s false (.image h)
  | binTable {h : Hdu BinTable} {c cs} :
    CardsOf s.records h.header.cards →
    h.header.cards = .xtension .binTable c :: cs →
    Header.parse (BinTable.parse p) h.header.cards = .ok h.header →
    h.dataOffset = o + s.header.length →
    h.header.xtension.numBytes p = .ok s.data.length →
    Describes p o s false (.binTable h)
  | asciiTable {h : Hdu AsciiTable} {c cs} :
    CardsOf s.records h.header.cards →
    h.header.cards = .xtension .asciiTable c :: cs →
    Header.parse AsciiTable.parse h.header.cards = .ok h.header →
    h.dataOffset = o + s.header.length →
    h.header.xtension.numBytes p = .ok s.data.length →
    Describes p o s false (.asciiTable h)

/-- The segments `segs`, placed one after the other from offset `o`, stand for the HDUs `hs`.  Every
segment but the last is filled to a multiple of 2880 bytes; the fill of the last one may be missing,
incomplete, or followed by less than one record. -/
inductive FileOf (p : Profile) : (first : Bool) → (o : Nat) → List Segment → List HDU → Prop
  | last {first o s h} :
    s.HeaderOk → Describes p o s first h →
    s.data.length + s.dataFill.length < roundUp2880 s.data.length + 80 →
    FileOf p first o [s] [h]
  | cons {first o s h ss hs} :
    s.HeaderOk → Describes p o s first h → s.DataOk →
    FileOf p false (o + s.bytes.length) ss hs →
    FileOf p first o (s :: ss) (h :: hs)

/-- A call history of the iterator: after each call the caller reads `k` bytes of the data unit (or
the whole data unit if it is shorter), for the successive `k` of the list. Returns the items, up to
the first `None` or panic. -/
def readData (k : Nat) (f : Fits) : Fits :=
  { f with rd := { f.rd with pos := f.posStart + min k f.numBytes } }

def collectReading (p : Profile) : List Nat → Fits → List (Res HDU)
  | [], _ => []
  | k :: ks, f =>
    match f.next p with
    | (none, _) => []
    | (some .panic, _) => [.panic]
    | (some r, f') => r :: collectReading p ks (readData k f')

/-- A text padded with blanks to an 80-byte record. -/
def rec80 (s : String) : List UInt8 :=
  (s.toList.map fun c => UInt8.ofNat c.toNat) ++ List.replicate (80 - s.length) 0x20

end Fitsrs

import Verif.Spec.Async
/-
Programs on an asynchronous file, and what they may tell two sources apart by.
-/

namespace Fitsrs

/-- What a program does with an asynchronous file: it polls for the next HDU, or for the next value of the last HDU it was
given. -/
inductive AOp where
  | next
  | value
  deriving DecidableEq, Repr

/-- What it is told. -/
inductive AOut where
  | hdu (x : StreamPoll AHdu)
  | value (x : StreamPoll Pixel)
  | nothing
  deriving DecidableEq, Repr

/-- The state of the program: the file, and the last HDU. -/
structure AProg where
  file : AFits
  last : Option AHdu
  deriving DecidableEq, Repr

namespace AProg

/-- The last HDU after polling for the next one. -/
def lastOf (last : Option AHdu) : StreamPoll AHdu → Option AHdu
  | .ready (some (.ok h)) => some h
  | _ => last

/-- One operation.  A stream of values only borrows the file, so that it does not matter whether it is made for each
value. -/
def step (p : Profile) (s : AProg) : AOp → AOut × AProg
  | .next => (.hdu (s.file.pollNext p).1, ⟨(s.file.pollNext p).2, lastOf s.last (s.file.pollNext p).1⟩)
  | .value =>
    match s.last with
    | none => (.nothing, s)
    | some h => (.value ((s.file.dataOf h).pollNext p).1, ⟨s.file.giveBack ((s.file.dataOf h).pollNext p).2, s.last⟩)

/-- The program panics. -/
def _root_.Fitsrs.AOut.panics : AOut → Bool
  | .hdu (.ready (some .panic)) => true
  | .value (.ready (some .panic)) => true
  | _ => false

/-- A whole program, up to a panic. -/
def run (p : Profile) : List AOp → AProg → List AOut
  | [], _ => []
  | op :: ops, s => (s.step p op).1 :: if (s.step p op).1.panics then [] else run p ops (s.step p op).2

/-- A program on a source from its beginning. -/
def ofSource (p : Profile) (ops : List AOp) (r : AReader) : List AOut := run p ops ⟨AFits.fromReader r, none⟩

end AProg

namespace Spec

/-- An error is reported. -/
def reportsError : AOut → Bool
  | .hdu (.ready (some (.err _))) => true
  | .value (.ready (some (.err _))) => true
  | _ => false

/-- The stream of HDUs is said to be at its end. -/
def reportsEnd : AOut → Bool
  | .hdu (.ready none) => true
  | _ => false

/-- The first program is told the same as the second, up to something like `stop`. -/
inductive SameUntil (stop : AOut → Bool) : List AOut → List AOut → Prop
  | nil : SameUntil stop [] []
  | cons (o : AOut) {xs ys : List AOut} : SameUntil stop xs ys → SameUntil stop (o :: xs) (o :: ys)
  | stop {o : AOut} {xs ys : List AOut} : stop o = true → SameUntil stop (o :: xs) ys

end Spec

end Fitsrs

import Verif.Model.Session
import Verif.Model.Input
/-
`Fits::get_position_data_unit`, asked after each call of a program.
-/

namespace Fitsrs

/-- `Fits::get_position_data_unit` (src/fits.rs:81-88). -/
def Fits.getPositionDataUnit (f : Fits) : Nat := f.posStart

/-- The same on any reader. -/
def Input.File.getPositionDataUnit {σ : Type} (f : Input.File σ) : Nat := f.posStart

/-- What a program is told that asks for the position of the data unit after each of its calls; it ends as `Session.run` does. -/
def Session.positions (p : Profile) (gz : Gunzip) (fuel : Nat) : List Call → Session → List Nat
  | [], _ => []
  | c :: cs, s =>
    match s.call p gz fuel c with
    | none => [s.fits.getPositionDataUnit]
    | some (.panic, s) => [s.fits.getPositionDataUnit]
    | some (_, s) => s.fits.getPositionDataUnit :: Session.positions p gz fuel cs s

/-- The same on any reader, going on whatever happens. -/
def Input.positions {σ : Type} (S : Input σ) (p : Profile) : List RawCall → Input.File σ → List Nat
  | [], _ => []
  | c :: cs, f => (S.raw p f c).2.getPositionDataUnit :: S.positions p cs (S.raw p f c).2

/-- What such a program sees. -/
def Input.outcomes {σ : Type} (S : Input σ) (p : Profile) : List RawCall → Input.File σ → List RawOut
  | [], _ => []
  | c :: cs, f => (S.raw p f c).1 :: S.outcomes p cs (S.raw p f c).2

end Fitsrs

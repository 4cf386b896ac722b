import Verif.Model.Input
/-
Programs that go on after failed calls, and what they get when they ask for HDUs.
-/

namespace Fitsrs

/-- The results of the requests for HDUs of a program that goes on after calls that do not succeed.  It ends when a request for an
HDU panics.  (The other calls do not panic: the model gives a panic to a read only if the bound of its recursion were too small.  A
program that decides on its calls as it goes does the same as the program with these calls.) -/
def Input.goOn {σ : Type} (S : Input σ) (p : Profile) : List RawCall → Input.File σ → List (Option (Res HDU))
  | [], _ => []
  | c :: cs, f =>
    match (S.raw p f c).1 with
    | .hdu (some .panic) => [some .panic]
    | .hdu r => r :: S.goOn p cs (S.raw p f c).2
    | _ => S.goOn p cs (S.raw p f c).2

/-- What `n` requests for HDUs give if nothing else is done with the file: the HDUs, and then `None` for ever. -/
def Spec.answers (p : Profile) : Nat → Fits → List (Option (Res HDU))
  | 0, _ => []
  | n + 1, f =>
    match (f.next p).1 with
    | none => List.replicate (n + 1) none
    | some r => some r :: answers p n (f.next p).2

/-- The results `out` are the first ones of `ref`, up to a request that reports a failed read (if reads may fail), after which there
are no HDUs any more, or up to a panic (in builds with overflow checks). -/
inductive Spec.Agrees (F : Prop) (p : Profile) : (ref out : List (Option (Res HDU))) → Prop
  | all (ref : List (Option (Res HDU))) : Agrees F p ref ref
  | failed (ref : List (Option (Res HDU))) (k : Nat) (e : Err) (j : Nat) (hF : F) (hk : k < ref.length) :
    Agrees F p ref (ref.take k ++ some (.err e) :: List.replicate j none)
  | panics (ref : List (Option (Res HDU))) (k : Nat) (hp : p = .checked) (hk : k < ref.length) :
    Agrees F p ref (ref.take k ++ [some .panic])

end Fitsrs

import Verif.Lemmas.History
/-
The header parsers never report an I/O error: an unexpected end of file reported by the iterator comes
from reading the records.
-/

namespace Fitsrs
open Spec

/-- Not an end of file error. -/
def NoEof {α : Type} (r : Res α) : Prop := r ≠ .err (.io .unexpectedEof)

theorem NoEof.ok {α : Type} {a : α} : NoEof (Res.ok a) := by simp [NoEof]
theorem NoEof.panic {α : Type} : NoEof (Res.panic : Res α) := by simp [NoEof]
theorem NoEof.bind {α β : Type} {r : Res α} {f : α → Res β} (h : NoEof r) (hf : ∀ a, NoEof (f a)) :
    NoEof (r >>= f) := by
  cases r with
  | ok a => exact hf a
  | err e => simpa [NoEof] using h
  | panic => exact .panic

theorem noEof_getI64 {m : ValueMap} {k : Str} : NoEof (m.getI64 k) := by
  unfold ValueMap.getI64; split <;> simp [NoEof]

theorem noEof_getInt {m : ValueMap} {k : Str} {lo hi : Int} : NoEof (m.getInt lo hi k) := by
  unfold ValueMap.getInt
  refine .bind noEof_getI64 fun v => ?_
  split <;> simp [NoEof]

theorem noEof_getU64 {m : ValueMap} {k : Str} : NoEof (m.getU64 k) := by
  unfold ValueMap.getU64
  refine .bind noEof_getI64 fun v => ?_
  split <;> simp [NoEof]

theorem noEof_getBitpix {m : ValueMap} {k : Str} : NoEof (m.getBitpix k) := by
  unfold ValueMap.getBitpix
  refine .bind noEof_getInt fun v => ?_
  split <;> simp [NoEof]

theorem noEof_collectAxes {m : ValueMap} {i k : Nat} : NoEof (collectAxes m i k) := by
  induction k generalizing i with
  | zero => exact .ok
  | succ k ih =>
    unfold collectAxes
    exact .bind noEof_getU64 fun n => .bind ih fun ns => .ok

theorem noEof_image (m : ValueMap) : NoEof (Image.parse m) := by
  unfold Image.parse
  exact .bind noEof_getBitpix fun _ => .bind noEof_getU64 fun _ => .bind noEof_collectAxes fun _ => .ok

theorem noEof_withCapacity {a b : Nat} : NoEof (withCapacity a b) := by
  unfold withCapacity; split <;> simp [NoEof]

theorem noEof_ascii (m : ValueMap) : NoEof (AsciiTable.parse m) := by
  unfold AsciiTable.parse
  refine .bind noEof_getBitpix fun _ => ?_
  split
  · simp [NoEof]
  refine .bind noEof_getU64 fun _ => ?_
  split
  · simp [NoEof]
  refine .bind noEof_getU64 fun _ => .bind noEof_getU64 fun _ => .bind noEof_getU64 fun _ => ?_
  split
  · simp [NoEof]
  refine .bind noEof_getU64 fun _ => ?_
  split
  · simp [NoEof]
  refine .bind noEof_getU64 fun _ => .bind noEof_withCapacity fun _ => .bind noEof_withCapacity fun _ => ?_
  exact .ok

theorem noEof_umul {p : Profile} {a b : Nat} : NoEof (umul p a b) := umul_not_err
theorem noEof_uadd {p : Profile} {a b : Nat} : NoEof (uadd p a b) := uadd_not_err

theorem noEof_numBits {p : Profile} {f : TForm} : NoEof (f.numBits p) := by
  cases f
  · exact noEof_umul
  · exact .ok
  · exact .ok

theorem noEof_rowBits {p : Profile} {fs : List TForm} {acc : Nat} : NoEof (rowBits p fs acc) := by
  induction fs generalizing acc with
  | nil => exact .ok
  | cons f fs ih =>
    unfold rowBits
    exact .bind noEof_numBits fun _ => .bind noEof_uadd fun _ => ih

theorem noEof_getZAxes {m : ValueMap} : NoEof (getZAxes m) := by
  unfold getZAxes
  split
  · refine .bind noEof_withCapacity fun _ => ?_
    dsimp only
    split <;> exact .ok
  · exact .ok

theorem noEof_bin (p : Profile) (m : ValueMap) : NoEof (BinTable.parse p m) := by
  unfold BinTable.parse
  refine .bind noEof_getBitpix fun _ => ?_
  split
  · simp [NoEof]
  refine .bind noEof_getU64 fun _ => ?_
  split
  · simp [NoEof]
  refine .bind noEof_getU64 fun _ => .bind noEof_getU64 fun _ => .bind noEof_getU64 fun _ =>
    .bind noEof_getU64 fun _ => ?_
  split
  · simp [NoEof]
  refine .bind noEof_getU64 fun _ => .bind noEof_getZAxes fun _ => ?_
  refine .bind ?_ fun _ => .bind noEof_rowBits fun _ => ?_
  · unfold getTheap
    split
    · exact .ok
    · exact noEof_umul
  · split
    · simp [NoEof]
    · exact .ok

theorem xtensionOf_ne_eof {p : Profile} {cards : List Card} {s : HState} :
    (xtensionOf p cards s).1 ≠ .err (.io .unexpectedEof) := by
  intro hh
  have hpair : xtensionOf p cards s = (.err (.io .unexpectedEof), (xtensionOf p cards s).2) := by
    rw [← hh]
  generalize (xtensionOf p cards s).2 = s' at hpair
  unfold xtensionOf at hpair
  split at hpair
  · exact Hdu.new_err_ne_eof noEof_image (wrap_err.1 hpair)
  · exact Hdu.new_err_ne_eof (noEof_bin p) (wrap_err.1 hpair)
  · exact Hdu.new_err_ne_eof noEof_ascii (wrap_err.1 hpair)
  · simp at hpair
  · simp at hpair

end Fitsrs

import Verif.Spec.TableSamples
/-
The sample files hold the sample tables.
-/

namespace Fitsrs

set_option maxRecDepth 20000 in
theorem sample_mixedTable (p : Profile) : returnsTable p mixedFile mixedTable = true := by
  cases p <;> decide +kernel

set_option maxRecDepth 20000 in
theorem sample_bitsTable (p : Profile) : returnsTable p bitsFile bitsTable = true := by
  cases p <;> decide +kernel

set_option maxRecDepth 20000 in
theorem sample_bitByteTable (p : Profile) : returnsTable p bitByteFile bitByteTable = true := by
  cases p <;> decide +kernel

set_option maxRecDepth 20000 in
theorem sample_arrayTable (p : Profile) : returnsTable p arrayFile arrayTable = true := by
  cases p <;> decide +kernel

set_option maxRecDepth 20000 in
theorem sample_emptyArrayTable (p : Profile) : returnsTable p emptyArrayFile emptyArrayTable = true := by
  cases p <;> decide +kernel

set_option maxRecDepth 20000 in
theorem sample_falseTable (p : Profile) : returnsTable p falseFile falseTable = true := by
  cases p <;> decide +kernel

set_option maxRecDepth 20000 in
theorem sample_noColumnsTable (p : Profile) : returnsTable p noColumnsFile noColumnsTable = true := by
  cases p <;> decide +kernel

theorem samples_tables (p : Profile) :
    returnsTable p mixedFile mixedTable = true ∧ returnsTable p bitsFile bitsTable = true ∧
    returnsTable p bitByteFile bitByteTable = true ∧ returnsTable p arrayFile arrayTable = true ∧
    returnsTable p emptyArrayFile emptyArrayTable = true ∧ returnsTable p falseFile falseTable = true ∧
    returnsTable p noColumnsFile noColumnsTable = true :=
  ⟨sample_mixedTable p, sample_bitsTable p, sample_bitByteTable p, sample_arrayTable p,
    sample_emptyArrayTable p, sample_falseTable p, sample_noColumnsTable p⟩

end Fitsrs

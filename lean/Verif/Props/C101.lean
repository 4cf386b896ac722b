import Verif.Props.C63
import Verif.Model.Session
/-
C101 a file after other bytes, read through the reader that decompresses.
-/

namespace Fitsrs
open Spec

/-- **C101**: a program that reads a file, compressed or not, through `GzReader::new` on a source that stands at the first byte of the
file sees the file, whatever comes before it in the source: of a file that is not compressed it sees what it sees without
`GzReader`, and of one that is, what was compressed. -/
def C101_statement : Prop :=
  ∀ (inflate : List UInt8 → Res (List UInt8 × Nat)) (before file : List UInt8),
    (¬ [0x1F, 0x8B] <+: file →
      ∃ rd, GzReader.new inflate ⟨before ++ file, before.length⟩ = .ok rd ∧ ∀ (p : Profile) (gz : Gunzip) (fuel : Nat) (cs : List Call),
        (Session.new rd).run p gz fuel cs = (Session.new ⟨before ++ file, before.length⟩).run p gz fuel cs) ∧
    ∀ (m : Member) (rest : List UInt8), m.Legal → Inflates inflate [m] → file = m.bytes ++ rest →
      ∃ rd, GzReader.new inflate ⟨before ++ file, before.length⟩ = .ok rd ∧ ∀ (p : Profile) (gz : Gunzip) (fuel : Nat) (cs : List Call),
        (Session.new rd).run p gz fuel cs = (Session.new ⟨m.content, 0⟩).run p gz fuel cs

/-- What is done depends on the bytes from where the source stands, if they are compressed. -/
theorem GzReader.new_embedded (inflate : List UInt8 → Res (List UInt8 × Nat)) (before file : List UInt8) :
    GzReader.new inflate ⟨before ++ file, before.length⟩ =
      if gzHeader file = none then .ok ⟨before ++ file, 0⟩ else GzReader.new inflate ⟨file, 0⟩ := by
  unfold GzReader.new
  dsimp only
  rw [List.drop_left, List.drop_zero]
  cases gzHeader file <;> rfl

theorem gzHeader_plain {file : List UInt8} (h : ¬ [0x1F, 0x8B] <+: file) : gzHeader file = none := by
  unfold gzHeader
  split
  · rw [if_neg]
    rintro ⟨rfl, rfl, -⟩
    exact h ⟨_, rfl⟩
  · rfl

/-- **C101, partial** (full statement: `C101_statement`): files that are compressed, and files that are not and are at the beginning of the
source.  Missing: files that are not compressed and come after other bytes. -/
theorem C101_partial (inflate : List UInt8 → Res (List UInt8 × Nat)) (before file : List UInt8) :
    (¬ [0x1F, 0x8B] <+: file → before = [] → GzReader.new inflate ⟨before ++ file, before.length⟩ = .ok ⟨file, 0⟩) ∧
    ∀ (m : Member) (rest : List UInt8), m.Legal → Inflates inflate [m] → file = m.bytes ++ rest →
      GzReader.new inflate ⟨before ++ file, before.length⟩ = .ok ⟨m.content, 0⟩ := by
  rw [GzReader.new_embedded]
  refine ⟨fun h hb => ?_, fun m rest hm hi hf => ?_⟩
  · rw [gzHeader_plain h, if_pos rfl, hb]
    rfl
  · have e : m.bytes ++ rest = m.head ++ m.headCrc ++ (m.body ++ (m.trailer ++ rest)) := by
      unfold Member.bytes
      simp only [List.append_assoc]
    rw [hf, if_neg, GzReader.new_member hm rest (hi m (List.mem_singleton_self m) _)]
    rw [e, gzHeader_member hm]
    intro h
    cases h

/-- **C101, exactly**: of a file that is not compressed a program sees the source from its beginning: the bytes before the file are taken for
its first ones. -/
theorem C101_exact (inflate : List UInt8 → Res (List UInt8 × Nat)) (before file : List UInt8) (h : ¬ [0x1F, 0x8B] <+: file) :
    GzReader.new inflate ⟨before ++ file, before.length⟩ = .ok ⟨before ++ file, 0⟩ := by
  rw [GzReader.new_embedded, gzHeader_plain h, if_pos rfl]

/-- **C101, exactly**: what is left to read is the file if and only if nothing comes before it. -/
theorem C101_iff (inflate : List UInt8 → Res (List UInt8 × Nat)) (before file : List UInt8) (h : ¬ [0x1F, 0x8B] <+: file) :
    (∃ rd, GzReader.new inflate ⟨before ++ file, before.length⟩ = .ok rd ∧ rd.data.drop rd.pos = file) ↔ before = [] := by
  rw [C101_exact inflate before file h]
  constructor
  · rintro ⟨rd, e, hd⟩
    cases e
    exact List.append_left_eq_self.1 hd
  · rintro rfl
    exact ⟨_, rfl, rfl⟩

/-- Whether a program was given an HDU, for each of its calls. -/
def gaveHdu : Option (Res Seen) → Bool
  | some (.ok (.hdu (some _))) => true
  | _ => false

/-- The sample file after three bytes: without `GzReader` the first HDU is given, with it there is an error. -/
theorem C101_witness :
    ((Session.new ⟨[1, 2, 3] ++ sampleFile, 3⟩).run .checked (.of id) 0 [.hdu]).map gaveHdu = [true] ∧
    ((Session.new ⟨[1, 2, 3] ++ sampleFile, 0⟩).run .checked (.of id) 0 [.hdu]).map gaveHdu = [false] := by
  constructor <;> decide +kernel

/-- C101 is false. -/
theorem C101_fails : ¬ C101_statement := by
  intro h
  obtain ⟨rd, h1, h2⟩ := (h (fun _ => .panic) [1, 2, 3] sampleFile).1 (by decide +kernel)
  rw [C101_exact _ _ _ (by decide +kernel)] at h1
  cases h1
  have h3 := h2 .checked (.of id) 0 [.hdu]
  have h4 := C101_witness.2
  rw [h3] at h4
  have h5 := C101_witness.1
  rw [show ([1, 2, 3] : List UInt8).length = 3 from rfl] at h4
  rw [h5] at h4
  cases h4

/-- The hypotheses of `C101_partial` hold for a compressed file after three bytes. -/
example : GzReader.new inflateStored ⟨[1, 2, 3] ++ ((storedMember sampleFile).bytes ++ [7]), 3⟩ = .ok ⟨sampleFile, 0⟩ :=
  (C101_partial inflateStored [1, 2, 3] _).2 (storedMember sampleFile) [7] (storedMember_legal _)
    (storedMember_inflates [sampleFile] (by decide +kernel)) rfl

end Fitsrs

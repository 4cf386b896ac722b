import Verif.Lemmas.Session
import Verif.Props.C33_C34
/-
C62 the bytes of tables.
-/

namespace Fitsrs
open Spec

/-- The results of `n` calls of `next` on the bytes of a table. -/
def ByteStream.run : Nat → ByteStream → List (Option UInt8)
  | 0, _ => []
  | n + 1, s => s.next.1 :: ByteStream.run n s.next.2

/-- The bytes that remain: those of the buffer, then those of the file that `Take` allows. -/
def ByteStream.rest (s : ByteStream) : List UInt8 := s.buf ++ (s.rd.data.drop s.rd.pos).take s.limit

theorem ByteStream.next_rest (s : ByteStream) : s.next.1 = s.rest[0]? ∧ s.next.2.rest = s.rest.drop 1 := by
  unfold ByteStream.next rest
  cases hb : s.buf with
  | cons b bs => exact ⟨rfl, rfl⟩
  | nil =>
    dsimp only
    rw [List.nil_append]
    cases hf : s.fill with
    | nil =>
      unfold ByteStream.fill at hf
      have he : (s.rd.data.drop s.rd.pos).take s.limit = [] := by
        rw [List.take_eq_nil_iff] at hf ⊢
        rcases hf with hf | hf
        · left; omega
        · exact .inr hf
      dsimp only
      rw [hb, he]
      exact ⟨rfl, rfl⟩
    | cons b bs =>
      dsimp only
      have hk : min 8192 s.limit ≤ s.limit := Nat.min_le_right _ _
      unfold ByteStream.fill at hf
      have hl : bs.length + 1 ≤ min 8192 s.limit := by
        have := congrArg List.length hf
        rw [List.length_take, List.length_cons] at this
        omega
      -- the bytes of the buffer and those that follow
      have hpre : (s.rd.data.drop s.rd.pos).take (bs.length + 1) = b :: bs := by
        have := congrArg (List.take (bs.length + 1)) hf
        rw [List.take_take, Nat.min_eq_left hl] at this
        rw [this]
        exact List.take_of_length_le (by simp)
      have hsplit : (s.rd.data.drop s.rd.pos).take s.limit = (b :: bs) ++
          (s.rd.data.drop (s.rd.pos + (bs.length + 1))).take (s.limit - (bs.length + 1)) := by
        rw [← hpre, ← List.drop_drop]
        have : s.limit = (bs.length + 1) + (s.limit - (bs.length + 1)) := by omega
        conv => lhs; rw [this]
        rw [List.take_add]
      rw [hsplit]
      exact ⟨rfl, rfl⟩

theorem ByteStream.run_rest (n : Nat) (s : ByteStream) : s.run n = (List.range n).map fun i => s.rest[i]? := by
  induction n generalizing s with
  | zero => rfl
  | succ n ih =>
    obtain ⟨h1, h2⟩ := s.next_rest
    rw [ByteStream.run, h1, ih, h2, List.range_succ_eq_map, List.map_cons, List.map_map]
    congr 1
    apply List.map_congr_left
    intro i _
    simp

/-- What a sequence of calls gives when the bytes `bs` are to be read: the bytes in order, then `None`. -/
def Spec.bytesThenNone (bs : List UInt8) (n : Nat) : List (Option UInt8) := (List.range n).map fun i => bs[i]?

/-- **C62**, the full statement, which the code does not meet: the bytes that `bytes` gives for a binary table are those
of its main table, whatever has been read of the table before. -/
def C62_statement : Prop :=
  ∀ (p : Profile) (f f' : Fits) (x : Hdu BinTable) (t : TableData) (j : Nat),
    Opened p f f' x t → Legal x.header.xtension f.rd.data x.dataOffset →
    Complete x.header.xtension f.rd.data x.dataOffset →
    ∀ n, (t.after p j).bytes.run n = bytesThenNone ((f.rd.data.drop x.dataOffset).take
      (x.header.xtension.naxis1 * x.header.xtension.naxis2)) n

/-- **C62, ASCII tables.** When the iterator of HDUs returns an ASCII table, `get_data` gives the bytes of the data unit,
as far as they are in the file, in order, and then `None`. -/
theorem C62_ascii {p : Profile} {f f' : Fits} {x : Hdu AsciiTable}
    (hn : f.next p = (some (.ok (.asciiTable x)), f')) :
    ∃ s size, f'.getData p (.asciiTable x) = .ok (.bytes s) ∧ x.header.xtension.numBytes p = .ok size ∧
      ∀ n, s.run n = bytesThenNone ((f.rd.data.drop x.dataOffset).take size) n := by
  obtain ⟨h1, h2, -, h4, -⟩ := next_ok_state hn
  have h4 : x.header.xtension.numBytes p = .ok f'.numBytes := h4
  refine ⟨ByteStream.new f'.rd f'.numBytes, f'.numBytes, ?_, h4, fun n => ?_⟩
  · show (f'.openAscii p x).map OpenUnit.bytes = _
    unfold Fits.openAscii
    rw [h4]
    rfl
  · rw [ByteStream.run_rest]
    show (List.range n).map (fun i => ([] ++ (f'.rd.data.drop f'.rd.pos).take f'.numBytes)[i]?) = _
    rw [h1, h2]
    rfl

/-- **C62, binary tables, partial.** If nothing has been read and no column has been selected, `bytes` gives the bytes
of the main table, as far as they are in the file, in order, and then `None`.  Missing: tables of which something has
been read. -/
theorem C62_partial {p : Profile} {f f' : Fits} {x : Hdu BinTable} {t : TableData} (ho : Opened p f f' x t)
    (hl : Legal x.header.xtension f.rd.data x.dataOffset) (n : Nat) :
    t.bytes.run n = bytesThenNone ((f.rd.data.drop x.dataOffset).take
      (x.header.xtension.naxis1 * x.header.xtension.naxis2)) n := by
  obtain ⟨os, -, rfl⟩ := ho.main hl
  rw [ByteStream.run_rest]
  rfl

/-- **C62 fails**: after one value of the sample table has been read, `bytes` starts at its third byte. -/
theorem C62_fails : ¬ C62_statement := by
  intro h
  obtain ⟨f', x, ho, h1, h2⟩ := opened_mixed .checked
  have hd : (afterPrimary mixedFile).rd.data = mixedFile := rfl
  have := h .checked _ f' x _ 1 ho (by rw [h1, h2]; exact legal_mixed) (by
    rw [h1, h2, hd]
    exact of_decide_eq_true (by decide +kernel)) 2
  rw [h1, h2, hd] at this
  exact absurd this (by decide +kernel)

example (p : Profile) (n : Nat) : (sampleState mixedFile mixedTable [0, 4]).bytes.run n =
    bytesThenNone [0, 1, 0xFF, 0xFE, 65, 66, 67, 1, 0, 0, 3, 68, 69, 70] n := by
  obtain ⟨f', x, ho, h1, h2⟩ := opened_mixed p
  have := C62_partial ho (by rw [h1, h2]; exact legal_mixed) n
  rw [h1, h2] at this
  rw [this, show ((afterPrimary mixedFile).rd.data.drop 5760).take (mixedTable.naxis1 * mixedTable.naxis2) =
    [0, 1, 0xFF, 0xFE, 65, 66, 67, 1, 0, 0, 3, 68, 69, 70] from of_decide_eq_true (by decide +kernel)]

/-- An ASCII table of two rows of three characters. -/
def asciiFile : List UInt8 :=
  emptyPrimary ++
    ([rec80 "XTENSION= 'TABLE'", rec80 "BITPIX  =                    8", rec80 "NAXIS   =                    2",
      rec80 "NAXIS1  =                    3", rec80 "NAXIS2  =                    2", rec80 "PCOUNT  =                    0",
      rec80 "GCOUNT  =                    1", rec80 "TFIELDS =                    1", rec80 "TBCOL1  =                    1",
      rec80 "TFORM1  = 'A3'", rec80 "END"]).flatten ++
    blanks (2880 - 880) ++ [65, 66, 67, 68, 69, 70] ++ blanks 2874

/-- The second call returns an ASCII table at this place, of that size. -/
def returnsAscii (p : Profile) (data : List UInt8) (o n : Nat) : Bool :=
  match ((afterPrimary data).next p).1 with
  | some (.ok (.asciiTable h)) => decide (h.dataOffset = o ∧ h.header.xtension.numBytes p = .ok n)
  | _ => false

set_option maxRecDepth 20000 in
theorem asciiFile_returns (p : Profile) : returnsAscii p asciiFile 5760 6 = true := by
  cases p <;> decide +kernel

set_option maxRecDepth 20000 in
example (p : Profile) : ∃ f' x s, (afterPrimary asciiFile).next p = (some (.ok (.asciiTable x)), f') ∧
    f'.getData p (.asciiTable x) = .ok (.bytes s) ∧ ∀ n, s.run n = bytesThenNone [65, 66, 67, 68, 69, 70] n := by
  have h := asciiFile_returns p
  unfold returnsAscii at h
  cases hn : (afterPrimary asciiFile).next p with
  | mk i f' =>
    rw [hn] at h
    dsimp only at h
    split at h
    · rename_i x
      simp only [decide_eq_true_eq] at h
      obtain ⟨s, size, h1, h2, h3⟩ := C62_ascii hn
      rw [h.2] at h2
      cases h2
      refine ⟨f', x, s, rfl, h1, fun n => ?_⟩
      rw [h3, h.1, show ((afterPrimary asciiFile).rd.data.drop 5760).take 6 = [65, 66, 67, 68, 69, 70] from
        of_decide_eq_true (by decide +kernel)]
    · cases h

end Fitsrs

import Verif.Model.Gz
import Verif.Spec.Samples
/-
C63 opening files compressed with gzip.
-/

namespace Fitsrs
open Spec

/-- The decompressor inverts the compressor on the members of a file, whatever follows the compressed data. -/
def Inflates (inflate : List UInt8 → Res (List UInt8 × Nat)) (ms : List Member) : Prop :=
  ∀ m ∈ ms, ∀ rest, inflate (m.body ++ rest) = .ok (m.content, m.body.length)

/-- **C63, in full.** A gzip file, i.e. a series of members, opens as the file that was compressed. -/
def C63_statement : Prop :=
  ∀ (inflate : List UInt8 → Res (List UInt8 × Nat)) (m : Member) (ms : List Member), Inflates inflate (m :: ms) →
    (∀ x ∈ m :: ms, x.Legal) →
    Session.openFile inflate (((m :: ms).map Member.bytes).flatten) =
      .ok (Session.new ⟨((m :: ms).map Member.content).flatten, 0⟩)

theorem gzSkipText_field {x : List UInt8} {n : Nat} (rest : List UInt8) (hn : x.length ≤ n) (h0 : 0 ∉ x) :
    gzSkipText n (x ++ [0] ++ rest) = some rest := by
  induction x generalizing n with
  | nil => unfold gzSkipText; rfl
  | cons b bs ih =>
    have hb : b ≠ 0 := fun h => h0 (by simp [h])
    cases n with
    | zero => simp at hn
    | succ n =>
      show (if b = 0 then _ else gzSkipText n (bs ++ [0] ++ rest)) = _
      rw [if_neg hb]
      exact ih (by simpa using hn) (fun h => h0 (List.mem_cons_of_mem _ h))

theorem le2 (n : Nat) (rest : List UInt8) : ∃ lo hi, leBytesOf 2 n ++ rest = lo :: hi :: rest ∧
    lo.toNat + 256 * hi.toNat = n % 65536 := by
  refine ⟨UInt8.ofNat n, UInt8.ofNat (n / 256), rfl, ?_⟩
  simp only [UInt8.toNat_ofNat']
  omega

theorem le4_length (n : Nat) : (leBytesOf 4 n).length = 4 := rfl

theorem gzSkipExtra_field {x : List UInt8} (rest : List UInt8) (hx : x.length < 65536) :
    gzSkipExtra (leBytesOf 2 x.length ++ (x ++ rest)) = some rest := by
  obtain ⟨lo, hi, h1, h2⟩ := le2 x.length (x ++ rest)
  rw [h1]
  show (if lo.toNat + 256 * hi.toNat ≤ (x ++ rest).length then some ((x ++ rest).drop _) else none) = _
  rw [h2, Nat.mod_eq_of_lt hx, if_pos (by simp), List.drop_left]

theorem gzCheckCrc_field (head rest : List UInt8) :
    gzCheckCrc head (leBytesOf 2 (crc32 head) ++ rest) = some rest := by
  obtain ⟨lo, hi, h1, h2⟩ := le2 (crc32 head) rest
  rw [h1]
  show (if lo.toNat + 256 * hi.toNat = _ then some rest else none) = _
  rw [if_pos h2]

theorem flags_bits (m : Member) : m.flags.toNat < 32 ∧ m.flags.toNat.testBit 1 = m.crc ∧
    m.flags.toNat.testBit 2 = m.extra.isSome ∧ m.flags.toNat.testBit 3 = m.name.isSome ∧
    m.flags.toNat.testBit 4 = m.comment.isSome := by
  unfold Member.flags
  generalize m.extra.isSome = a
  generalize m.name.isSome = b
  generalize m.comment.isSome = c
  generalize m.text = d
  generalize m.crc = e
  revert a b c d e
  decide

/-- The header of a member is skipped. -/
theorem gzHeader_member {m : Member} (hm : m.Legal) (rest : List UInt8) :
    gzHeader (m.head ++ m.headCrc ++ rest) = some rest := by
  obtain ⟨f0, f1, f2, f3, f4⟩ := flags_bits m
  have e : m.head ++ m.headCrc ++ rest = 0x1F :: 0x8B :: 8 :: m.flags :: UInt8.ofNat m.mtime.toNat ::
      UInt8.ofNat (m.mtime.toNat / 256) :: UInt8.ofNat (m.mtime.toNat / 256 / 256) ::
      UInt8.ofNat (m.mtime.toNat / 256 / 256 / 256) :: m.xfl :: m.os ::
      (m.extraField ++ (Member.textField m.name ++ (Member.textField m.comment ++ (m.headCrc ++ rest)))) := by
    unfold Member.head
    simp only [List.append_assoc]
    rfl
  have h : gzHeader (m.head ++ m.headCrc ++ rest) = gzFields m.flags.toNat (m.head ++ m.headCrc ++ rest)
      (m.extraField ++ (Member.textField m.name ++ (Member.textField m.comment ++ (m.headCrc ++ rest)))) := by
    rw [e]
    show (if _ then _ else _) = _
    rw [if_pos ⟨rfl, rfl, rfl, f0⟩]
  rw [h]
  unfold gzFields
  rw [f1, f2, f3, f4]
  have s1 : gzField m.extra.isSome gzSkipExtra (m.extraField ++ (Member.textField m.name ++
      (Member.textField m.comment ++ (m.headCrc ++ rest)))) =
      some (Member.textField m.name ++ (Member.textField m.comment ++ (m.headCrc ++ rest))) := by
    unfold Member.extraField
    cases hx : m.extra with
    | none => rfl
    | some x =>
      show gzSkipExtra (leBytesOf 2 x.length ++ x ++ _) = _
      rw [List.append_assoc]
      exact gzSkipExtra_field _ (hm.extra x hx)
  have text : ∀ (o : Option (List UInt8)) (r : List UInt8), (∀ x, o = some x → x.length < 65536 ∧ 0 ∉ x) →
      gzField o.isSome (gzSkipText 65535) (Member.textField o ++ r) = some r := by
    intro o r ho
    cases o with
    | none => rfl
    | some x => exact gzSkipText_field r (Nat.le_of_lt_succ (ho x rfl).1) (ho x rfl).2
  rw [s1, Option.bind_some, text _ _ hm.name, Option.bind_some, text _ _ hm.comment, Option.bind_some]
  unfold Member.headCrc gzField
  by_cases hc : m.crc = true
  · rw [if_pos hc, if_pos hc]
    have : (m.head ++ leBytesOf 2 (crc32 m.head) ++ rest).take
        ((m.head ++ leBytesOf 2 (crc32 m.head) ++ rest).length - (leBytesOf 2 (crc32 m.head) ++ rest).length) = m.head := by
      rw [List.append_assoc, List.length_append, Nat.add_sub_cancel, List.take_left]
    rw [this]
    exact gzCheckCrc_field _ _
  · rw [if_neg hc, if_neg hc]
    rfl

/-- The content of the first member. -/
theorem GzReader.new_member {inflate : List UInt8 → Res (List UInt8 × Nat)} {m : Member} (hm : m.Legal)
    (rest : List UInt8) (hi : inflate (m.body ++ (m.trailer ++ rest)) = .ok (m.content, m.body.length)) :
    GzReader.new inflate ⟨m.bytes ++ rest, 0⟩ = .ok ⟨m.content, 0⟩ := by
  have e : m.bytes ++ rest = m.head ++ m.headCrc ++ (m.body ++ (m.trailer ++ rest)) := by
    unfold Member.bytes
    simp only [List.append_assoc]
  unfold GzReader.new
  rw [List.drop_zero, e, gzHeader_member hm]
  dsimp only
  unfold gzContent
  rw [hi]
  dsimp only
  have hl : m.trailer.length = 8 := rfl
  rw [List.drop_left, if_neg (by rw [List.length_append]; omega), if_pos]
  · rfl
  · rw [← hl, List.take_left]
    rfl

/-- **C63, partial.** A gzip file of one member, whatever its optional fields, opens as the file that was compressed: every
program sees the same.  Missing: several members. -/
theorem C63_partial {inflate : List UInt8 → Res (List UInt8 × Nat)} {m : Member} (hi : Inflates inflate [m])
    (hm : m.Legal) : Session.openFile inflate m.bytes = .ok (Session.new ⟨m.content, 0⟩) := by
  have := GzReader.new_member hm [] (hi m (by simp) _)
  rw [List.append_nil] at this
  unfold Session.openFile
  rw [this]
  rfl

/-- **C63, exactly.** Whatever follows the first member of a gzip file (other members, padding or bytes that are no member
at all), the file opens as the content of that member. -/
theorem C63_exact {inflate : List UInt8 → Res (List UInt8 × Nat)} {m : Member} (hi : Inflates inflate [m])
    (hm : m.Legal) (rest : List UInt8) :
    Session.openFile inflate (m.bytes ++ rest) = .ok (Session.new ⟨m.content, 0⟩) := by
  unfold Session.openFile
  rw [GzReader.new_member hm rest (hi m (by simp) _)]
  rfl

/-- **C63, exactly.** A gzip file of several members opens as the file that was compressed exactly if all but the first one
are empty. -/
theorem C63_iff {inflate : List UInt8 → Res (List UInt8 × Nat)} {m : Member} {ms : List Member}
    (hi : Inflates inflate (m :: ms)) (hm : m.Legal) :
    Session.openFile inflate (((m :: ms).map Member.bytes).flatten) =
        .ok (Session.new ⟨((m :: ms).map Member.content).flatten, 0⟩) ↔ ∀ x ∈ ms, x.content = [] := by
  have h := C63_exact (rest := (ms.map Member.bytes).flatten)
    (fun x hx => hi x (by rw [List.mem_singleton.1 hx]; exact List.mem_cons_self ..)) hm
  rw [List.map_cons, List.flatten_cons, h, List.map_cons, List.flatten_cons]
  have hinj : ∀ a b : List UInt8, Session.new ⟨a, 0⟩ = Session.new ⟨b, 0⟩ → a = b := by
    intro a b e
    have := congrArg (fun s : Session => s.fits.rd.data) e
    exact this
  constructor
  · intro e
    have e := hinj _ _ (Res.ok.inj e)
    have e := List.self_eq_append_right.1 e
    intro x hx
    exact List.flatten_eq_nil_iff.1 e _ (List.mem_map_of_mem hx)
  · intro e
    have : (ms.map Member.content).flatten = [] :=
      List.flatten_eq_nil_iff.2 fun l hl => by
        obtain ⟨x, hx, rfl⟩ := List.mem_map.1 hl
        exact e x hx
    rw [this, List.append_nil]

/-- **C63, plain files.** A file that does not start with the two bytes that identify gzip files is read as it is, from its
start, wherever the reader stands; in particular all files that start with `SIMPLE`. -/
theorem C63_plain (inflate : List UInt8 → Res (List UInt8 × Nat)) (file : List UInt8)
    (h : ¬ [0x1F, 0x8B] <+: file) : Session.openFile inflate file = .ok (Session.new ⟨file, 0⟩) := by
  have hn : gzHeader file = none := by
    unfold gzHeader
    split
    · rw [if_neg]
      rintro ⟨rfl, rfl, -⟩
      exact h ⟨_, rfl⟩
    · rfl
  unfold Session.openFile GzReader.new
  rw [List.drop_zero]
  dsimp only
  rw [hn]
  rfl

/-- **C63, damaged files.** If a file with a gzip header opens at all, then what it opens as has the CRC and the length
that are written after the compressed data. -/
theorem C63_checked {inflate : List UInt8 → Res (List UInt8 × Nat)} {file body : List UInt8} {s : Session}
    (hh : gzHeader file = some body) (ho : Session.openFile inflate file = .ok s) :
    ∃ content n, inflate body = .ok (content, n) ∧ s = Session.new ⟨content, 0⟩ ∧
      (body.drop n).take 8 = leBytesOf 4 (crc32 content) ++ leBytesOf 4 content.length := by
  unfold Session.openFile GzReader.new at ho
  rw [List.drop_zero] at ho
  dsimp only at ho
  rw [hh] at ho
  dsimp only at ho
  unfold gzContent at ho
  cases hi : inflate body with
  | err e => rw [hi] at ho; cases ho
  | panic => rw [hi] at ho; cases ho
  | ok x =>
    obtain ⟨content, n⟩ := x
    rw [hi] at ho
    dsimp only at ho
    split at ho
    · cases ho
    · split at ho
      · rename_i ht
        cases ho
        exact ⟨content, n, rfl, rfl, ht⟩
      · cases ho

/-! ### Examples -/

/-- The usual check of the CRC: that of the text `123456789`. -/
example : crc32 [49, 50, 51, 52, 53, 54, 55, 56, 57] = 0xCBF43926 := by decide +kernel

/-- Decompression of data that are stored in one block (RFC 1951, section 3.2.4). -/
def inflateStored : List UInt8 → Res (List UInt8 × Nat)
  | 1 :: lo :: hi :: _ :: _ :: r =>
    if lo.toNat + 256 * hi.toNat ≤ r.length then
      .ok (r.take (lo.toNat + 256 * hi.toNat), lo.toNat + 256 * hi.toNat + 5)
    else .err (.io .unexpectedEof)
  | _ => .err (.io .invalidInput)

/-- A member with all the optional fields, whose content is stored in one block. -/
def storedMember (content : List UInt8) : Member :=
  { text := false, crc := true, extra := some [1, 2, 3], name := some [97, 46, 102], comment := some [0x21], mtime := 12345
    xfl := 0, os := 3, content
    body := 1 :: leBytesOf 2 content.length ++ leBytesOf 2 (65535 - content.length) ++ content }

theorem storedMember_legal (c : List UInt8) : (storedMember c).Legal := by
  refine ⟨fun x hx => ?_, fun x hx => ?_, fun x hx => ?_⟩ <;> · cases hx; decide

theorem storedMember_inflates (cs : List (List UInt8)) (h : ∀ c ∈ cs, c.length < 65536) :
    Inflates inflateStored (cs.map storedMember) := by
  intro m hm rest
  obtain ⟨c, hc, rfl⟩ := List.mem_map.1 hm
  have hl := h c hc
  have e : (storedMember c).body ++ rest = 1 :: UInt8.ofNat c.length :: UInt8.ofNat (c.length / 256) ::
      UInt8.ofNat (65535 - c.length) :: UInt8.ofNat ((65535 - c.length) / 256) :: (c ++ rest) := by
    show (1 :: leBytesOf 2 c.length ++ leBytesOf 2 (65535 - c.length) ++ c) ++ rest = _
    simp only [List.append_assoc]
    rfl
  have e2 : (storedMember c).body.length = c.length + 5 := by
    show (1 :: leBytesOf 2 c.length ++ leBytesOf 2 (65535 - c.length) ++ c).length = _
    rw [List.length_append]
    show 5 + c.length = _
    omega
  have e3 : (UInt8.ofNat c.length).toNat + 256 * (UInt8.ofNat (c.length / 256)).toNat = c.length := by
    simp only [UInt8.toNat_ofNat']
    omega
  rw [e]
  show (if (UInt8.ofNat c.length).toNat + 256 * (UInt8.ofNat (c.length / 256)).toNat ≤ (c ++ rest).length then
    Res.ok ((c ++ rest).take ((UInt8.ofNat c.length).toNat + 256 * (UInt8.ofNat (c.length / 256)).toNat),
      (UInt8.ofNat c.length).toNat + 256 * (UInt8.ofNat (c.length / 256)).toNat + 5) else _) = _
  rw [e3, if_pos (by simp), List.take_left, e2]
  rfl

/-- The sample file, stored in a gzip file. -/
example : Session.openFile inflateStored (storedMember sampleFile).bytes = .ok (Session.new ⟨sampleFile, 0⟩) :=
  C63_partial (storedMember_inflates [sampleFile] (by
    intro c hc
    obtain rfl := List.mem_singleton.1 hc
    decide +kernel)) (storedMember_legal _)

example (inflate : List UInt8 → Res (List UInt8 × Nat)) :
    Session.openFile inflate sampleFile = .ok (Session.new ⟨sampleFile, 0⟩) :=
  C63_plain inflate _ (by decide +kernel)

/-- A block of zeros after the member, as tapes had them. -/
example : Session.openFile inflateStored ((storedMember sampleFile).bytes ++ List.replicate 512 0) =
    .ok (Session.new ⟨sampleFile, 0⟩) :=
  C63_exact (storedMember_inflates [sampleFile] (by
    intro c hc
    obtain rfl := List.mem_singleton.1 hc
    decide +kernel)) (storedMember_legal _) _

/-- An empty member after the first, as some compressors write it. -/
example : Session.openFile inflateStored (([[1, 2], []].map storedMember).map Member.bytes).flatten =
    .ok (Session.new ⟨[1, 2], 0⟩) :=
  (C63_iff (storedMember_inflates [[1, 2], []] (by decide)) (storedMember_legal _)).2 (by
    intro x hx
    obtain rfl := List.mem_singleton.1 hx
    rfl)

/-- **C63 fails**: a file of two members opens as the content of the first one. -/
theorem C63_fails : ¬ C63_statement := by
  intro h
  have := h inflateStored (storedMember [1]) [storedMember [2]]
    (storedMember_inflates [[1], [2]] (by decide)) (fun x hx => by
      rcases List.mem_cons.1 hx with rfl | hx
      · exact storedMember_legal _
      · obtain rfl := List.mem_singleton.1 hx
        exact storedMember_legal _)
  have h2 : GzReader.new inflateStored ⟨(storedMember [1]).bytes ++ (storedMember [2]).bytes, 0⟩ = .ok ⟨[1], 0⟩ :=
    GzReader.new_member (storedMember_legal _) _
      (storedMember_inflates [[1]] (by decide) (storedMember [1]) (by simp) _)
  have e : (([storedMember [1], storedMember [2]]).map Member.bytes).flatten =
      (storedMember [1]).bytes ++ (storedMember [2]).bytes := by simp
  unfold Session.openFile at this
  rw [e, h2] at this
  exact absurd this (by decide)

end Fitsrs

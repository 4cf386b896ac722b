import Verif.Lemmas.Agree
import Verif.Spec.Samples
/-
C60 builds with and without overflow checks agree on what does not panic.
-/

namespace Fitsrs
open Spec

/-- **C60.** Every program that uses a file through the HDU iterator and the data it opens, in whatever order, sees the
same in a build without overflow checks as in a build with checks, up to the end of the program or up to a panic of the
build with checks. -/
theorem C60_program (gz : Gunzip) (fuel : Nat) (calls : List Call) (s : Session) :
    s.run .checked gz fuel calls = s.run .wrapping gz fuel calls ∨
    ∃ seen rest, s.run .checked gz fuel calls = seen ++ [some .panic] ∧ s.run .wrapping gz fuel calls = seen ++ rest := by
  induction calls generalizing s with
  | nil => exact .inl rfl
  | cons c cs ih =>
    rw [Session.run, Session.run]
    rcases s.call_le gz fuel c with ⟨s', e⟩ | e
    · rw [e]
      exact .inr ⟨[], _, rfl, rfl⟩
    rw [e]
    cases s.call .wrapping gz fuel c with
    | none => exact .inl rfl
    | some x =>
      obtain ⟨r, s'⟩ := x
      have key : ∀ r : Res Seen, some r :: s'.run .checked gz fuel cs = some r :: s'.run .wrapping gz fuel cs ∨
          ∃ seen rest, some r :: s'.run .checked gz fuel cs = seen ++ [some .panic] ∧
            some r :: s'.run .wrapping gz fuel cs = seen ++ rest := by
        intro r
        rcases ih s' with h | ⟨seen, rest, h1, h2⟩
        · exact .inl (by rw [h])
        · exact .inr ⟨some r :: seen, rest, by rw [h1]; rfl, by rw [h2]; rfl⟩
      cases r with
      | panic => exact .inl rfl
      | ok v => exact key _
      | err v => exact key _

/-- A program that reads the sample file in part, out of order and twice. -/
def sampleCalls : List Call :=
  [.next, .hdu, .getData 0, .next, .readValue 9, .readValue 10, .readValue 3, .next, .getData 0, .rawBytes, .hdu,
   .getData 0, .next, .readValue 5, .seekRow 1, .hdu]

/-- What it sees, without the contents of the HDUs. -/
def glance : Option (Res Seen) → Option (Res Seen)
  | some (.ok (.hdu (some _))) => some (.ok .unit)
  | x => x

set_option maxRecDepth 20000 in
theorem sampleCalls_seen : ((Session.new ⟨sampleFile, 0⟩).run .checked (.of id) 0 sampleCalls).map glance =
    [some (.ok .illTyped), some (.ok .unit), some (.ok .unit), some (.ok (.pixel (some (.u8 7)))),
     some (.ok (.pixel (some (.u8 7)))), some (.err (.static "Value to retrieve is out of bounds")),
     some (.ok (.pixel (some (.u8 7)))), some (.ok (.pixel (some (.u8 7)))), some (.ok .unit),
     some (.ok (.raw (List.replicate 10 7))), some (.ok .unit), some (.ok .unit),
     some (.ok (.pixel (some (.i16 1)))), some (.ok (.pixel (some (.i16 6)))), some (.ok .illTyped),
     some (.ok (.hdu none))] := by
  decide +kernel

example : (Session.new ⟨sampleFile, 0⟩).run .checked (.of id) 0 sampleCalls =
    (Session.new ⟨sampleFile, 0⟩).run .wrapping (.of id) 0 sampleCalls := by
  rcases C60_program (.of id) 0 sampleCalls (Session.new ⟨sampleFile, 0⟩) with h | ⟨seen, rest, h, -⟩
  · exact h
  · have hs := sampleCalls_seen
    rw [h, List.map_append] at hs
    have : some Res.panic ∈ (List.map glance seen ++ List.map glance [some .panic]) := by
      simp [glance]
    rw [hs] at this
    exact absurd this (by decide)

/-- A header that announces more bytes than a `u64` holds: here the builds differ. -/
def overflowFile : List UInt8 :=
  rec80 "SIMPLE  =                    T" ++ rec80 "BITPIX  =                   64" ++
  rec80 "NAXIS   =                    1" ++ rec80 "NAXIS1  =  4611686018427387904" ++ rec80 "END" ++ blanks 2480

set_option maxRecDepth 20000 in
example : ((Session.new ⟨overflowFile, 0⟩).run .checked (.of id) 0 [.hdu, .hdu]).map glance = [some .panic] ∧
    ((Session.new ⟨overflowFile, 0⟩).run .wrapping (.of id) 0 [.hdu, .hdu]).map glance =
      [some (.ok .unit), some (.ok (.hdu none))] := by
  decide +kernel

/-- **C60**, the iteration over the HDUs alone. -/
theorem C60_hdus (n : Nat) (f : Fits) :
    .panic ∈ f.collect .checked n ∨ f.collect .checked n = f.collect .wrapping n := f.collect_le n

theorem cons_agree {α : Type} (x : Res α) {xs ys : List (Res α)} (h : .panic ∈ xs ∨ xs = ys) :
    .panic ∈ x :: xs ∨ x :: xs = x :: ys := by
  rcases h with h | h
  · exact .inl (List.mem_cons_of_mem _ h)
  · exact .inr (by rw [h])

/-- **C60**, the asynchronous stream of HDUs, whatever the source does. -/
theorem C60_async (n : Nat) (f : AFits) :
    .panic ∈ f.collect .checked n ∨ f.collect .checked n = f.collect .wrapping n := by
  induction n generalizing f with
  | zero => exact .inr rfl
  | succ n ih =>
    rw [AFits.collect, AFits.collect]
    rcases f.pollNext_le with e | e
    · left
      cases h : f.pollNext .checked with
      | mk a b => rw [h] at e; dsimp only at e; subst e; simp
    rw [e]
    cases f.pollNext .wrapping with
    | mk a f' =>
      cases a with
      | pending => exact ih f'
      | ready r =>
        cases r with
        | none => exact .inr rfl
        | some r =>
          cases r with
          | panic => exact .inr rfl
          | ok v => exact cons_agree _ (ih f')
          | err v => exact cons_agree _ (ih f')

/-- **C60**, the asynchronous streams of values. -/
theorem C60_values (n : Nat) (s : St) :
    .panic ∈ s.collect .checked n ∨ s.collect .checked n = s.collect .wrapping n := by
  induction n generalizing s with
  | zero => exact .inr rfl
  | succ n ih =>
    rw [St.collect, St.collect]
    rcases s.pollNext_le with e | e
    · left
      cases h : s.pollNext .checked with
      | mk a b => rw [h] at e; dsimp only at e; subst e; simp
    rw [e]
    cases s.pollNext .wrapping with
    | mk a s' =>
      cases a with
      | pending => exact ih s'
      | ready r =>
        cases r with
        | none => exact .inr rfl
        | some r =>
          cases r with
          | panic => exact .inr rfl
          | ok v => exact cons_agree _ (ih s')
          | err v => exact cons_agree _ (ih s')

/-- **C60**, decoding for the `image` crate: making the decoder, and filling a buffer. -/
theorem C60_decoder (gz : Gunzip) (fuel : Nat) (o : FloatOps) (rd : Reader) (d : Decoder)
    (buf : List UInt8) :
    (Decoder.new .checked fuel rd = some .panic ∨ Decoder.new .checked fuel rd = Decoder.new .wrapping fuel rd) ∧
    (d.readImage .checked gz fuel o buf = some .panic ∨
      d.readImage .checked gz fuel o buf = d.readImage .wrapping gz fuel o buf) :=
  ⟨Decoder.new_le fuel rd, d.readImage_le gz fuel o buf⟩

end Fitsrs

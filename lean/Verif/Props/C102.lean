import Verif.Spec.Position
import Verif.Spec.Samples
import Verif.Props.C97
import Verif.Props.C98
/-
C102 the position of the data unit.
-/

namespace Fitsrs
open Spec

theorem Fits.record_position {p : Profile} {n : Option (Res HDU)} {f : Fits} :
    (∃ h, (Fits.record p n f).1 = some (.ok h) ∧ (Fits.record p n f).2.posStart = h.dataOffset) ∨
    (∀ h, (Fits.record p n f).1 ≠ some (.ok h)) ∧ (Fits.record p n f).2.posStart = f.posStart := by
  unfold Fits.record
  split
  · split
    · exact .inl ⟨_, rfl, rfl⟩
    · exact .inr ⟨(fun h e => by cases e), rfl⟩
    · exact .inr ⟨(fun h e => by cases e), rfl⟩
  · exact .inr ⟨(fun h e => by cases e), rfl⟩
  · exact .inr ⟨(fun h e => by cases e), rfl⟩
  · exact .inr ⟨(fun h e => by cases e), rfl⟩

theorem Fits.next_position (p : Profile) (f : Fits) :
    (∃ h, (f.next p).1 = some (.ok h) ∧ (f.next p).2.posStart = h.dataOffset) ∨
    (∀ h, (f.next p).1 ≠ some (.ok h)) ∧ (f.next p).2.posStart = f.posStart := by
  unfold Fits.next
  split
  · exact .inr ⟨(fun h e => by cases e), rfl⟩
  · split
    · exact Fits.record_position
    · split <;> exact Fits.record_position

theorem Input.record_position {σ : Type} {p : Profile} {n : Option (Res HDU)} {f : Input.File σ} :
    (∃ h, (Input.record p n f).1 = some (.ok h) ∧ (Input.record p n f).2.posStart = h.dataOffset) ∨
    (∀ h, (Input.record p n f).1 ≠ some (.ok h)) ∧ (Input.record p n f).2.posStart = f.posStart := by
  unfold Input.record
  split
  · split
    · exact .inl ⟨_, rfl, rfl⟩
    · exact .inr ⟨(fun h e => by cases e), rfl⟩
    · exact .inr ⟨(fun h e => by cases e), rfl⟩
  · exact .inr ⟨(fun h e => by cases e), rfl⟩
  · exact .inr ⟨(fun h e => by cases e), rfl⟩
  · exact .inr ⟨(fun h e => by cases e), rfl⟩

theorem Input.next_position {σ : Type} (S : Input σ) (p : Profile) (f : Input.File σ) :
    (∃ h, (S.next p f).1 = some (.ok h) ∧ (S.next p f).2.posStart = h.dataOffset) ∨
    (∀ h, (S.next p f).1 ≠ some (.ok h)) ∧ (S.next p f).2.posStart = f.posStart := by
  unfold Input.next
  split
  · exact .inr ⟨(fun h e => by cases e), rfl⟩
  · split
    · exact Input.record_position
    · split <;> exact Input.record_position

theorem Session.close_position (s : Session) : s.close.fits.posStart = s.fits.posStart := by
  unfold Session.close
  split <;> rfl

/-- A call on an opened data unit gives no HDU. -/
theorem Session.onOpened_no_hdu (p : Profile) (c : Call) (o : OpenUnit) (x : HDU) :
    (Session.onOpened p c o).1 ≠ .ok (.hdu (some x)) := by
  intro hx
  unfold Session.onOpened at hx
  split at hx
  · rename_i i d
    dsimp only at hx
    cases ht : (d.pixels.readValue p i).1 <;> rw [ht] at hx <;> cases hx
  · rename_i d
    dsimp only at hx
    cases ht : d.rawBytes p <;> rw [ht] at hx <;> cases hx
  · rename_i t
    dsimp only at hx
    cases ht : t.rawBytes p <;> rw [ht] at hx <;> cases hx
  · rename_i i t
    dsimp only at hx
    cases ht : (t.seekToRow p i).1 <;> rw [ht] at hx <;> cases hx
  all_goals cases hx

/-- One call. -/
theorem Session.call_position {p : Profile} {gz : Gunzip} {fuel : Nat} {c : Call} {s s' : Session} {r : Res Seen}
    (h : s.call p gz fuel c = some (r, s')) :
    (∃ x, r = .ok (.hdu (some x)) ∧ 80 ≤ x.dataOffset ∧ s'.fits.posStart = x.dataOffset) ∨
    hduGiven (some r) = none ∧ s'.fits.posStart = s.fits.posStart := by
  have hc := s.close_position
  have given : ∀ {r : Res Seen}, (∀ x, r ≠ .ok (.hdu (some x))) → hduGiven (some r) = none := by
    intro r hr
    unfold hduGiven
    split
    · rename_i x hx
      exact absurd (Option.some.inj hx) (hr x)
    · rfl
  have used : ∀ (c : Call) (o : OpenUnit), s.useOpened p gz fuel c o = some (r, s') →
      hduGiven (some r) = none ∧ s'.fits.posStart = s.fits.posStart := by
    intro c o hu
    unfold Session.useOpened at hu
    split at hu
    · cases hn : Session.nextItem p gz fuel o with
      | none => rw [hn] at hu; cases hu
      | some x =>
        rw [hn] at hu
        obtain ⟨x1, x2⟩ := x
        cases hu
        refine ⟨given fun y hy => ?_, rfl⟩
        dsimp only at hy
        subst hy
        unfold Session.nextItem at hn
        split at hn
        · cases hn
        · cases hn
        · rename_i t
          cases ht : (t.next p).1 <;> rw [ht] at hn <;> cases hn
        · rename_i t
          cases ht : t.next p fuel with
          | none => rw [ht] at hn; cases hn
          | some z =>
            obtain ⟨z1, z2⟩ := z
            rw [ht] at hn
            cases z1 <;> cases hn
        · rename_i t
          cases ht : t.next p gz fuel with
          | none => rw [ht] at hn; cases hn
          | some z =>
            obtain ⟨z1, z2⟩ := z
            rw [ht] at hn
            cases z1 <;> cases hn
    · have key := Session.onOpened_no_hdu p c o
      split at hu
      · rename_i r1 o1 he
        cases hu
        rw [he] at key
        exact ⟨given key, rfl⟩
      · rename_i r1 he
        cases hu
        rw [he] at key
        exact ⟨given key, hc⟩
  unfold Session.call at h
  split at h
  · have h := Option.some.inj h
    unfold Session.nextHdu at h
    rcases Fits.next_position p s.close.fits with ⟨x, h1, h2⟩ | ⟨h1, h2⟩
    · cases hn : s.close.fits.next p with
      | mk a f =>
        rw [hn] at h h1 h2
        dsimp only at h1
        subst h1
        cases h
        exact .inl ⟨x, rfl, next_ok_after hn, h2⟩
    · cases hn : s.close.fits.next p with
      | mk a f =>
        rw [hn] at h h1 h2
        rw [hc] at h2
        refine .inr ?_
        split at h
        · rename_i he
          cases he
          cases h; exact ⟨rfl, h2⟩
        · rename_i y _ he
          cases he
          exact absurd rfl (h1 y)
        · rename_i he
          cases he
          cases h; exact ⟨rfl, h2⟩
        · rename_i he
          cases he
          cases h; exact ⟨rfl, h2⟩
  · have h := Option.some.inj h
    unfold Session.openData at h
    refine .inr ?_
    split at h
    · cases h; exact ⟨rfl, hc⟩
    · split at h <;> (cases h; exact ⟨rfl, hc⟩)
  · split at h
    · cases h; exact .inr ⟨rfl, rfl⟩
    · exact .inr (used _ _ h)

theorem Session.positions_from (p : Profile) (gz : Gunzip) (fuel : Nat) (cs : List Call) (s : Session) :
    s.positions p gz fuel cs = offsets s.fits.posStart ((s.run p gz fuel cs).map hduGiven) := by
  induction cs generalizing s with
  | nil => rfl
  | cons c cs ih =>
    unfold Session.positions Session.run
    cases hx : s.call p gz fuel c with
    | none => rfl
    | some x =>
      obtain ⟨r, s'⟩ := x
      rcases Session.call_position hx with ⟨x, h1, -, h2⟩ | ⟨h1, h2⟩
      · subst h1
        dsimp only
        rw [ih s', List.map_cons]
        unfold Fits.getPositionDataUnit
        rw [h2]
        rfl
      · cases r with
        | panic =>
          dsimp only
          unfold Fits.getPositionDataUnit
          rw [h2]
          rfl
        | err e =>
          dsimp only
          rw [ih s', List.map_cons, h1]
          unfold Fits.getPositionDataUnit
          rw [h2]
          rfl
        | ok v =>
          dsimp only
          rw [ih s', List.map_cons, h1]
          unfold Fits.getPositionDataUnit
          rw [h2]
          rfl

/-- Every HDU given has its data after a header. -/
theorem Session.run_after (p : Profile) (gz : Gunzip) (fuel : Nat) (cs : List Call) (s : Session) :
    ∀ h, some h ∈ (s.run p gz fuel cs).map hduGiven → 80 ≤ h.dataOffset := by
  induction cs generalizing s with
  | nil => intro h hm; cases hm
  | cons c cs ih =>
    intro h hm
    unfold Session.run at hm
    cases hx : s.call p gz fuel c with
    | none =>
      rw [hx] at hm
      rcases List.mem_cons.mp hm with hm | hm <;> cases hm
    | some x =>
      obtain ⟨r, s'⟩ := x
      rw [hx] at hm
      have one : some h = hduGiven (some r) → 80 ≤ h.dataOffset := by
        intro e
        rcases Session.call_position hx with ⟨x, h1, h2, -⟩ | ⟨h1, -⟩
        · subst h1
          cases e
          exact h2
        · rw [h1] at e; cases e
      cases r with
      | panic =>
        rcases List.mem_cons.mp hm with hm | hm
        · exact one hm
        · cases hm
      | err e =>
        rcases List.mem_cons.mp hm with hm | hm
        · exact one hm
        · exact ih s' h hm
      | ok v =>
        rcases List.mem_cons.mp hm with hm | hm
        · exact one hm
        · exact ih s' h hm

theorem offsets_zero (os : List (Option HDU)) (ho : ∀ h, some h ∈ os → 80 ≤ h.dataOffset) (last k n : Nat)
    (hk : (offsets last os)[k]? = some n) :
    n = 0 ↔ last = 0 ∧ ∀ j, j ≤ k → ∀ h, os[j]? ≠ some (some h) := by
  induction os generalizing last k with
  | nil => cases hk
  | cons o os ih =>
    have ho' := fun h hm => ho h (List.mem_cons_of_mem _ hm)
    cases o with
    | some x =>
      have hx := ho x (List.mem_cons_self ..)
      have right : ¬ (last = 0 ∧ ∀ j, j ≤ k → ∀ h, (some x :: os)[j]? ≠ some (some h)) :=
        fun h => h.2 0 (Nat.zero_le _) x rfl
      cases k with
      | zero =>
        have : x.dataOffset = n := Option.some.inj hk
        exact ⟨fun h => by omega, fun h => absurd h right⟩
      | succ k =>
        have := ih ho' x.dataOffset k hk
        exact ⟨fun h => by have := (this.mp h).1; omega, fun h => absurd h right⟩
    | none =>
      cases k with
      | zero =>
        have : last = n := Option.some.inj hk
        refine ⟨fun h => ⟨by omega, fun j hj x e => ?_⟩, fun h => by omega⟩
        cases (show j = 0 by omega)
        cases e
      | succ k =>
        rw [ih ho' last k hk]
        refine ⟨fun h => ⟨h.1, fun j hj x e => ?_⟩, fun h => ⟨h.1, fun j hj x e => h.2 (j + 1) (by omega) x e⟩⟩
        cases j with
        | zero => cases e
        | succ j => exact h.2 j (by omega) x e

/-- **C102.** At any moment of any program, `get_position_data_unit` gives the place of the data of the HDU that was given last, and 0
before the first one. -/
theorem C102_position (p : Profile) (gz : Gunzip) (fuel : Nat) (rd : Reader) (cs : List Call) :
    (Session.new rd).positions p gz fuel cs = offsets 0 (((Session.new rd).run p gz fuel cs).map hduGiven) :=
  Session.positions_from p gz fuel cs (Session.new rd)

/-- **C102, any reader.** The same holds on any reader, whether its reads and moves fail or not, for a program that goes on whatever
happens. -/
theorem C102_any_reader {σ : Type} (S : Input σ) (p : Profile) (s : σ) (cs : List RawCall) :
    S.positions p cs (Input.fromReader s) = offsets 0 ((S.outcomes p cs (Input.fromReader s)).map rawGiven) := by
  have key : ∀ (cs : List RawCall) (f : Input.File σ), S.positions p cs f = offsets f.posStart ((S.outcomes p cs f).map rawGiven) := by
    intro cs
    induction cs with
    | nil => intro f; rfl
    | cons c cs ih =>
      intro f
      unfold Input.positions Input.outcomes
      rw [ih, List.map_cons]
      unfold Input.File.getPositionDataUnit
      cases c with
      | hdu =>
        rcases Input.next_position S p f with ⟨x, h1, h2⟩ | ⟨h1, h2⟩
        · show (S.next p f).2.posStart :: offsets (S.next p f).2.posStart _ = offsets _ (rawGiven (.hdu (S.next p f).1) :: _)
          rw [h1, h2]
          rfl
        · show (S.next p f).2.posStart :: offsets (S.next p f).2.posStart _ = offsets _ (rawGiven (.hdu (S.next p f).1) :: _)
          have : rawGiven (.hdu (S.next p f).1) = none := by
            unfold rawGiven
            split
            · rename_i h he
              exact absurd (RawOut.hdu.inj he) (h1 _)
            · rfl
          rw [this, h2]
          rfl
      | read n => rfl
      | pixel n =>
        have : rawGiven (S.raw p f (.pixel n)).1 = none := by
          show rawGiven (valueOf (S.readExact n f.rd).1) = none
          cases (S.readExact n f.rd).1 <;> rfl
        rw [this]
        rfl
      | move off => rfl
      | tell => rfl
      | goto pos => rfl
  exact key cs _

/-- **C102, never 0 after an HDU.** Every HDU given begins its data after its header: the position is 0 exactly until an HDU was given. -/
theorem C102_zero (p : Profile) (gz : Gunzip) (fuel : Nat) (rd : Reader) (cs : List Call) (k : Nat) (n : Nat)
    (hk : ((Session.new rd).positions p gz fuel cs)[k]? = some n) :
    n = 0 ↔ ∀ j, j ≤ k → ∀ h, (((Session.new rd).run p gz fuel cs).map hduGiven)[j]? ≠ some (some h) := by
  rw [C102_position] at hk
  have := offsets_zero _ (Session.run_after p gz fuel cs (Session.new rd)) 0 k n hk
  rw [this]
  exact ⟨fun h => h.2, fun h => ⟨rfl, h⟩⟩

/-- A program using both HDUs, that asks too early, too often, and between. -/
example :
    (Session.new ⟨sampleFile, 0⟩).positions .checked (.of id) 0 [.next, .hdu, .getData 0, .next, .hdu, .hdu, .hdu] =
      [0, 2880, 2880, 2880, 8640, 8640, 8640] ∧
    (((Session.new ⟨sampleFile, 0⟩).run .checked (.of id) 0 [.next, .hdu, .getData 0, .next, .hdu, .hdu, .hdu]).map
      hduGiven) = [none, some samplePrimaryHdu, none, none, some sampleImageHdu, none, none] := by
  decide +kernel

/-- The second read of the second header fails: the position stays that of the first HDU. -/
example :
    bufInput.positions .wrapping [.tell, .hdu, .pixel 1, .hdu, .goto 0, .hdu]
      (Input.fromReader (BufReader.new 2880 ⟨sampleFile, 0, [.short 2879, .short 159, .fails]⟩)) =
        [0, 2880, 2880, 2880, 2880, 2880] := by
  decide +kernel

end Fitsrs

import Verif.Model.Input
import Verif.Lemmas.Basic
/-
Simulation of `Reader` by other readers, carried through the HDU iterator.
-/

namespace Fitsrs
namespace Input
variable {σ : Type}

/-- An outcome that shows a failed read: an error that is not the end of the file. -/
def Failed {α : Type} (x : Res α) : Prop := ∃ e, x = .err e ∧ e ≠ .io .unexpectedEof

/-- The reader `S` behaves like `Reader`, as long as reads succeed and positions are below `limit`.  If `F` holds reads may
fail. -/
structure Simulates (S : Input σ) (F : Prop) (limit : Nat) (R : σ → Reader → Prop) : Prop where
  size : ∀ {s r}, R s r → S.size s = r.data.length
  tell : ∀ {s r}, R s r → (S.tell s).1 = r.pos ∧ R (S.tell s).2 r
  read : ∀ {s r} (n : Nat), R s r → ((S.readExact n s).1 = (r.readExact n).1 ∧
    ((∃ bs, (r.readExact n).1 = .ok bs) → R (S.readExact n s).2 (r.readExact n).2)) ∨ F ∧ Failed (S.readExact n s).1
  seek : ∀ {s r} (off : Int), R s r → (r.seekRelative off).2.pos < limit →
    (S.seekRelative off s).1 = (r.seekRelative off).1 ∧
      ((r.seekRelative off).1 = .ok () → R (S.seekRelative off s).2 (r.seekRelative off).2)
  current : ∀ {s r} (off : Int), R s r → (r.seekRelative off).2.pos < limit →
    (S.seekCurrent off s).1 = (r.seekRelative off).1 ∧
      ((r.seekRelative off).1 = .ok () → R (S.seekCurrent off s).2 (r.seekRelative off).2)
  goto : ∀ {s r} (pos : Nat), R s r → pos < limit → (S.seekStart pos s).1 = .ok () ∧ R (S.seekStart pos s).2 (r.seekStart pos)

/-- Two outcomes of reading a header. -/
def Match {α : Type} (F : Prop) (R : σ → Reader → Prop) (x : Res α × HSt σ) (y : Res α × HState) : Prop :=
  (x.1 = y.1 ∧ x.2.nread = y.2.nread ∧ ((∃ a, y.1 = .ok a) → R x.2.rd y.2.rd)) ∨ F ∧ Failed x.1

variable {S : Input σ} {F : Prop} {limit : Nat} {R : σ → Reader → Prop}

theorem Match.of_err {α : Type} {x : Res α × HSt σ} {y : Res α × HState} (h1 : x.1 = y.1) (h2 : x.2.nread = y.2.nread)
    (h3 : ∀ a, y.1 ≠ .ok a) : Match F R x y := .inl ⟨h1, h2, fun ⟨a, h⟩ => absurd h (h3 a)⟩

theorem failed_err {α β : Type} {e : Err} (h : Failed (.err e : Res α)) : Failed (.err e : Res β) := by
  obtain ⟨e', h, hne⟩ := h
  cases h
  exact ⟨_, rfl, hne⟩

theorem consumeNextCard_match (hS : Simulates S F limit R) {s : HSt σ} {t : HState} (hr : R s.rd t.rd) (hn : s.nread = t.nread) :
    Match F R (S.consumeNextCard s) (Fitsrs.consumeNextCard t) := by
  rcases hS.read 80 hr with ⟨h1, h2⟩ | ⟨hF, e, he, hne⟩
  rotate_left
  · refine .inr ⟨hF, e, ?_, hne⟩
    unfold consumeNextCard
    cases hx : S.readExact 80 s.rd with
    | mk a s' =>
      rw [hx] at he
      dsimp only at he
      rw [he]
  unfold consumeNextCard Fitsrs.consumeNextCard
  cases hx : S.readExact 80 s.rd with
  | mk a s' =>
    cases hy : t.rd.readExact 80 with
    | mk b t' =>
      rw [hx, hy] at h1 h2
      dsimp only at h1 h2 ⊢
      subst h1
      cases a with
      | ok bs => exact .inl ⟨rfl, by simp [hn], fun _ => h2 ⟨bs, rfl⟩⟩
      | err e => exact .of_err rfl (by simp [hn]) (by simp)
      | panic => exact .of_err rfl (by simp [hn]) (by simp)

theorem consumeCardsN_match (hS : Simulates S F limit R) (fuel : Nat) {s : HSt σ} {t : HState} (hr : R s.rd t.rd)
    (hn : s.nread = t.nread) : Match F R (S.consumeCardsN fuel s) (Fitsrs.consumeCardsN fuel t) := by
  induction fuel generalizing s t with
  | zero => exact .of_err rfl hn (by simp [Fitsrs.consumeCardsN])
  | succ fuel ih =>
    have h0 := consumeNextCard_match hS hr hn
    unfold consumeCardsN Fitsrs.consumeCardsN
    cases hx : S.consumeNextCard s with
    | mk a s' =>
      cases hy : Fitsrs.consumeNextCard t with
      | mk b t' =>
        rw [hx, hy] at h0
        rcases h0 with ⟨h1, h2, h3⟩ | ⟨hF, e, he, hne⟩
        rotate_left
        · dsimp only at he
          subst he
          exact .inr ⟨hF, e, rfl, hne⟩
        dsimp only at h1 h2 h3 ⊢
        subst h1
        cases a with
        | err e => exact .of_err rfl h2 (by simp)
        | panic => exact .of_err rfl h2 (by simp)
        | ok bs =>
          dsimp only
          cases recordCard bs with
          | err e => exact .of_err rfl h2 (by simp)
          | panic => exact .of_err rfl h2 (by simp)
          | ok c =>
            dsimp only
            by_cases hc : c = .end_
            · rw [if_pos hc, if_pos hc]
              exact .inl ⟨rfl, h2, fun _ => h3 ⟨_, rfl⟩⟩
            · rw [if_neg hc, if_neg hc]
              rcases ih (h3 ⟨_, rfl⟩) h2 with ⟨i1, i2, i3⟩ | ⟨hF, e, he, hne⟩
              rotate_left
              · refine .inr ⟨hF, e, ?_, hne⟩
                show Res.map _ _ = _
                rw [he]
                rfl
              refine .inl ⟨?_, i2, ?_⟩
              · show Res.map _ _ = Res.map _ _
                rw [i1]
              · rintro ⟨x, hx⟩
                obtain ⟨y, hy, -⟩ := Res.map_eq_ok.1 hx
                exact i3 ⟨y, hy⟩

theorem consumeCards_match (hS : Simulates S F limit R) {s : HSt σ} {t : HState} (hr : R s.rd t.rd)
    (hn : s.nread = t.nread) : Match F R (S.consumeCards s) (Fitsrs.consumeCards t) := by
  unfold consumeCards Fitsrs.consumeCards
  rw [hS.size hr]
  exact consumeCardsN_match hS _ hr hn

theorem hduNew_match (hS : Simulates S F limit R) {X : Type} (parse : ValueMap → Res X) (cards : List Card) {s : HSt σ}
    {t : HState} (hr : R s.rd t.rd) (hn : s.nread = t.nread) :
    Match F R (S.hduNew parse cards s) (Hdu.new parse cards t) := by
  unfold hduNew Hdu.new
  cases Header.parse parse cards with
  | err e => exact .of_err rfl hn (by simp)
  | panic => exact .of_err rfl hn (by simp)
  | ok header =>
    dsimp only
    rw [hn]
    by_cases h0 : t.nread % 2880 ≠ 0
    · rw [if_pos h0, if_pos h0]
      rcases hS.read (2880 - t.nread % 2880) hr with ⟨h1, h2⟩ | ⟨hF, e, he, hne⟩
      rotate_left
      · refine .inr ⟨hF, .static "EOF reached", ?_, by simp⟩
        cases hx : S.readExact (2880 - t.nread % 2880) s.rd with
        | mk a s' =>
          rw [hx] at he
          dsimp only at he
          rw [he]
      cases hx : S.readExact (2880 - t.nread % 2880) s.rd with
      | mk a s' =>
        cases hy : t.rd.readExact (2880 - t.nread % 2880) with
        | mk b t' =>
          rw [hx, hy] at h1 h2
          dsimp only at h1 h2 ⊢
          subst h1
          cases a with
          | ok bs =>
            obtain ⟨h3, h4⟩ := hS.tell (h2 ⟨bs, rfl⟩)
            refine .inl ⟨?_, rfl, fun _ => h4⟩
            show Res.ok _ = Res.ok _
            rw [h3]
          | err e => exact .of_err rfl rfl (by simp)
          | panic => exact .of_err rfl rfl (by simp)
    · rw [if_neg h0, if_neg h0]
      obtain ⟨h3, h4⟩ := hS.tell hr
      refine .inl ⟨?_, rfl, fun _ => h4⟩
      show Res.ok _ = Res.ok _
      rw [h3]

theorem Match.wrap {X : Type} {f : Hdu X → HDU} {x : Res (Hdu X) × HSt σ} {y : Res (Hdu X) × HState} (h : Match F R x y) :
    Match F R (Input.wrap f x) (Fitsrs.wrap f y) := by
  rcases h with ⟨h1, h2, h3⟩ | ⟨hF, e, he, hne⟩
  rotate_left
  · refine .inr ⟨hF, e, ?_, hne⟩
    show Res.map _ _ = _
    rw [he]
    rfl
  refine .inl ⟨?_, h2, ?_⟩
  · show Res.map _ _ = Res.map _ _
    rw [h1]
  · rintro ⟨a, ha⟩
    obtain ⟨b, hb, -⟩ := Res.map_eq_ok.1 ha
    exact h3 ⟨b, hb⟩

theorem xtensionOf_match (hS : Simulates S F limit R) (p : Profile) (cards : List Card) {s : HSt σ} {t : HState}
    (hr : R s.rd t.rd) (hn : s.nread = t.nread) : Match F R (S.xtensionOf p cards s) (Fitsrs.xtensionOf p cards t) := by
  cases cards with
  | nil => exact .of_err rfl hn (by simp [Fitsrs.xtensionOf])
  | cons c cs =>
    cases c with
    | xtension k d =>
      cases k with
      | image => exact (hduNew_match hS Image.parse _ hr hn).wrap
      | binTable => exact (hduNew_match hS (BinTable.parse p) _ hr hn).wrap
      | asciiTable => exact (hduNew_match hS AsciiTable.parse _ hr hn).wrap
    | _ => exact .of_err rfl hn (by simp [Fitsrs.xtensionOf])

theorem newXtension_match (hS : Simulates S F limit R) (p : Profile) {s : HSt σ} {t : HState}
    (hr : R s.rd t.rd) (hn : s.nread = t.nread) : Match F R (S.newXtension p s) (HDU.newXtension p t) := by
  have h0 := consumeCards_match hS hr hn
  unfold newXtension HDU.newXtension
  cases hx : S.consumeCards s with
  | mk a s' =>
    cases hy : Fitsrs.consumeCards t with
    | mk b t' =>
      rw [hx, hy] at h0
      rcases h0 with ⟨h1, h2, h3⟩ | ⟨hF, e, he, hne⟩
      rotate_left
      · dsimp only at he
        subst he
        exact .inr ⟨hF, e, rfl, hne⟩
      dsimp only at h1 h2 h3 ⊢
      subst h1
      cases a with
      | err e => exact .of_err rfl h2 (by simp)
      | panic => exact .of_err rfl h2 (by simp)
      | ok cards => exact xtensionOf_match hS p cards (h3 ⟨_, rfl⟩) h2

theorem primaryOf_match (hS : Simulates S F limit R) (cards : List Card) {s : HSt σ} {t : HState}
    (hr : R s.rd t.rd) (hn : s.nread = t.nread) : Match F R (S.primaryOf cards s) (Fitsrs.primaryOf cards t) := by
  have other : ∀ (x : Err), Match F R ((.err x : Res HDU), s) (.err x, t) := fun x => .of_err rfl hn (by simp)
  cases cards with
  | nil => exact .of_err rfl hn (by simp [Fitsrs.primaryOf])
  | cons c cs =>
    cases c with
    | value name v =>
      cases v with
      | logical b d =>
        cases b with
        | true =>
          show Match F R (if name = "SIMPLE".toList then _ else _) (if name = "SIMPLE".toList then _ else _)
          by_cases h : name = "SIMPLE".toList
          · rw [if_pos h, if_pos h]
            exact (hduNew_match hS Image.parse _ hr hn).wrap
          · rw [if_neg h, if_neg h]
            exact other _
        | false => exact other _
      | _ => exact other _
    | _ => exact other _

theorem newPrimary_match (hS : Simulates S F limit R) {s : σ} {r : Reader} (hr : R s r) :
    Match F R (S.newPrimary s) (HDU.newPrimary r) := by
  have h0 := consumeCards_match hS (s := ⟨s, 0⟩) (t := ⟨r, 0⟩) hr rfl
  unfold newPrimary HDU.newPrimary
  cases hx : S.consumeCards ⟨s, 0⟩ with
  | mk a s' =>
    cases hy : Fitsrs.consumeCards ⟨r, 0⟩ with
    | mk b t' =>
      rw [hx, hy] at h0
      rcases h0 with ⟨h1, h2, h3⟩ | ⟨hF, e, he, hne⟩
      rotate_left
      · dsimp only at he
        subst he
        exact .inr ⟨hF, e, rfl, hne⟩
      dsimp only at h1 h2 h3 ⊢
      subst h1
      cases a with
      | err e => exact .of_err rfl h2 (by simp)
      | panic => exact .of_err rfl h2 (by simp)
      | ok cards => exact primaryOf_match hS cards (h3 ⟨_, rfl⟩) h2

/-- The iterators agree. -/
structure Like (R : σ → Reader → Prop) (g : File σ) (f : Fits) : Prop where
  start : g.start = f.start
  posStart : g.posStart = f.posStart
  numBytes : g.numBytes = f.numBytes
  errored : g.errored = f.errored
  rd : R g.rd f.rd

theorem record_like (p : Profile) (n : Option (Res HDU)) {g : File σ} {f : Fits} (h1 : g.start = f.start)
    (h2 : g.posStart = f.posStart) (h3 : g.numBytes = f.numBytes) (h4 : g.errored = f.errored)
    (h5 : (∃ h, n = some (.ok h)) → R g.rd f.rd) :
    (record p n g).1 = (Fits.record p n f).1 ∧
      ((∃ h, (Fits.record p n f).1 = some (.ok h)) → Like R (record p n g).2 (Fits.record p n f).2) := by
  unfold record Fits.record
  match n with
  | none => exact ⟨rfl, by simp⟩
  | some (.err e) => exact ⟨rfl, by simp⟩
  | some .panic => exact ⟨rfl, by simp⟩
  | some (.ok h) =>
    dsimp only
    cases h.dataSize p with
    | ok sz => exact ⟨rfl, fun _ => ⟨h1, rfl, rfl, h4, h5 ⟨_, rfl⟩⟩⟩
    | err e => exact ⟨rfl, by simp⟩
    | panic => exact ⟨rfl, by simp⟩

theorem next_eq (p : Profile) (f : Fits) : f.next p =
    if f.errored then (none, f)
    else if f.start then
      Fits.record p (some (HDU.newPrimary f.rd).1) { f with start := false, rd := (HDU.newPrimary f.rd).2.rd }
    else
      match f.consumeUntilNextHdu p with
      | (.ok _, rd) =>
        Fits.record p (atEnd (HDU.newXtension p { rd, nread := 0 }).1 (HDU.newXtension p { rd, nread := 0 }).2.nread)
          { f with start := false, rd := (HDU.newXtension p { rd, nread := 0 }).2.rd }
      | (.err e, rd) => Fits.record p (some (.err e)) { f with start := false, rd }
      | (.panic, rd) => Fits.record p (some .panic) { f with start := false, rd } := rfl

theorem atEnd_ok {r : Res HDU} {n : Nat} (h : ∃ x, atEnd r n = some (.ok x)) : ∃ x, r = .ok x := by
  obtain ⟨x, hx⟩ := h
  unfold atEnd at hx
  split at hx
  · split at hx
    · cases hx
    · cases hx
  · exact ⟨x, Option.some.inj hx⟩

theorem atEnd_failed {e : Err} {n : Nat} (h : e ≠ .io .unexpectedEof) : atEnd (.err e) n = some (.err e) := by
  unfold atEnd
  split
  · rename_i heq
    cases heq
    exact absurd rfl h
  · rfl

theorem readExact_pos (n : Nat) (r : Reader) : r.pos ≤ (r.readExact n).2.pos := by
  unfold Reader.readExact
  dsimp only
  split
  · exact Nat.le_add_right _ _
  · exact Nat.le_max_left _ _

theorem consumeNextCard_pos (t : HState) : t.rd.pos ≤ (Fitsrs.consumeNextCard t).2.rd.pos := by
  have h := readExact_pos 80 t.rd
  unfold Fitsrs.consumeNextCard
  split <;> (rename_i hx; rw [hx] at h; exact h)

theorem consumeCardsN_pos (fuel : Nat) (t : HState) : t.rd.pos ≤ (Fitsrs.consumeCardsN fuel t).2.rd.pos := by
  induction fuel generalizing t with
  | zero => exact Nat.le_refl _
  | succ fuel ih =>
    have h := consumeNextCard_pos t
    unfold Fitsrs.consumeCardsN
    split
    · rename_i buf s' hx
      rw [hx] at h
      dsimp only at h
      split
      · split
        · exact h
        · exact Nat.le_trans h (ih s')
      · exact h
      · exact h
    · rename_i hx
      rw [hx] at h
      exact h
    · rename_i hx
      rw [hx] at h
      exact h

theorem hduNew_pos {X : Type} (parse : ValueMap → Res X) (cards : List Card) (t : HState) :
    t.rd.pos ≤ (Hdu.new parse cards t).2.rd.pos := by
  unfold Hdu.new
  split
  · split
    · have h := readExact_pos (2880 - t.nread % 2880) t.rd
      dsimp only
      split <;> (rename_i hx; rw [hx] at h; exact h)
    · exact Nat.le_refl _
  · exact Nat.le_refl _
  · exact Nat.le_refl _

theorem xtensionOf_pos (p : Profile) (cards : List Card) (t : HState) :
    t.rd.pos ≤ (Fitsrs.xtensionOf p cards t).2.rd.pos := by
  unfold Fitsrs.xtensionOf
  split
  · exact hduNew_pos _ _ _
  · exact hduNew_pos _ _ _
  · exact hduNew_pos _ _ _
  · exact Nat.le_refl _
  · exact Nat.le_refl _

theorem newXtension_pos (p : Profile) (t : HState) : t.rd.pos ≤ (HDU.newXtension p t).2.rd.pos := by
  have h := consumeCardsN_pos (t.rd.data.length + 1) t
  unfold HDU.newXtension Fitsrs.consumeCards
  split
  · rename_i hx
    rw [hx] at h
    exact Nat.le_trans h (xtensionOf_pos _ _ _)
  · rename_i hx
    rw [hx] at h
    exact h
  · rename_i hx
    rw [hx] at h
    exact h

theorem record_rd (p : Profile) (n : Option (Res HDU)) (f : Fits) : (Fits.record p n f).2.rd = f.rd := by
  unfold Fits.record
  split
  · split <;> rfl
  all_goals rfl

theorem next_like (hS : Simulates S F limit R) (p : Profile) {g : File σ} {f : Fits} (h : Like R g f)
    (hl : (f.next p).2.rd.pos < limit) :
    ((S.next p g).1 = (f.next p).1 ∧ ((∃ x, (f.next p).1 = some (.ok x)) → Like R (S.next p g).2 (f.next p).2)) ∨
      F ∧ ∃ e, (S.next p g).1 = some (.err e) := by
  rw [next_eq] at hl ⊢
  unfold next
  rw [h.errored]
  by_cases he : f.errored = true
  · rw [if_pos he, if_pos he]
    exact .inl ⟨rfl, by simp⟩
  · rw [if_neg he] at hl
    rw [if_neg he, if_neg he, h.start]
    by_cases hs : f.start = true
    · rw [if_pos hs, if_pos hs]
      rcases newPrimary_match hS h.rd with ⟨m1, m2, m3⟩ | ⟨hF, e, he, hne⟩
      rotate_left
      · refine .inr ⟨hF, e, ?_⟩
        rw [he]
        rfl
      rw [m1]
      exact .inl <| record_like p _ rfl h.posStart h.numBytes rfl (fun ⟨x, hx⟩ => m3 ⟨x, Option.some.inj hx⟩)
    · rw [if_neg hs] at hl
      rw [if_neg hs, if_neg hs]
      obtain ⟨t1, t2⟩ := hS.tell h.rd
      have e : consumeUntilNextHdu S p g = match f.skipBytes p with
          | .ok n => S.seekRelative (asI64 n) (S.tell g.rd).2
          | .err e => (.err e, (S.tell g.rd).2)
          | .panic => (.panic, (S.tell g.rd).2) := by
        unfold consumeUntilNextHdu
        rw [t1, h.posStart, h.numBytes]
        rfl
      have e2 : f.consumeUntilNextHdu p = match f.skipBytes p with
          | .ok n => f.rd.seekRelative (asI64 n)
          | .err e => (.err e, f.rd)
          | .panic => (.panic, f.rd) := rfl
      rw [e]
      rw [e2] at hl ⊢
      cases hk : f.skipBytes p with
      | err e' =>
        exact .inl <| record_like p _ rfl h.posStart h.numBytes rfl (fun ⟨x, hx⟩ => by cases hx)
      | panic =>
        exact .inl <| record_like p _ rfl h.posStart h.numBytes rfl (fun ⟨x, hx⟩ => by cases hx)
      | ok n =>
        rw [hk] at hl
        dsimp only at hl ⊢
        have key := hS.seek (asI64 n) t2
        cases hy : f.rd.seekRelative (asI64 n) with
        | mk b r' =>
          rw [hy] at hl key
          dsimp only at hl key
          have hb : r'.pos < limit := by
            cases b with
            | ok u =>
              dsimp only at hl
              rw [record_rd] at hl
              exact Nat.lt_of_le_of_lt (newXtension_pos p ⟨r', 0⟩) hl
            | err e' =>
              dsimp only at hl
              rw [record_rd] at hl
              exact hl
            | panic =>
              dsimp only at hl
              rw [record_rd] at hl
              exact hl
          obtain ⟨k1, k2⟩ := key hb
          cases hx : S.seekRelative (asI64 n) (S.tell g.rd).2 with
          | mk a s' =>
            rw [hx] at k1 k2
            dsimp only at k1 k2
            subst k1
            cases a with
            | err e' =>
              exact .inl <| record_like p _ rfl h.posStart h.numBytes rfl (fun ⟨x, hx⟩ => by cases hx)
            | panic =>
              exact .inl <| record_like p _ rfl h.posStart h.numBytes rfl (fun ⟨x, hx⟩ => by cases hx)
            | ok u =>
              dsimp only
              rcases newXtension_match hS p (s := ⟨s', 0⟩) (t := ⟨r', 0⟩) (k2 rfl) rfl with ⟨m1, m2, m3⟩ | ⟨hF, e, he, hne⟩
              rotate_left
              · refine .inr ⟨hF, e, ?_⟩
                rw [he, atEnd_failed hne]
                rfl
              rw [m1, m2]
              exact .inl <| record_like p _ rfl h.posStart h.numBytes rfl (fun hx => m3 (atEnd_ok hx))

end Input
end Fitsrs

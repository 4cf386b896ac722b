import Verif.Lemmas.Input
import Verif.Spec.Samples
/-
C69 the kind of reader and the way the bytes arrive do not matter; C70 failed reads are reported.
-/

namespace Fitsrs
open Spec

/-- Along the run of a program on the plain reader all positions are below `limit`. -/
def Spec.PosBelow (limit : Nat) (p : Profile) : List RawCall → Fits → Prop
  | [], _ => True
  | c :: cs, f => (f.raw p c).2.rd.pos < limit ∧ ((f.raw p c).1.good = true → PosBelow limit p cs (f.raw p c).2)

/-- The same for a program that decides on its calls as it goes. -/
def Spec.ClientBelow (limit : Nat) (p : Profile) (prog : Client) : Nat → List RawOut → Fits → Prop
  | 0, _, _ => True
  | n + 1, seen, f => ∀ c, prog seen = some c → (f.raw p c).2.rd.pos < limit ∧
      ((f.raw p c).1.good = true → ClientBelow limit p prog n (seen ++ [(f.raw p c).1]) (f.raw p c).2)

/-- The call reported an error. -/
def Spec.Reports : RawOut → Prop
  | .hdu r => ∃ e, r = some (.err e)
  | .bytes r => ∃ e, r = .err e
  | .pixel _ => False
  | .moved r => ∃ e, r = .err e
  | .told _ => False

/-- The result of a failed read: an error, or the end of the values of a data unit. -/
def Spec.ReportsOrEnds (x : RawOut) : Prop := Reports x ∨ x = .pixel none

theorem Spec.ReportsOrEnds.not_good {x : RawOut} (h : ReportsOrEnds x) : x.good = false := by
  rcases h with h | rfl
  · cases x with
    | hdu r => obtain ⟨e, rfl⟩ := h; rfl
    | bytes r => obtain ⟨e, rfl⟩ := h; rfl
    | pixel r => cases h
    | moved r => obtain ⟨e, rfl⟩ := h; rfl
    | told n => cases h
  · rfl

namespace Input
variable {σ : Type} {S : Input σ} {F : Prop} {limit : Nat} {R : σ → Reader → Prop}

theorem raw_like (hS : Simulates S F limit R) (p : Profile) {g : File σ} {f : Fits} (h : Like R g f) (c : RawCall)
    (hl : (f.raw p c).2.rd.pos < limit) :
    ((S.raw p g c).1 = (f.raw p c).1 ∧ ((f.raw p c).1.good = true → Like R (S.raw p g c).2 (f.raw p c).2)) ∨
      F ∧ ReportsOrEnds (S.raw p g c).1 := by
  cases c with
  | hdu =>
    rcases next_like hS p h hl with ⟨h1, h2⟩ | ⟨hF, e, he⟩
    · refine .inl ⟨congrArg RawOut.hdu h1, fun hg => h2 ?_⟩
      have hg : RawOut.good (.hdu (f.next p).1) = true := hg
      generalize (f.next p).1 = r at hg
      match r, hg with
      | some (.ok x), _ => exact ⟨x, rfl⟩
    · exact .inr ⟨hF, .inl ⟨e, he⟩⟩
  | read n =>
    rcases hS.read n h.rd with ⟨h1, h2⟩ | ⟨hF, e, he, -⟩
    · refine .inl ⟨congrArg RawOut.bytes h1, fun hg => ⟨h.start, h.posStart, h.numBytes, h.errored, h2 ?_⟩⟩
      have hg : RawOut.good (.bytes (f.rd.readExact n).1) = true := hg
      generalize (f.rd.readExact n).1 = r at hg
      match r, hg with
      | .ok x, _ => exact ⟨x, rfl⟩
    · exact .inr ⟨hF, .inl ⟨e, he⟩⟩
  | pixel n =>
    rcases hS.read n h.rd with ⟨h1, h2⟩ | ⟨hF, e, he, -⟩
    · refine .inl ⟨congrArg valueOf h1, fun hg => ⟨h.start, h.posStart, h.numBytes, h.errored, h2 ?_⟩⟩
      have hg : RawOut.good (valueOf (f.rd.readExact n).1) = true := hg
      generalize (f.rd.readExact n).1 = r at hg
      match r, hg with
      | .ok x, _ => exact ⟨x, rfl⟩
    · refine .inr ⟨hF, .inr ?_⟩
      show valueOf _ = _
      rw [he]
      rfl
  | move off =>
    obtain ⟨h1, h2⟩ := hS.seek off h.rd hl
    refine .inl ⟨congrArg RawOut.moved h1, fun hg => ⟨h.start, h.posStart, h.numBytes, h.errored, h2 ?_⟩⟩
    have hg : RawOut.good (.moved (f.rd.seekRelative off).1) = true := hg
    generalize (f.rd.seekRelative off).1 = r at hg
    match r, hg with
    | .ok x, _ => rfl
  | tell =>
    obtain ⟨h1, h2⟩ := hS.tell h.rd
    exact .inl ⟨congrArg RawOut.told h1, fun _ => ⟨h.start, h.posStart, h.numBytes, h.errored, h2⟩⟩
  | goto pos =>
    obtain ⟨h1, h2⟩ := hS.goto pos h.rd hl
    exact .inl ⟨congrArg RawOut.moved h1, fun _ => ⟨h.start, h.posStart, h.numBytes, h.errored, h2⟩⟩

theorem rawRun_cases (hS : Simulates S F limit R) (p : Profile) (cs : List RawCall) {g : File σ} {f : Fits} (h : Like R g f)
    (hl : PosBelow limit p cs f) : S.rawRun p cs g = f.rawRun p cs ∨
      F ∧ ∃ k x, k < (f.rawRun p cs).length ∧ S.rawRun p cs g = (f.rawRun p cs).take k ++ [x] ∧ ReportsOrEnds x := by
  induction cs generalizing g f with
  | nil => exact .inl rfl
  | cons c cs ih =>
    have eS : S.rawRun p (c :: cs) g = if (S.raw p g c).1.good then (S.raw p g c).1 :: S.rawRun p cs (S.raw p g c).2
      else [(S.raw p g c).1] := rfl
    have eF : f.rawRun p (c :: cs) = if (f.raw p c).1.good then (f.raw p c).1 :: Fits.rawRun p cs (f.raw p c).2
      else [(f.raw p c).1] := rfl
    rcases raw_like hS p h c hl.1 with ⟨h1, h2⟩ | ⟨hF, hx⟩
    · rw [eS, eF, h1]
      by_cases hg : (f.raw p c).1.good = true
      · rw [if_pos hg, if_pos hg]
        rcases ih (h2 hg) (hl.2 hg) with h3 | ⟨hF, k, x, hk, h3, hx⟩
        · exact .inl (by rw [h3])
        · refine .inr ⟨hF, k + 1, x, by simpa using hk, ?_, hx⟩
          rw [h3]
          rfl
      · rw [if_neg hg, if_neg hg]
        exact .inl rfl
    · refine .inr ⟨hF, 0, (S.raw p g c).1, ?_, ?_, hx⟩
      · rw [eF]
        split <;> simp
      · rw [eS, hx.not_good]
        rfl

theorem clientRun_cases (hS : Simulates S F limit R) (p : Profile) (prog : Client) (n : Nat) {seen : List RawOut} {g : File σ}
    {f : Fits} (h : Like R g f) (hl : ClientBelow limit p prog n seen f) :
    S.clientRun p prog n seen g = f.clientRun p prog n seen ∨
      F ∧ ∃ k x, k < (f.clientRun p prog n seen).length ∧
        S.clientRun p prog n seen g = (f.clientRun p prog n seen).take k ++ [x] ∧ ReportsOrEnds x := by
  induction n generalizing seen g f with
  | zero => exact .inl rfl
  | succ n ih =>
    cases hp : prog seen with
    | none =>
      unfold clientRun Fits.clientRun
      rw [hp]
      exact .inl rfl
    | some c =>
      have eS : S.clientRun p prog (n + 1) seen g = if (S.raw p g c).1.good then
          (S.raw p g c).1 :: S.clientRun p prog n (seen ++ [(S.raw p g c).1]) (S.raw p g c).2 else [(S.raw p g c).1] := by
        conv => lhs; unfold clientRun
        rw [hp]
      have eF : f.clientRun p prog (n + 1) seen = if (f.raw p c).1.good then
          (f.raw p c).1 :: Fits.clientRun p prog n (seen ++ [(f.raw p c).1]) (f.raw p c).2 else [(f.raw p c).1] := by
        conv => lhs; unfold Fits.clientRun
        rw [hp]
      obtain ⟨hl1, hl2⟩ := hl c hp
      rcases raw_like hS p h c hl1 with ⟨h1, h2⟩ | ⟨hF, hx⟩
      · rw [eS, eF, h1]
        by_cases hg : (f.raw p c).1.good = true
        · rw [if_pos hg, if_pos hg]
          rcases ih (h2 hg) (hl2 hg) with h3 | ⟨hF, k, x, hk, h3, hx⟩
          · exact .inl (by rw [h3])
          · refine .inr ⟨hF, k + 1, x, by simpa using hk, ?_, hx⟩
            rw [h3]
            rfl
        · rw [if_neg hg, if_neg hg]
          exact .inl rfl
      · refine .inr ⟨hF, 0, (S.raw p g c).1, ?_, ?_, hx⟩
        · rw [eF]
          split <;> simp
        · rw [eS, hx.not_good]
          rfl

theorem clientRun_eq (hS : Simulates S False limit R) (p : Profile) (prog : Client) (n : Nat) {seen : List RawOut} {g : File σ}
    {f : Fits} (h : Like R g f) (hl : ClientBelow limit p prog n seen f) :
    S.clientRun p prog n seen g = f.clientRun p prog n seen := by
  rcases clientRun_cases hS p prog n h hl with h | ⟨h, -⟩
  · exact h
  · cases h

theorem rawRun_eq (hS : Simulates S False limit R) (p : Profile) (cs : List RawCall) {g : File σ} {f : Fits} (h : Like R g f)
    (hl : PosBelow limit p cs f) : S.rawRun p cs g = f.rawRun p cs := by
  rcases rawRun_cases hS p cs h hl with h | ⟨h, -⟩
  · exact h
  · cases h

end Input

/-! ### Cursors -/

theorem readExact_cases (n : Nat) (r : Reader) :
    ((r.data.drop r.pos).take n).length = n ∧ r.readExact n = (.ok ((r.data.drop r.pos).take n), { r with pos := r.pos + n }) ∨
    ((r.data.drop r.pos).take n).length < n ∧
      r.readExact n = (.err (.io .unexpectedEof), { r with pos := max r.pos r.data.length }) := by
  have hle : ((r.data.drop r.pos).take n).length ≤ n := by rw [List.length_take]; omega
  unfold Reader.readExact
  dsimp only
  by_cases h : ((r.data.drop r.pos).take n).length = n
  · rw [if_pos h]; exact .inl ⟨h, rfl⟩
  · rw [if_neg h]; exact .inr ⟨by omega, rfl⟩

theorem cursor_simulates (limit : Nat) : Input.Simulates cursorInput False limit (fun s r => s = r) where
  size := by rintro s r rfl; rfl
  tell := by rintro s r rfl; exact ⟨rfl, rfl⟩
  read := by
    rintro s r n rfl
    unfold cursorInput
    dsimp only
    rcases readExact_cases n s with ⟨-, h⟩ | ⟨-, h⟩ <;> rw [h]
    · exact .inl ⟨rfl, fun _ => rfl⟩
    · exact .inl ⟨rfl, fun ⟨_, h⟩ => by cases h⟩
  seek := by rintro s r off rfl -; exact ⟨rfl, fun _ => rfl⟩
  current := by rintro s r off rfl -; exact ⟨rfl, fun _ => rfl⟩
  goto := by rintro s r pos rfl -; exact ⟨rfl, rfl⟩

theorem oldCursor_simulates (limit : Nat) : Input.Simulates oldCursorInput False limit (fun s r => s = r) where
  size := by rintro s r rfl; rfl
  tell := by rintro s r rfl; exact ⟨rfl, rfl⟩
  read := by
    rintro s r n rfl
    unfold oldCursorInput
    dsimp only
    rcases readExact_cases n s with ⟨-, h⟩ | ⟨-, h⟩ <;> rw [h]
    · exact .inl ⟨rfl, fun _ => rfl⟩
    · exact .inl ⟨rfl, fun ⟨_, h⟩ => by cases h⟩
  seek := by rintro s r off rfl -; exact ⟨rfl, fun _ => rfl⟩
  current := by rintro s r off rfl -; exact ⟨rfl, fun _ => rfl⟩
  goto := by rintro s r pos rfl -; exact ⟨rfl, rfl⟩

/-! ### `BufReader` -/

/-- The buffer holds the bytes of the file before its position; the reader stands inside the buffer. -/
structure BufReader.Is (b : BufReader) (r : Reader) : Prop where
  data : b.file.data = r.data
  inside : b.bpos ≤ b.buf.length
  before : b.buf.length ≤ b.file.pos
  pos : r.pos + (b.buf.length - b.bpos) = b.file.pos
  all : b.buf = (r.data.drop (b.file.pos - b.buf.length)).take b.buf.length
  size : r.data.length < 2 ^ 63
  small : b.file.pos < 2 ^ 63

namespace BufReader

theorem slow_read {n : Nat} {f : SlowFile} :
    (∃ plan, f.plan = .interrupted :: plan ∧ f.read n = (.interrupted, { f with plan })) ∨
    (∃ plan, f.plan = .fails :: plan ∧ f.read n = (.failed, { f with plan })) ∨
    ∃ k plan, k ≤ n ∧ (n ≠ 0 → k ≠ 0) ∧ plan <:+ f.plan ∧
      f.read n = (.bytes ((f.data.drop f.pos).take k),
        { f with plan, pos := f.pos + ((f.data.drop f.pos).take k).length }) := by
  unfold SlowFile.read
  cases hp : f.plan with
  | nil => exact .inr (.inr ⟨n, [], Nat.le_refl _, fun h => h, List.suffix_refl _, rfl⟩)
  | cons c plan =>
    cases c with
    | interrupted => exact .inl ⟨plan, rfl, rfl⟩
    | fails => exact .inr (.inl ⟨plan, rfl, rfl⟩)
    | short k => exact .inr (.inr ⟨min n (k + 1), plan, by omega, by omega, List.suffix_cons _ _, rfl⟩)

theorem Is.bytes {b : BufReader} {r : Reader} (h : b.Is r) :
    b.buf.drop b.bpos = (r.data.drop r.pos).take (b.buf.length - b.bpos) := by
  have h1 := h.inside
  have h2 := h.before
  have h3 := h.pos
  have h5 := h.size
  have h6 := h.small
  have e := congrArg (List.drop b.bpos) h.all
  rw [List.drop_take, List.drop_drop] at e
  rw [show r.pos = b.file.pos - b.buf.length + b.bpos by omega]
  exact e

/-- A fresh buffer, whatever the file has delivered. -/
theorem is_empty (b : BufReader) (r : Reader) (h1 : b.file.data = r.data) (h2 : b.file.pos = r.pos) (h3 : b.buf = [])
    (h4 : b.bpos = 0) (h5 : r.data.length < 2 ^ 63) (h6 : r.pos < 2 ^ 63) : b.Is r := by
  refine ⟨h1, ?_, ?_, ?_, ?_, h5, by rw [h2]; exact h6⟩ <;> rw [h3] <;> simp [h4, h2]

/-- A full buffer. -/
theorem is_full (b : BufReader) (r : Reader) (k : Nat) (h1 : b.file.data = r.data) (h3 : b.buf = (r.data.drop r.pos).take k)
    (h4 : b.bpos = 0) (h2 : b.file.pos = r.pos + ((r.data.drop r.pos).take k).length)
    (h5 : r.data.length < 2 ^ 63) (h6 : r.pos < 2 ^ 63) : b.Is r := by
  refine ⟨h1, ?_, ?_, ?_, ?_, h5, ?_⟩
  · rw [h4]; omega
  · rw [h3, h2]; omega
  · rw [h3, h2, h4]; omega
  · have e : b.buf.length = ((r.data.drop r.pos).take k).length := by rw [h3]
    rw [e, h2, Nat.add_sub_cancel, h3]
    rw [List.length_take]
    conv => rhs; rw [← List.take_take]
    rw [List.take_of_length_le (i := (r.data.drop r.pos).length) (Nat.le_refl _)]
  · rw [h2, List.length_take, List.length_drop]
    omega

/-- Consuming bytes of the buffer. -/
theorem Is.consume {b : BufReader} {r : Reader} (h : b.Is r) {m : Nat} (hm : m ≤ b.buf.length - b.bpos) :
    Is { b with bpos := b.bpos + m } { r with pos := r.pos + m } := by
  have h1 := h.inside
  have h2 := h.before
  have h3 := h.pos
  have h5 := h.size
  have h6 := h.small
  exact ⟨h.data, by dsimp only; omega, h.before, by dsimp only; omega, h.all, h.size, h.small⟩

theorem read_spec {b : BufReader} {r : Reader} (h : b.Is r) {n : Nat} (hn : n ≠ 0) :
    (∃ b' plan, b.read n = (.interrupted, b') ∧ b'.Is r ∧ b.file.plan = .interrupted :: plan ∧ b'.file.plan = plan) ∨
    (∃ b' plan, b.read n = (.failed, b') ∧ b.file.plan = .fails :: plan) ∨
    ∃ k b', k ≤ n ∧ k ≠ 0 ∧ b.read n = (.bytes ((r.data.drop r.pos).take k), b') ∧
      b'.Is { r with pos := r.pos + ((r.data.drop r.pos).take k).length } ∧
      b'.file.plan <:+ b.file.plan := by
  have h1 := h.inside
  have h2 := h.before
  have h3 := h.pos
  have h5 := h.size
  have h6 := h.small
  have hd := h.data
  unfold read
  by_cases hc : b.bpos = b.buf.length ∧ b.cap ≤ n
  · rw [if_pos hc]
    have hp : b.file.pos = r.pos := by omega
    rcases slow_read (n := n) (f := b.file) with ⟨plan, hpl, e⟩ | ⟨plan, hpl, e⟩ | ⟨k, plan, hk, hk0, hpl, e⟩
    · rw [e]
      exact .inl ⟨_, plan, rfl, is_empty _ _ hd hp rfl rfl h5 (by omega), hpl, rfl⟩
    · rw [e]
      exact .inr (.inl ⟨_, plan, rfl, hpl⟩)
    · rw [e, hd, hp]
      exact .inr (.inr ⟨k, _, hk, hk0 hn, rfl, is_empty _ _ rfl rfl rfl rfl h5
        (by dsimp only; rw [List.length_take, List.length_drop]; omega), hpl⟩)
  · rw [if_neg hc]
    unfold fillBuf
    by_cases hb : b.bpos = b.buf.length
    · rw [if_pos hb]
      have hcap : n < b.cap := by omega
      have hp : b.file.pos = r.pos := by omega
      rcases slow_read (n := b.cap) (f := b.file) with ⟨plan, hpl, e⟩ | ⟨plan, hpl, e⟩ | ⟨k, plan, hk, hk0, hpl, e⟩
      · rw [e]
        exact .inl ⟨_, plan, rfl, is_empty _ _ hd hp rfl rfl h5 (by omega), hpl, rfl⟩
      · rw [e]
        exact .inr (.inl ⟨_, plan, rfl, hpl⟩)
      · have hk0 := hk0 (by omega)
        rw [e, hd, hp]
        dsimp only
        have hfull : Is ⟨⟨r.data, r.pos + ((r.data.drop r.pos).take k).length, plan⟩, b.cap, (r.data.drop r.pos).take k, 0⟩ r :=
          is_full _ r k rfl rfl rfl rfl h5 (by omega)
        refine .inr (.inr ⟨min n k, ⟨⟨r.data, r.pos + ((r.data.drop r.pos).take k).length, plan⟩, b.cap, (r.data.drop r.pos).take k,
          0 + (((r.data.drop r.pos).take k).take n).length⟩, by omega, by omega, ?_, ?_, hpl⟩)
        · rw [List.drop_zero, List.take_take]
        · have := hfull.consume (m := ((r.data.drop r.pos).take (min n k)).length) (by
            dsimp only
            rw [List.length_take, List.length_take]
            omega)
          rw [List.take_take]
          exact this
    · rw [if_neg hb]
      dsimp only
      rw [h.bytes, List.take_take]
      refine .inr (.inr ⟨min n (b.buf.length - b.bpos), _, by omega, by omega, rfl, ?_, List.suffix_refl _⟩)
      refine h.consume ?_
      rw [List.length_take]
      omega

theorem take_split {α : Type} (l : List α) (k n : Nat) (h : k ≤ n) :
    l.take n = l.take k ++ (l.drop k).take (n - k) := by
  conv => lhs; rw [← List.take_append_drop k l]
  rw [List.take_append, List.take_take, Nat.min_eq_right h]
  by_cases hk : k ≤ l.length
  · rw [List.length_take, Nat.min_eq_left hk]
  · rw [List.drop_eq_nil_of_le (by omega)]
    simp

theorem readLoop_spec (fuel : Nat) {n : Nat} {b : BufReader} {r : Reader} (h : b.Is r)
    (hf : n + b.file.plan.length < fuel) :
    ((readLoop fuel n b).1 = (r.readExact n).1 ∧ ((∃ bs, (r.readExact n).1 = .ok bs) →
      (readLoop fuel n b).2.Is (r.readExact n).2 ∧ (readLoop fuel n b).2.file.plan <:+ b.file.plan)) ∨
      .fails ∈ b.file.plan ∧ Input.Failed (readLoop fuel n b).1 := by
  induction fuel generalizing n b r with
  | zero => omega
  | succ fuel ih =>
    unfold readLoop
    by_cases hn : n = 0
    · subst hn
      rw [if_pos rfl]
      rcases readExact_cases 0 r with ⟨-, e⟩ | ⟨hx, -⟩
      · rw [e]
        exact .inl ⟨by simp, fun _ => ⟨h, List.suffix_refl _⟩⟩
      · omega
    · rw [if_neg hn]
      rcases read_spec h hn with ⟨b', plan, e, h', hp, hp'⟩ | ⟨b', plan, e, hp⟩ | ⟨k, b', hk, hk0, e, h', hp⟩
      · rw [e]
        rw [hp, List.length_cons] at hf
        rcases ih (n := n) h' (by rw [hp']; omega) with ⟨i1, i2⟩ | ⟨i1, i2⟩
        · refine .inl ⟨i1, fun hx => ⟨(i2 hx).1, List.IsSuffix.trans (i2 hx).2 ?_⟩⟩
          rw [hp, hp']
          exact List.suffix_cons _ _
        · rw [hp'] at i1
          refine .inr ⟨?_, i2⟩
          rw [hp]
          exact List.mem_cons_of_mem _ i1
      · rw [e]
        refine .inr ⟨by rw [hp]; simp, .io .invalidInput, rfl, by decide⟩
      · rw [e]
        dsimp only
        have hpl := hp.length_le
        have hlen : ((r.data.drop r.pos).take k).length = min k (r.data.length - r.pos) := by
          rw [List.length_take, List.length_drop]
        have hlen2 : ((r.data.drop r.pos).take n).length = min n (r.data.length - r.pos) := by
          rw [List.length_take, List.length_drop]
        by_cases hz : ((r.data.drop r.pos).take k).length = 0
        · rw [if_pos hz]
          rcases readExact_cases n r with ⟨hx, -⟩ | ⟨-, e2⟩
          · omega
          · rw [e2]
            exact .inl ⟨rfl, fun ⟨_, hx⟩ => by cases hx⟩
        · rw [if_neg hz]
          have i := ih (n := n - ((r.data.drop r.pos).take k).length) h' (by omega)
          rcases i with i | ⟨i1, e', i2, hne⟩
          rotate_left
          · refine .inr ⟨hp.subset i1, e', ?_, hne⟩
            rw [i2]
            rfl
          by_cases hfull : k ≤ r.data.length - r.pos
          · have hkl : ((r.data.drop r.pos).take k).length = k := by omega
            rw [hkl] at i ⊢
            obtain ⟨i1, i2⟩ := i
            rw [i1]
            rcases readExact_cases (n - k) { r with pos := r.pos + k } with ⟨hx, e2⟩ | ⟨hx, e2⟩
            · dsimp only at hx
              rw [List.length_take, List.length_drop] at hx
              rcases readExact_cases n r with ⟨-, e3⟩ | ⟨hy, -⟩
              · rw [e2] at i2 ⊢
                rw [e3]
                refine .inl ⟨?_, fun _ => ?_⟩
                · show Res.ok _ = Res.ok _
                  dsimp only
                  rw [take_split (r.data.drop r.pos) k n hk, List.drop_drop]
                · have := i2 ⟨_, rfl⟩
                  dsimp only at this ⊢
                  rw [Nat.add_assoc, Nat.add_sub_cancel' hk] at this
                  exact ⟨this.1, List.IsSuffix.trans this.2 hp⟩
              · omega
            · dsimp only at hx
              rw [List.length_take, List.length_drop] at hx
              rcases readExact_cases n r with ⟨hy, -⟩ | ⟨-, e3⟩
              · omega
              · rw [e2, e3]
                exact .inl ⟨rfl, fun ⟨_, hx⟩ => by cases hx⟩
          · -- the file ends here
            obtain ⟨i1, i2⟩ := i
            rw [i1]
            rcases readExact_cases (n - ((r.data.drop r.pos).take k).length)
              { r with pos := r.pos + ((r.data.drop r.pos).take k).length } with ⟨hx, -⟩ | ⟨hx, e2⟩
            · dsimp only at hx
              rw [List.length_take, List.length_drop] at hx
              omega
            · rcases readExact_cases n r with ⟨hy, -⟩ | ⟨-, e3⟩
              · omega
              · rw [e2, e3]
                exact .inl ⟨rfl, fun ⟨_, hx⟩ => by cases hx⟩

theorem readExact_spec {n : Nat} {b : BufReader} {r : Reader} (h : b.Is r) :
    ((b.readExact n).1 = (r.readExact n).1 ∧ ((∃ bs, (r.readExact n).1 = .ok bs) →
      (b.readExact n).2.Is (r.readExact n).2 ∧ (b.readExact n).2.file.plan <:+ b.file.plan)) ∨
      .fails ∈ b.file.plan ∧ Input.Failed (b.readExact n).1 := by
  unfold readExact
  by_cases hn : n ≤ b.buf.length - b.bpos
  · rw [if_pos hn]
    have e := h.bytes
    have hl := congrArg List.length e
    rw [List.length_drop, List.length_take, List.length_drop] at hl
    rcases readExact_cases n r with ⟨-, e2⟩ | ⟨hx, -⟩
    · rw [e2]
      refine .inl ⟨?_, fun _ => ⟨h.consume hn, List.suffix_refl _⟩⟩
      dsimp only
      rw [e, List.take_take, Nat.min_eq_left hn]
    · rw [List.length_take, List.length_drop] at hx
      omega
  · rw [if_neg hn]
    exact readLoop_spec _ h (by omega)

theorem slow_seek (f : SlowFile) (off : Int) :
    (0 ≤ (f.pos : Int) + off ∧ (f.pos : Int) + off < 2 ^ 63 ∧
      f.seek off = (.ok (), { f with pos := ((f.pos : Int) + off).toNat })) ∨
    ((f.pos : Int) + off < 0 ∨ 2 ^ 63 ≤ (f.pos : Int) + off) ∧ f.seek off = (.err (.io .invalidInput), f) := by
  unfold SlowFile.seek
  by_cases h : 0 ≤ (f.pos : Int) + off ∧ (f.pos : Int) + off < 2 ^ 63
  · rw [if_pos h]; exact .inl ⟨h.1, h.2, rfl⟩
  · rw [if_neg h]; exact .inr ⟨by omega, rfl⟩

theorem seekRelative_cases (r : Reader) (off : Int) :
    (0 ≤ (r.pos : Int) + off ∧ r.seekRelative off = (.ok (), { r with pos := ((r.pos : Int) + off).toNat })) ∨
    ((r.pos : Int) + off < 0 ∨ 2 ^ 64 ≤ (r.pos : Int) + off) ∧ r.seekRelative off = (.err (.io .invalidInput), r) := by
  unfold Reader.seekRelative
  dsimp only
  by_cases h : 0 ≤ (r.pos : Int) + off ∧ (r.pos : Int) + off < two64
  · rw [if_pos h]; exact .inl ⟨h.1, rfl⟩
  · rw [if_neg h]
    refine .inr ⟨?_, rfl⟩
    unfold two64 at h
    omega

theorem seek_spec {b : BufReader} {r : Reader} (h : b.Is r) (off : Int) (hl : (r.seekRelative off).2.pos < 2 ^ 63) :
    (b.seek off).1 = (r.seekRelative off).1 ∧
      ((r.seekRelative off).1 = .ok () → (b.seek off).2.Is (r.seekRelative off).2) := by
  have h1 := h.inside
  have h2 := h.before
  have h3 := h.pos
  have h5 := h.size
  have h6 := h.small
  have hd := h.data
  have tgt : (b.file.pos : Int) + (off - ((b.buf.length : Int) - b.bpos)) = r.pos + off := by omega
  unfold seek
  by_cases hc : -(2 : Int) ^ 63 ≤ off - ((b.buf.length : Int) - b.bpos)
  · rw [if_pos hc]
    rcases seekRelative_cases r off with ⟨q, e⟩ | ⟨q, e⟩
    · rw [e] at hl ⊢
      dsimp only at hl
      rcases slow_seek b.file (off - ((b.buf.length : Int) - b.bpos)) with ⟨-, -, e2⟩ | ⟨hx, -⟩
      · rw [e2, tgt]
        exact ⟨rfl, fun _ => is_empty _ _ hd rfl rfl rfl h5 (by dsimp only; omega)⟩
      · omega
    · rw [e]
      rcases slow_seek b.file (off - ((b.buf.length : Int) - b.bpos)) with ⟨hx, hy, -⟩ | ⟨-, e2⟩
      · omega
      · rw [e2]
        exact ⟨rfl, fun hx => by cases hx⟩
  · rw [if_neg hc]
    rcases seekRelative_cases r off with ⟨q, e⟩ | ⟨q, e⟩
    · rw [e] at hl ⊢
      dsimp only at hl
      rcases slow_seek b.file (-((b.buf.length : Int) - b.bpos)) with ⟨-, -, e2⟩ | ⟨hx, -⟩
      · rw [e2]
        dsimp only
        have e3 : ((b.file.pos : Int) + -((b.buf.length : Int) - b.bpos)).toNat = r.pos := by omega
        rw [e3]
        rcases slow_seek { b.file with pos := r.pos } off with ⟨-, -, e4⟩ | ⟨hx, -⟩
        · rw [e4]
          exact ⟨rfl, fun _ => is_empty _ _ hd rfl rfl rfl h5 (by dsimp only; omega)⟩
        · dsimp only at hx
          omega
      · -- the file stands at 2^63 or more
        exfalso
        omega
    · rw [e]
      rcases slow_seek b.file (-((b.buf.length : Int) - b.bpos)) with ⟨-, -, e2⟩ | ⟨hx, e2⟩
      · rw [e2]
        dsimp only
        have e3 : ((b.file.pos : Int) + -((b.buf.length : Int) - b.bpos)).toNat = r.pos := by omega
        rw [e3]
        rcases slow_seek { b.file with pos := r.pos } off with ⟨hx, hy, -⟩ | ⟨-, e4⟩
        · dsimp only at hx hy
          omega
        · rw [e4]
          exact ⟨rfl, fun hx => by cases hx⟩
      · rw [e2]
        exact ⟨rfl, fun hx => by cases hx⟩

theorem Is.back {b : BufReader} {r : Reader} (h : b.Is r) {m : Nat} (hm : m ≤ b.bpos) :
    Is { b with bpos := b.bpos - m } { r with pos := r.pos - m } := by
  have h1 := h.inside
  have h2 := h.before
  have h3 := h.pos
  have h5 := h.size
  have h6 := h.small
  exact ⟨h.data, by dsimp only; omega, h.before, by dsimp only; omega, h.all, h.size, h.small⟩

theorem seekRelative_spec {b : BufReader} {r : Reader} (h : b.Is r) (off : Int) (hl : (r.seekRelative off).2.pos < 2 ^ 63) :
    (b.seekRelative off).1 = (r.seekRelative off).1 ∧
      ((r.seekRelative off).1 = .ok () → (b.seekRelative off).2.Is (r.seekRelative off).2) := by
  have h1 := h.inside
  have h2 := h.before
  have h3 := h.pos
  have h5 := h.size
  have h6 := h.small
  unfold seekRelative
  by_cases h0 : off < 0
  · rw [if_pos h0]
    by_cases hb : (-off).toNat ≤ b.bpos
    · rw [if_pos hb]
      rcases seekRelative_cases r off with ⟨q, e⟩ | ⟨q, e⟩
      · rw [e]
        refine ⟨rfl, fun _ => ?_⟩
        have e2 : ((r.pos : Int) + off).toNat = r.pos - (-off).toNat := by omega
        dsimp only
        rw [e2]
        exact h.back hb
      · rw [e] at hl
        dsimp only at hl
        exfalso
        omega
    · rw [if_neg hb]
      exact seek_spec h off hl
  · rw [if_neg h0]
    by_cases hb : b.bpos + off.toNat ≤ b.buf.length
    · rw [if_pos hb]
      rcases seekRelative_cases r off with ⟨q, e⟩ | ⟨q, e⟩
      · rw [e]
        refine ⟨rfl, fun _ => ?_⟩
        have e2 : ((r.pos : Int) + off).toNat = r.pos + off.toNat := by omega
        dsimp only
        rw [e2]
        exact h.consume (by omega)
      · rw [e] at hl
        dsimp only at hl
        exfalso
        omega
    · rw [if_neg hb]
      exact seek_spec h off hl

end BufReader

theorem seek_plan (b : BufReader) (off : Int) : (b.seek off).2.file.plan = b.file.plan := by
  have key : ∀ (f : SlowFile) (o : Int), (f.seek o).2.plan = f.plan := by
    intro f o
    unfold SlowFile.seek
    split <;> rfl
  unfold BufReader.seek
  split
  · have := key b.file (off - ((b.buf.length : Int) - b.bpos))
    cases hx : b.file.seek (off - ((b.buf.length : Int) - b.bpos)) with
    | mk r f =>
      rw [hx] at this
      cases r <;> exact this
  · have := key b.file (-((b.buf.length : Int) - b.bpos))
    cases hx : b.file.seek (-((b.buf.length : Int) - b.bpos)) with
    | mk r f =>
      rw [hx] at this
      cases r with
      | ok u => exact (key f off).trans this
      | err e => exact this
      | panic => exact this

theorem seekRelative_plan (b : BufReader) (off : Int) : (b.seekRelative off).2.file.plan = b.file.plan := by
  unfold BufReader.seekRelative
  split
  · split
    · rfl
    · exact seek_plan b off
  · split
    · rfl
    · exact seek_plan b off

theorem seekStart_is {b : BufReader} {r : Reader} (h : b.Is r) {pos : Nat} (hp : pos < 2 ^ 63) :
    b.seekStart pos = (.ok (), { b with file := { b.file with pos }, buf := [], bpos := 0 }) ∧
      (b.seekStart pos).2.Is (r.seekStart pos) := by
  have e : b.seekStart pos = (.ok (), { b with file := { b.file with pos }, buf := [], bpos := 0 }) := by
    unfold BufReader.seekStart SlowFile.seekStart
    rw [if_pos hp]
  rw [e]
  exact ⟨rfl, BufReader.is_empty _ _ h.data rfl rfl rfl h.size hp⟩

/-- The reader, and whether its reads may fail. -/
def BufReader.Reads (F : Prop) (b : BufReader) (r : Reader) : Prop := b.Is r ∧ (F ∨ .fails ∉ b.file.plan)

theorem reads_of {F : Prop} {b b' : BufReader} {r r' : Reader} {n : Nat} {x : Res (List UInt8)}
    (h : b.Reads F r)
    (hx : (x = (r.readExact n).1 ∧ ((∃ bs, (r.readExact n).1 = .ok bs) → b'.Is r' ∧ b'.file.plan <:+ b.file.plan)) ∨
      .fails ∈ b.file.plan ∧ Input.Failed x) :
    (x = (r.readExact n).1 ∧ ((∃ bs, (r.readExact n).1 = .ok bs) → b'.Reads F r')) ∨ F ∧ Input.Failed x := by
  rcases hx with ⟨h1, h2⟩ | ⟨h1, h2⟩
  · exact .inl ⟨h1, fun hb => ⟨(h2 hb).1, h.2.imp id (fun hn hm => hn ((h2 hb).2.subset hm))⟩⟩
  · rcases h.2 with hF | hF
    · exact .inr ⟨hF, h2⟩
    · exact absurd h1 hF

theorem buf_simulates (F : Prop) : Input.Simulates bufInput F (2 ^ 63) (BufReader.Reads F) where
  size h := congrArg List.length h.1.data
  tell {b r} h := by
    refine ⟨?_, h⟩
    have h3 := h.1.pos
    show b.file.pos - (b.buf.length - b.bpos) = r.pos
    omega
  read n h := reads_of h (BufReader.readExact_spec h.1)
  seek {b r} off h hl := by
    obtain ⟨h1, h2⟩ := BufReader.seekRelative_spec h.1 off hl
    exact ⟨h1, fun hx => ⟨h2 hx, by rw [show (bufInput.seekRelative off b) = b.seekRelative off from rfl, seekRelative_plan]; exact h.2⟩⟩
  current {b r} off h hl := by
    obtain ⟨h1, h2⟩ := BufReader.seek_spec h.1 off hl
    exact ⟨h1, fun hx => ⟨h2 hx, by rw [show (bufInput.seekCurrent off b) = b.seek off from rfl, seek_plan]; exact h.2⟩⟩
  goto {b r} pos h hp := by
    obtain ⟨h1, h2⟩ := seekStart_is h.1 hp
    refine ⟨congrArg Prod.fst h1, h2, ?_⟩
    show F ∨ .fails ∉ (b.seekStart pos).2.file.plan
    rw [h1]
    exact h.2

theorem gz_simulates (F : Prop) : Input.Simulates gzInput F (2 ^ 63) (BufReader.Reads F) where
  size h := congrArg List.length h.1.data
  tell {b r} h := by
    have h3 := h.1.pos
    have h6 := h.1.small
    have e : r.seekRelative 0 = (.ok (), r) := by
      rcases BufReader.seekRelative_cases r 0 with ⟨-, e⟩ | ⟨hx, -⟩
      · rw [e, Int.add_zero, Int.toNat_natCast]
      · omega
    refine ⟨?_, ?_, ?_⟩
    · show b.file.pos - (b.buf.length - b.bpos) = r.pos
      omega
    · have := (BufReader.seek_spec h.1 0 (by rw [e]; dsimp only; omega)).2 (by rw [e])
      rw [e] at this
      exact this
    · show F ∨ .fails ∉ (b.seek 0).2.file.plan
      rw [seek_plan]
      exact h.2
  read n h := reads_of h (BufReader.readLoop_spec _ h.1 (by omega))
  seek {b r} off h hl := by
    obtain ⟨h1, h2⟩ := BufReader.seek_spec h.1 off hl
    exact ⟨h1, fun hx => ⟨h2 hx, by rw [show (gzInput.seekRelative off b) = b.seek off from rfl, seek_plan]; exact h.2⟩⟩
  current {b r} off h hl := by
    obtain ⟨h1, h2⟩ := BufReader.seek_spec h.1 off hl
    exact ⟨h1, fun hx => ⟨h2 hx, by rw [show (gzInput.seekCurrent off b) = b.seek off from rfl, seek_plan]; exact h.2⟩⟩
  goto {b r} pos h hp := by
    obtain ⟨h1, h2⟩ := seekStart_is h.1 hp
    refine ⟨congrArg Prod.fst h1, h2, ?_⟩
    show F ∨ .fails ∉ (b.seekStart pos).2.file.plan
    rw [h1]
    exact h.2

theorem PosBelow.mono {l m : Nat} (h : l ≤ m) {p : Profile} {cs : List RawCall} {f : Fits} (hb : PosBelow l p cs f) :
    PosBelow m p cs f := by
  induction cs generalizing f with
  | nil => trivial
  | cons c cs ih => exact ⟨Nat.lt_of_lt_of_le hb.1 h, fun hg => ih (hb.2 hg)⟩

theorem posBelow_exists (p : Profile) (cs : List RawCall) (f : Fits) : ∃ l, PosBelow l p cs f := by
  induction cs generalizing f with
  | nil => exact ⟨0, trivial⟩
  | cons c cs ih =>
    obtain ⟨l, hl⟩ := ih (f.raw p c).2
    refine ⟨max l ((f.raw p c).2.rd.pos + 1), by omega, fun _ => PosBelow.mono (by omega) hl⟩

instance posBelow_decidable (l : Nat) (p : Profile) : (cs : List RawCall) → (f : Fits) → Decidable (PosBelow l p cs f)
  | [], _ => isTrue trivial
  | c :: cs, f =>
    have := posBelow_decidable l p cs (f.raw p c).2
    inferInstanceAs (Decidable (_ ∧ (_ → _)))

theorem reads_new {F : Prop} {data : List UInt8} {cap : Nat} {plan : List ReadEvent} (hd : data.length < 2 ^ 63)
    (hp : F ∨ .fails ∉ plan) : (BufReader.new cap ⟨data, 0, plan⟩).Reads F ⟨data, 0⟩ :=
  ⟨BufReader.is_empty _ _ rfl rfl rfl rfl hd (show 0 < 2 ^ 63 by decide), hp⟩

/-- **C69, files.** A `BufReader` with a buffer of any size, on a file whose reads deliver any number of bytes each time and are
interrupted at any time, gives every program the same results as all the bytes at once. -/
theorem C69_file (p : Profile) (data : List UInt8) (cap : Nat) (plan : List ReadEvent) (cs : List RawCall)
    (hp : .fails ∉ plan) (hd : data.length < 2 ^ 63) (hl : PosBelow (2 ^ 63) p cs (Fits.fromReader ⟨data, 0⟩)) :
    bufInput.rawRun p cs (Input.fromReader (BufReader.new cap ⟨data, 0, plan⟩)) =
      (Fits.fromReader ⟨data, 0⟩).rawRun p cs :=
  Input.rawRun_eq (buf_simulates False) p cs ⟨rfl, rfl, rfl, rfl, reads_new hd (.inr hp)⟩ hl

/-- **C69, FITSFile.** The same for a file opened with `FITSFile::open`. -/
theorem C69_fitsfile (p : Profile) (data : List UInt8) (cap : Nat) (plan : List ReadEvent) (cs : List RawCall)
    (hp : .fails ∉ plan) (hd : data.length < 2 ^ 63) (hl : PosBelow (2 ^ 63) p cs (Fits.fromReader ⟨data, 0⟩)) :
    gzInput.rawRun p cs (Input.fromReader (BufReader.new cap ⟨data, 0, plan⟩)) =
      (Fits.fromReader ⟨data, 0⟩).rawRun p cs :=
  Input.rawRun_eq (gz_simulates False) p cs ⟨rfl, rfl, rfl, rfl, reads_new hd (.inr hp)⟩ hl

/-- **C69, memory.** The same for a `Cursor`, in either version. -/
theorem C69_cursor (p : Profile) (data : List UInt8) (cs : List RawCall) :
    cursorInput.rawRun p cs (Input.fromReader ⟨data, 0⟩) = (Fits.fromReader ⟨data, 0⟩).rawRun p cs ∧
    oldCursorInput.rawRun p cs (Input.fromReader ⟨data, 0⟩) = (Fits.fromReader ⟨data, 0⟩).rawRun p cs := by
  obtain ⟨l, hl⟩ := posBelow_exists p cs (Fits.fromReader ⟨data, 0⟩)
  exact ⟨Input.rawRun_eq (cursor_simulates l) p cs ⟨rfl, rfl, rfl, rfl, rfl⟩ hl,
    Input.rawRun_eq (oldCursor_simulates l) p cs ⟨rfl, rfl, rfl, rfl, rfl⟩ hl⟩

set_option maxRecDepth 20000 in
/-- The sample file, read with a buffer of 7 bytes, single bytes and interruptions: two HDUs, bytes of the second data unit,
and the end. -/
example : ∃ h1 h2 bs cs, bufInput.rawRun .checked [.hdu, .hdu, .read 3, .move (-2), .pixel 1, .hdu]
    (Input.fromReader (BufReader.new 7 ⟨sampleFile, 0, [.interrupted, .short 0, .interrupted, .interrupted, .short 4, .short 100]⟩)) =
    [.hdu (some (.ok h1)), .hdu (some (.ok h2)), .bytes (.ok bs), .moved (.ok ()), .pixel (some cs), .hdu none] := by
  rw [C69_file .checked sampleFile 7 _ _ (by decide) (by decide +kernel) (by decide +kernel)]
  refine ⟨samplePrimaryHdu, sampleImageHdu, [0, 1, 0], [1], ?_⟩
  decide +kernel

theorem ClientBelow.mono {l m : Nat} (h : l ≤ m) {p : Profile} {prog : Client} {n : Nat} {seen : List RawOut} {f : Fits}
    (hb : ClientBelow l p prog n seen f) : ClientBelow m p prog n seen f := by
  induction n generalizing seen f with
  | zero => trivial
  | succ n ih => exact fun c hc => ⟨Nat.lt_of_lt_of_le (hb c hc).1 h, fun hg => ih ((hb c hc).2 hg)⟩

theorem clientBelow_exists (p : Profile) (prog : Client) (n : Nat) (seen : List RawOut) (f : Fits) :
    ∃ l, ClientBelow l p prog n seen f := by
  induction n generalizing seen f with
  | zero => exact ⟨0, trivial⟩
  | succ n ih =>
    cases hp : prog seen with
    | none => exact ⟨0, fun c hc => by rw [hp] at hc; cases hc⟩
    | some c =>
      obtain ⟨l, hl⟩ := ih (seen ++ [(f.raw p c).1]) (f.raw p c).2
      refine ⟨max l ((f.raw p c).2.rd.pos + 1), fun c' hc => ?_⟩
      rw [hp] at hc
      cases hc
      exact ⟨by omega, fun _ => ClientBelow.mono (by omega) hl⟩

/-- **C69, programs that decide as they go.** The calls of the program may depend on the results of the calls before, as those of the
iterators over pixels, tables and tiles do: their results do not depend on the kind of reader, nor on the way the bytes arrive. -/
theorem C69_client (p : Profile) (data : List UInt8) (cap : Nat) (plan : List ReadEvent) (prog : Client) (n : Nat)
    (hp : .fails ∉ plan) (hd : data.length < 2 ^ 63) (hl : ClientBelow (2 ^ 63) p prog n [] (Fits.fromReader ⟨data, 0⟩)) :
    bufInput.clientRun p prog n [] (Input.fromReader (BufReader.new cap ⟨data, 0, plan⟩)) =
        (Fits.fromReader ⟨data, 0⟩).clientRun p prog n [] ∧
      gzInput.clientRun p prog n [] (Input.fromReader (BufReader.new cap ⟨data, 0, plan⟩)) =
        (Fits.fromReader ⟨data, 0⟩).clientRun p prog n [] :=
  ⟨Input.clientRun_eq (buf_simulates False) p prog n ⟨rfl, rfl, rfl, rfl, reads_new hd (.inr hp)⟩ hl,
    Input.clientRun_eq (gz_simulates False) p prog n ⟨rfl, rfl, rfl, rfl, reads_new hd (.inr hp)⟩ hl⟩

/-- **C69, memory, programs that decide as they go.** -/
theorem C69_client_cursor (p : Profile) (data : List UInt8) (prog : Client) (n : Nat) :
    cursorInput.clientRun p prog n [] (Input.fromReader ⟨data, 0⟩) = (Fits.fromReader ⟨data, 0⟩).clientRun p prog n [] ∧
    oldCursorInput.clientRun p prog n [] (Input.fromReader ⟨data, 0⟩) = (Fits.fromReader ⟨data, 0⟩).clientRun p prog n [] := by
  obtain ⟨l, hl⟩ := clientBelow_exists p prog n [] (Fits.fromReader ⟨data, 0⟩)
  exact ⟨Input.clientRun_eq (cursor_simulates l) p prog n ⟨rfl, rfl, rfl, rfl, rfl⟩ hl,
    Input.clientRun_eq (oldCursor_simulates l) p prog n ⟨rfl, rfl, rfl, rfl, rfl⟩ hl⟩

/-- Two HDUs; then the place of the data, a byte, as many more bytes as it says, and back to the place; then bytes again. -/
def sampleClient : Client := fun seen =>
  match seen with
  | [] | [_] => some .hdu
  | [_, _] => some .tell
  | [_, _, .told _] => some (.read 2)
  | [_, _, .told _, .bytes (.ok [_, b])] => some (.read b.toNat)
  | [_, _, .told pos, _, _] => some (.goto pos)
  | [_, _, _, _, _, _] => some (.pixel 2)
  | _ => none

instance clientBelow_decidable (l : Nat) (p : Profile) (prog : Client) :
    (n : Nat) → (seen : List RawOut) → (f : Fits) → Decidable (ClientBelow l p prog n seen f)
  | 0, _, _ => isTrue trivial
  | n + 1, seen, f =>
    match h : prog seen with
    | none => isTrue fun c hc => by rw [h] at hc; cases hc
    | some c =>
      have := clientBelow_decidable l p prog n (seen ++ [(f.raw p c).1]) (f.raw p c).2
      decidable_of_iff ((f.raw p c).2.rd.pos < l ∧
        ((f.raw p c).1.good = true → ClientBelow l p prog n (seen ++ [(f.raw p c).1]) (f.raw p c).2))
        ⟨fun hx c' hc => by rw [h] at hc; cases hc; exact hx, fun hx => hx c h⟩

set_option maxRecDepth 20000 in
/-- On the sample file, single bytes and interruptions. -/
example : ∃ h1 h2, bufInput.clientRun .checked sampleClient 9 []
      (Input.fromReader (BufReader.new 7 ⟨sampleFile, 0, [.short 0, .interrupted, .short 3]⟩)) =
    [.hdu (some (.ok h1)), .hdu (some (.ok h2)), .told 8640, .bytes (.ok [0, 1]), .bytes (.ok [0]), .moved (.ok ()),
     .pixel (some [0, 1])] := by
  refine ⟨samplePrimaryHdu, sampleImageHdu, ?_⟩
  rw [(C69_client .checked sampleFile 7 [.short 0, .interrupted, .short 3] sampleClient 9 (by decide) (by decide +kernel)
    (by decide +kernel)).1]
  decide +kernel

/-! ### C70 -/

/-- **C70, in full.** If a read of the file fails, the program gets the results it would have got without the failure up to some
call, and that call reports an error: failures are not taken for the end of the file or of the data, nor for data. -/
def C70_statement : Prop :=
  ∀ (p : Profile) (data : List UInt8) (cap : Nat) (plan : List ReadEvent) (cs : List RawCall), data.length < 2 ^ 63 →
    PosBelow (2 ^ 63) p cs (Fits.fromReader ⟨data, 0⟩) →
    bufInput.rawRun p cs (Input.fromReader (BufReader.new cap ⟨data, 0, plan⟩)) = (Fits.fromReader ⟨data, 0⟩).rawRun p cs ∨
    ∃ k x, k < ((Fits.fromReader ⟨data, 0⟩).rawRun p cs).length ∧
      bufInput.rawRun p cs (Input.fromReader (BufReader.new cap ⟨data, 0, plan⟩)) =
        ((Fits.fromReader ⟨data, 0⟩).rawRun p cs).take k ++ [x] ∧ Reports x

/-- **C70, partial** (full statement: `C70_statement`): the call reports an error, or it is a call of an iterator over values,
and returns `None`. -/
theorem C70_partial (p : Profile) (data : List UInt8) (cap : Nat) (plan : List ReadEvent) (cs : List RawCall)
    (hd : data.length < 2 ^ 63) (hl : PosBelow (2 ^ 63) p cs (Fits.fromReader ⟨data, 0⟩)) :
    bufInput.rawRun p cs (Input.fromReader (BufReader.new cap ⟨data, 0, plan⟩)) = (Fits.fromReader ⟨data, 0⟩).rawRun p cs ∨
    ∃ k x, k < ((Fits.fromReader ⟨data, 0⟩).rawRun p cs).length ∧
      bufInput.rawRun p cs (Input.fromReader (BufReader.new cap ⟨data, 0, plan⟩)) =
        ((Fits.fromReader ⟨data, 0⟩).rawRun p cs).take k ++ [x] ∧ ReportsOrEnds x := by
  rcases Input.rawRun_cases (buf_simulates True) p cs
      (g := Input.fromReader (BufReader.new cap ⟨data, 0, plan⟩)) (f := Fits.fromReader ⟨data, 0⟩)
      ⟨rfl, rfl, rfl, rfl, reads_new hd (.inl trivial)⟩ hl with h | ⟨-, h⟩
  · exact .inl h
  · exact .inr h

/-- **C70, FITSFile, partial.** The same for a file opened with `FITSFile::open`. -/
theorem C70_fitsfile_partial (p : Profile) (data : List UInt8) (cap : Nat) (plan : List ReadEvent) (cs : List RawCall)
    (hd : data.length < 2 ^ 63) (hl : PosBelow (2 ^ 63) p cs (Fits.fromReader ⟨data, 0⟩)) :
    gzInput.rawRun p cs (Input.fromReader (BufReader.new cap ⟨data, 0, plan⟩)) = (Fits.fromReader ⟨data, 0⟩).rawRun p cs ∨
    ∃ k x, k < ((Fits.fromReader ⟨data, 0⟩).rawRun p cs).length ∧
      gzInput.rawRun p cs (Input.fromReader (BufReader.new cap ⟨data, 0, plan⟩)) =
        ((Fits.fromReader ⟨data, 0⟩).rawRun p cs).take k ++ [x] ∧ ReportsOrEnds x := by
  rcases Input.rawRun_cases (gz_simulates True) p cs
      (g := Input.fromReader (BufReader.new cap ⟨data, 0, plan⟩)) (f := Fits.fromReader ⟨data, 0⟩)
      ⟨rfl, rfl, rfl, rfl, reads_new hd (.inl trivial)⟩ hl with h | ⟨-, h⟩
  · exact .inl h
  · exact .inr h

/-- **C70, programs that decide as they go, partial** (full statement: `C70_statement`). -/
theorem C70_client_partial (p : Profile) (data : List UInt8) (cap : Nat) (plan : List ReadEvent) (prog : Client) (n : Nat)
    (hd : data.length < 2 ^ 63) (hl : ClientBelow (2 ^ 63) p prog n [] (Fits.fromReader ⟨data, 0⟩)) :
    bufInput.clientRun p prog n [] (Input.fromReader (BufReader.new cap ⟨data, 0, plan⟩)) =
      (Fits.fromReader ⟨data, 0⟩).clientRun p prog n [] ∨
    ∃ k x, k < ((Fits.fromReader ⟨data, 0⟩).clientRun p prog n []).length ∧
      bufInput.clientRun p prog n [] (Input.fromReader (BufReader.new cap ⟨data, 0, plan⟩)) =
        ((Fits.fromReader ⟨data, 0⟩).clientRun p prog n []).take k ++ [x] ∧ ReportsOrEnds x := by
  rcases Input.clientRun_cases (buf_simulates True) p prog n (seen := [])
      (g := Input.fromReader (BufReader.new cap ⟨data, 0, plan⟩)) (f := Fits.fromReader ⟨data, 0⟩)
      ⟨rfl, rfl, rfl, rfl, reads_new hd (.inl trivial)⟩ hl with h | ⟨-, h⟩
  · exact .inl h
  · exact .inr h

theorem pixel_of_run {σ : Type} {S : Input σ} {p : Profile} {cs : List RawCall} {g : Input.File σ} {v : Option (List UInt8)}
    (h : .pixel v ∈ S.rawRun p cs g) : ∃ n, .pixel n ∈ cs := by
  induction cs generalizing g with
  | nil => cases h
  | cons c cs ih =>
    have hc : ∀ x, x = (S.raw p g c).1 → x = .pixel v → ∃ n, c = .pixel n := by
      intro x hx hv
      rw [hv] at hx
      cases c with
      | pixel n => exact ⟨n, rfl⟩
      | hdu => cases hx
      | read n => cases hx
      | move n => cases hx
      | tell => cases hx
      | goto n => cases hx
    have h' : .pixel v ∈ (if (S.raw p g c).1.good then (S.raw p g c).1 :: S.rawRun p cs (S.raw p g c).2
      else [(S.raw p g c).1]) := h
    split at h'
    · rcases List.mem_cons.1 h' with h1 | h1
      · obtain ⟨n, rfl⟩ := hc _ rfl h1.symm
        exact ⟨n, by simp⟩
      · obtain ⟨n, hn⟩ := ih h1
        exact ⟨n, List.mem_cons_of_mem _ hn⟩
    · obtain ⟨n, rfl⟩ := hc _ rfl (List.mem_singleton.1 h').symm
      exact ⟨n, by simp⟩

/-- **C70, HDUs, partial.** For programs that read bytes and HDUs, and do not use the iterators over values, the statement holds. -/
theorem C70_hdus_partial (p : Profile) (data : List UInt8) (cap : Nat) (plan : List ReadEvent) (cs : List RawCall)
    (hd : data.length < 2 ^ 63) (hl : PosBelow (2 ^ 63) p cs (Fits.fromReader ⟨data, 0⟩)) (hc : ∀ n, .pixel n ∉ cs) :
    bufInput.rawRun p cs (Input.fromReader (BufReader.new cap ⟨data, 0, plan⟩)) = (Fits.fromReader ⟨data, 0⟩).rawRun p cs ∨
    ∃ k x, k < ((Fits.fromReader ⟨data, 0⟩).rawRun p cs).length ∧
      bufInput.rawRun p cs (Input.fromReader (BufReader.new cap ⟨data, 0, plan⟩)) =
        ((Fits.fromReader ⟨data, 0⟩).rawRun p cs).take k ++ [x] ∧ Reports x := by
  rcases C70_partial p data cap plan cs hd hl with h | ⟨k, x, hk, h, hx⟩
  · exact .inl h
  · rcases hx with hx | hx
    · exact .inr ⟨k, x, hk, h, hx⟩
    · subst hx
      obtain ⟨n, hn⟩ := pixel_of_run (S := bufInput) (p := p) (cs := cs)
        (g := Input.fromReader (BufReader.new cap ⟨data, 0, plan⟩)) (v := none) (by rw [h]; simp)
      exact absurd hn (hc n)

set_option maxRecDepth 20000 in
/-- **C70 fails**: the iterator over pixels takes a failed read for the end of the data. -/
theorem C70_fails : ¬ C70_statement := by
  intro h
  have e1 : bufInput.rawRun .checked [.hdu, .pixel 1] (Input.fromReader (BufReader.new 2880 ⟨sampleFile, 0, [.short 2879, .fails]⟩)) =
      [.hdu (some (.ok samplePrimaryHdu)), .pixel none] := by decide +kernel
  have e2 : (Fits.fromReader ⟨sampleFile, 0⟩).rawRun .checked [.hdu, .pixel 1] =
      [.hdu (some (.ok samplePrimaryHdu)), .pixel (some [7])] := by decide +kernel
  have := h .checked sampleFile 2880 [.short 2879, .fails] [.hdu, .pixel 1] (by decide +kernel) (by decide +kernel)
  rw [e1, e2] at this
  rcases this with h | ⟨k, x, hk, h, hx⟩
  · exact absurd h (by decide)
  · match k, hk with
    | 0, _ => simp at h
    | 1, _ =>
      have : x = .pixel none := by
        have := (List.cons.inj h).2
        simpa using this.symm
      rw [this] at hx
      exact hx

set_option maxRecDepth 20000 in
/-- A failure in the second header. -/
example : bufInput.rawRun .checked [.hdu, .hdu, .read 3] (Input.fromReader (BufReader.new 2880 ⟨sampleFile, 0, [.short 2879, .fails]⟩)) =
    [.hdu (some (.ok samplePrimaryHdu)), .hdu (some (.err (.io .invalidInput)))] := by decide +kernel

end Fitsrs

import Verif.Model.InputBytes
import Verif.Props.C93
import Verif.Lemmas.Next
import Verif.Props.C62
/-
C94: the bytes of ASCII tables and of binary tables do not depend on the kind of reader.
-/

namespace Fitsrs
open Spec

/-- A stream of at most `limit` bytes from there stays in the data unit, which ends below 2^63, and whose HDU has been returned. -/
structure Spec.Room (f : Fits) (limit pos : Nat) : Prop where
  start : f.start = false
  errored : f.errored = false
  after : f.posStart ≤ pos
  before : pos + limit ≤ f.posStart + f.numBytes
  small : f.posStart + roundUp2880 f.numBytes < 2 ^ 63

/-- If a stream of bytes is opened it stays in the data unit. -/
def Spec.Settled (s : Session) : Prop :=
  match s.opened with
  | some (.bytes b) => Room s.fits b.limit b.rd.pos
  | _ => True

/-- The call is one of those of the model, the positions are below the limit, and what follows the use of a stream of bytes
is the next HDU. -/
def Spec.AnyWithin (limit : Nat) (p : Profile) (fuel : Nat) (c : Call) (s : Session) : Prop :=
  match c, s.opened with
  | .next, some (.bytes _) => True
  | .hdu, some (.bytes _) => CallWithin limit p fuel .hdu s
  | _, some (.bytes _) => False
  | .bytes, some (.table _) => True
  | c, _ => CallWithin limit p fuel c s

/-- All the calls of a program are so, up to the first in which a read fails. -/
def Spec.WithinAny (limit : Nat) (p : Profile) (gz : Gunzip) (fuel : Nat) : List Call → Session → Prop
  | [], _ => True
  | c :: cs, s => AnyWithin limit p fuel c s ∧
    ∀ r s', s.call p gz fuel c = some (r, s') → s.failsAny p fuel c = false → Settled s' ∧ WithinAny limit p gz fuel cs s'

/-! ### Streams of bytes -/

/-- The bytes still to come. -/
def left (data : List UInt8) (pos limit : Nat) (buf : List UInt8) : List UInt8 := buf ++ (data.drop pos).take limit

theorem left_step {data : List UInt8} {pos limit k : Nat} {b : UInt8} {bs : List UInt8} (hk : k ≤ limit)
    (h : (data.drop pos).take k = b :: bs) :
    (left data pos limit []).head? = some b ∧ left data (pos + (bs.length + 1)) (limit - (bs.length + 1)) bs =
      (left data pos limit []).tail ∧ bs.length + 1 ≤ limit := by
  have hlen : ((data.drop pos).take k).length = bs.length + 1 := by rw [h]; rfl
  rw [List.length_take] at hlen
  have hle : bs.length + 1 ≤ k := by omega
  have hk2 : (data.drop pos).take (bs.length + 1) = b :: bs := by
    rw [← h, ← hlen, Nat.min_comm, ← List.take_take, h]
    rw [List.take_of_length_le]
    have : ((data.drop pos).take k).length ≤ (data.drop pos).length := by rw [List.length_take]; omega
    rw [h] at this
    exact this
  have e : left data pos limit [] = b :: left data (pos + (bs.length + 1)) (limit - (bs.length + 1)) bs := by
    unfold left
    rw [List.nil_append, BufReader.take_split _ (bs.length + 1) limit (by omega), hk2, List.drop_drop]
    rfl
  rw [e]
  exact ⟨rfl, rfl, by omega⟩

theorem left_end {data : List UInt8} {pos limit k : Nat} (hk : k ≠ 0 ∨ limit = 0) (h : (data.drop pos).take k = []) :
    left data pos limit [] = [] := by
  unfold left
  rw [List.nil_append]
  rcases hk with hk | hk
  · rcases List.take_eq_nil_iff.1 h with h | h
    · exact absurd h hk
    · rw [h, List.take_nil]
  · rw [hk, List.take_zero]

theorem ByteStream.next_left (b : ByteStream) : b.next.1 = (left b.rd.data b.rd.pos b.limit b.buf).head? ∧
    left b.next.2.rd.data b.next.2.rd.pos b.next.2.limit b.next.2.buf = (left b.rd.data b.rd.pos b.limit b.buf).tail ∧
    b.next.2.rd.data = b.rd.data ∧ b.rd.pos ≤ b.next.2.rd.pos ∧ b.next.2.rd.pos + b.next.2.limit = b.rd.pos + b.limit := by
  obtain ⟨rd, limit, buf⟩ := b
  unfold ByteStream.next
  dsimp only
  cases buf with
  | cons b bs => exact ⟨rfl, rfl, rfl, Nat.le_refl _, rfl⟩
  | nil =>
    dsimp only
    cases hf : ByteStream.fill ⟨rd, limit, []⟩ with
    | nil =>
      dsimp only
      have := left_end (k := min 8192 limit) (limit := limit) (by omega) hf
      rw [this]
      exact ⟨rfl, rfl, rfl, Nat.le_refl _, rfl⟩
    | cons b bs =>
      dsimp only
      obtain ⟨h1, h2, h3⟩ := left_step (k := min 8192 limit) (limit := limit) (by omega) hf
      refine ⟨h1.symm, h2, rfl, by omega, by omega⟩

namespace Input
variable {σ : Type} {S : Input σ} {more : SomeBytes σ} {F : Prop} {limit : Nat} {R : σ → Reader → Prop}

/-- Reads give some of the bytes; none only at the end of the file. -/
def Gives (more : SomeBytes σ) (F : Prop) (R : σ → Reader → Prop) : Prop :=
  ∀ {s r} (n : Nat), n ≠ 0 → R s r → (∃ k, k ≤ n ∧ k ≠ 0 ∧ (more n s).1 = .ok ((r.data.drop r.pos).take k) ∧
    R (more n s).2 { r with pos := r.pos + ((r.data.drop r.pos).take k).length }) ∨ F ∧ ∃ e, (more n s).1 = .err e

theorem nextByte_left (hM : Gives more F R) {rd : σ} {data : List UInt8} {pos : Nat} (hr : R rd ⟨data, pos⟩) (limit : Nat)
    (buf : List UInt8) :
    (∃ limit' buf' rd' pos', nextByte more rd limit buf = (.ok (left data pos limit buf).head?, (limit', buf'), rd') ∧
      R rd' ⟨data, pos'⟩ ∧ left data pos' limit' buf' = (left data pos limit buf).tail ∧ pos ≤ pos' ∧
      pos' + limit' = pos + limit) ∨
    F ∧ ∃ e x rd', nextByte more rd limit buf = (.err e, x, rd') := by
  unfold nextByte
  cases buf with
  | cons b bs => exact .inl ⟨limit, bs, rd, pos, rfl, hr, rfl, Nat.le_refl _, rfl⟩
  | nil =>
    dsimp only
    by_cases hl : limit = 0
    · rw [if_pos hl, left_end (k := 0) (.inr hl) (List.take_zero)]
      exact .inl ⟨limit, [], rd, pos, rfl, hr, left_end (k := 0) (.inr hl) (List.take_zero), Nat.le_refl _, rfl⟩
    · rw [if_neg hl]
      rcases hM (min 8192 limit) (by omega) hr with ⟨k, hk, hk0, h1, h2⟩ | ⟨hF, e, he⟩
      · generalize more (min 8192 limit) rd = y at h1 h2
        obtain ⟨y1, y2⟩ := y
        dsimp only at h1 h2
        subst h1
        cases hb : (data.drop pos).take k with
        | nil =>
          dsimp only
          have := left_end (limit := limit) (.inl hk0) hb
          rw [hb] at h2
          exact .inl ⟨limit, [], y2, pos, by rw [this]; rfl, h2, by rw [this]; rfl, Nat.le_refl _, rfl⟩
        | cons b bs =>
          dsimp only
          obtain ⟨h3, h4, h5⟩ := left_step (limit := limit) (by omega) hb
          rw [hb] at h2
          exact .inl ⟨limit - (bs.length + 1), bs, y2, pos + (bs.length + 1), by rw [h3], h2, h4, by omega, by omega⟩
      · generalize more (min 8192 limit) rd = y at he
        obtain ⟨y1, y2⟩ := y
        dsimp only at he
        subst he
        exact .inr ⟨hF, e, _, _, rfl⟩

/-- A stream of bytes is opened; the readers have got to places in the data unit. -/
structure Loose (R : σ → Reader → Prop) (g : Session σ) (s : Fitsrs.Session) (b gb : ByteStream) (pos : Nat) : Prop where
  hdus : g.hdus = s.hdus
  opened : s.opened = some (.bytes b)
  opened' : g.opened = some (.bytes gb)
  file : Like R g.file { s.fits with rd := ⟨b.rd.data, pos⟩ }
  same : left b.rd.data b.rd.pos b.limit b.buf = left b.rd.data pos gb.limit gb.buf
  room : Room s.fits b.limit b.rd.pos
  room' : Room s.fits gb.limit pos

/-- The programs have got to the same point. -/
def Kin (R : σ → Reader → Prop) (g : Session σ) (s : Fitsrs.Session) : Prop :=
  (Same R g s ∧ ∀ b, s.opened ≠ some (.bytes b)) ∨ ∃ b gb pos, Loose R g s b gb pos

theorem kin_of_same {g : Session σ} {s : Fitsrs.Session} (h : Same R g s) (hs : Settled s) : Kin R g s := by
  cases ho : s.opened with
  | none => exact .inl ⟨h, fun b => by rw [ho]; intro h; cases h⟩
  | some o =>
    cases o with
    | bytes b =>
      right
      unfold Settled at hs
      rw [ho] at hs
      have hrd := close_fits_rd ho
      have ho2 := h.opened
      rw [ho] at ho2
      cases hg : g.opened with
      | none => rw [hg] at ho2; cases ho2
      | some o' =>
        rw [hg] at ho2
        have ho2 := Option.some.inj ho2
        cases o' with
        | bytes gb =>
          have e : b = { gb with rd := s.close.fits.rd } := by
            have := ho2
            injection this
          refine ⟨b, gb, b.rd.pos, h.hdus, ho, hg, ?_, ?_, hs, ?_⟩
          · have hl := h.file
            rw [← close_fits s, hrd] at hl
            exact hl
          · rw [e]
          · rw [e] at hs ⊢
            exact hs
        | _ => cases ho2
    | _ => exact .inl ⟨h, fun b => by rw [ho]; intro h; cases h⟩

theorem callAny_other (p : Profile) (fuel : Nat) (c : Call) (g : Session σ) (h1 : ∀ b, g.opened ≠ some (.bytes b) ∨ c ≠ .next)
    (h2 : ∀ t, g.opened ≠ some (.table t) ∨ c ≠ .bytes) : S.callAny more p fuel c g = S.call p fuel c g := by
  unfold callAny
  split
  · rename_i b ho
    exact (h1 b).elim (fun h => absurd ho h) (fun h => absurd rfl h)
  · rename_i t ho
    exact (h2 t).elim (fun h => absurd ho h) (fun h => absurd rfl h)
  · rfl

theorem failsAny_other (p : Profile) (fuel : Nat) (c : Call) (s : Fitsrs.Session)
    (h1 : ∀ b, s.opened ≠ some (.bytes b) ∨ c ≠ .next) (h2 : ∀ t, s.opened ≠ some (.table t) ∨ c ≠ .bytes) :
    s.failsAny p fuel c = s.failsIn p fuel c := by
  unfold Fitsrs.Session.failsAny
  split
  · rename_i b ho
    exact (h1 b).elim (fun h => absurd ho h) (fun h => absurd rfl h)
  · rename_i t ho
    exact (h2 t).elim (fun h => absurd ho h) (fun h => absurd rfl h)
  · rfl

/-- From any place in the data unit the next HDU is the same. -/
theorem next_anywhere (p : Profile) {f : Fits} {data : List UInt8} {a b : Nat} (h : Room f 0 a) (h' : Room f 0 b) :
    Fits.next p { f with rd := ⟨data, a⟩ } = Fits.next p { f with rd := ⟨data, b⟩ } := by
  obtain ⟨start, posStart, numBytes, errored, rd⟩ := f
  obtain rfl : start = false := h.start
  obtain rfl : errored = false := h.errored
  have e : ∀ c, Room ⟨false, posStart, numBytes, false, rd⟩ 0 c →
      Fits.consumeUntilNextHdu p ⟨false, posStart, numBytes, false, ⟨data, c⟩⟩ =
        (.ok (), ⟨data, posStart + roundUp2880 numBytes⟩) := fun c hc =>
    Fits.consumeUntilNextHdu_inside (f := ⟨false, posStart, numBytes, false, ⟨data, c⟩⟩) hc.after hc.before hc.small
  rw [next_eq, next_eq]
  dsimp only
  rw [e a h, e b h']
  rfl

theorem _root_.Fitsrs.Spec.Room.zero {f : Fits} {l pos : Nat} (h : Room f l pos) : Room f 0 pos :=
  ⟨h.start, h.errored, h.after, Nat.le_trans (by omega) h.before, h.small⟩

/-- Calls give the same. -/
def AnySame (F : Prop) (R : σ → Reader → Prop) (failed : Bool) (x : Option ((Res Seen × Bool) × Session σ))
    (y : Option (Res Seen × Fitsrs.Session)) : Prop :=
  ((y = none ∧ x = none) ∨ ∃ r g' s', y = some (r, s') ∧ x = some ((r, failed), g') ∧
    (failed = false → Same R g' s' ∨ ∃ b gb pos, Loose R g' s' b gb pos)) ∨
    F ∧ ∃ r g', x = some ((r, true), g') ∧ NothingOrError (some r)

theorem AnySame.of {failed : Bool} {x : Option ((Res Seen × Bool) × Session σ)} {y : Option (Res Seen × Fitsrs.Session)}
    (h : CallSame F R failed x y) : AnySame F R failed x y := by
  rcases h with (h | ⟨r, g', s', h1, h2, h3⟩) | h
  · exact .inl (.inl h)
  · exact .inl (.inr ⟨r, g', s', h1, h2, fun h => .inl (h3 h)⟩)
  · exact .inr h

theorem any_same (hS : Simulates S F limit R) (hM : Gives more F R) (p : Profile) (gz : Gunzip) (fuel : Nat) (c : Call)
    {g : Session σ} {s : Fitsrs.Session} (h : Kin R g s) (hw : AnyWithin limit p fuel c s) :
    AnySame F R (s.failsAny p fuel c) (S.callAny more p fuel c g) (s.call p gz fuel c) := by
  rcases h with ⟨h, hn⟩ | ⟨b, gb, pos, h⟩
  · by_cases hb : c = .bytes ∧ ∃ t, s.opened = some (.table t)
    · obtain ⟨rfl, t, ht⟩ := hb
      have ho := h.opened
      rw [ht] at ho
      cases hg : g.opened with
      | none => rw [hg] at ho; cases ho
      | some o =>
        rw [hg] at ho
        have ho := Option.some.inj ho
        cases o with
        | table gt =>
          have e : t = { gt with rd := s.close.fits.rd } := by injection ho
          left
          right
          refine ⟨.ok .unit, { g with opened := some (.bytes gt.bytes) }, s.put (.bytes t.bytes), ?_, ?_, fun _ => .inl ?_⟩
          · unfold Fitsrs.Session.call
            dsimp only
            rw [ht]
            rfl
          · unfold callAny Fitsrs.Session.failsAny
            rw [hg, ht]
          · have hrd : (s.put (.bytes t.bytes)).close.fits = s.close.fits := by
              rw [close_put]
              show { s.fits with rd := t.rd } = _
              rw [← close_fits s, close_fits_rd ht]
              rfl
            refine ⟨h.hdus, ?_, ?_⟩
            · rw [hrd]
              exact h.file
            · rw [hrd]
              show some _ = some _
              rw [e]
              rfl
        | _ => cases ho
    · have h2 : ∀ t, s.opened ≠ some (.table t) ∨ c ≠ .bytes := by
        intro t
        by_cases hc : c = .bytes
        · exact .inl fun ht => hb ⟨hc, t, ht⟩
        · exact .inr hc
      have h3 : ∀ t, g.opened ≠ some (.table t) ∨ c ≠ .bytes := by
        intro t
        by_cases hc : c = .bytes
        · refine .inl fun ht => hb ⟨hc, { t with rd := s.close.fits.rd }, ?_⟩
          rw [h.opened, ht]
          rfl
        · exact .inr hc
      have h4 : ∀ b, g.opened ≠ some (.bytes b) := by
        intro b hg
        refine hn { b with rd := s.close.fits.rd } ?_
        rw [h.opened, hg]
        rfl
      rw [failsAny_other p fuel c s (fun b => .inl (hn b)) h2, callAny_other p fuel c g (fun b => .inl (h4 b)) h3]
      refine .of (call_same hS p gz fuel c h ?_)
      clear hb h3 h4
      unfold AnyWithin at hw
      generalize ho : s.opened = o at hw
      rw [ho] at hn h2
      split at hw
      · exact absurd rfl (hn _)
      · exact hw
      · exact hw.elim
      · rcases h2 _ with h | h
        · exact absurd rfl h
        · exact absurd rfl h
      · exact hw
  · unfold AnyWithin at hw
    have ho := h.opened
    by_cases hc : c = .next
    · subst hc
      obtain ⟨n1, n2, n3, n4, n5⟩ := b.next_left
      have hy : s.call p gz fuel .next = some (.ok (.byte b.next.1), s.put (.bytes b.next.2)) := by
        unfold Fitsrs.Session.call
        dsimp only
        rw [ho]
        rfl
      have hf : s.failsAny p fuel .next = false := by
        unfold Fitsrs.Session.failsAny
        rw [ho]
      rw [hf]
      rcases nextByte_left hM h.file.rd gb.limit gb.buf with ⟨l', bf', rd', pos', e, e1, e2, e3, e4⟩ | ⟨hF, e, x, rd', hx⟩
      · left
        right
        refine ⟨_, { g with file := { g.file with rd := rd' }, opened := some (.bytes { gb with limit := l', buf := bf' }) }, _, hy, ?_,
          fun _ => .inr ⟨b.next.2, { gb with limit := l', buf := bf' }, pos', h.hdus, rfl, rfl, ?_, ?_, ?_, ?_⟩⟩
        · unfold callAny
          rw [h.opened']
          dsimp only
          rw [e]
          dsimp only
          rw [n1, h.same]
        · rw [n3]
          exact ⟨h.file.start, h.file.posStart, h.file.numBytes, h.file.errored, e1⟩
        · rw [n2, n3, e2, h.same]
        · exact ⟨h.room.start, h.room.errored, Nat.le_trans h.room.after n4, by rw [n5]; exact h.room.before, h.room.small⟩
        · exact ⟨h.room'.start, h.room'.errored, Nat.le_trans h.room'.after e3, by rw [e4]; exact h.room'.before, h.room'.small⟩
      · right
        refine ⟨hF, .err e, { g with file := { g.file with rd := rd' }, opened := some (.bytes { gb with limit := x.1, buf := x.2 }) }, ?_, trivial⟩
        unfold callAny
        rw [h.opened']
        dsimp only
        rw [hx]
    · by_cases hh : c = .hdu
      · subst hh
        have hw : CallWithin limit p fuel .hdu s := by
          rw [ho] at hw
          exact hw
        rw [failsAny_other p fuel .hdu s (fun _ => .inr (by intro h; cases h)) (fun _ => .inr (by intro h; cases h)),
          callAny_other p fuel .hdu g (fun _ => .inr (by intro h; cases h)) (fun _ => .inr (by intro h; cases h))]
        have hs2 : Same R g { s with opened := some (.bytes { gb with rd := ⟨b.rd.data, pos⟩ }) } :=
          ⟨h.hdus, h.file, by rw [h.opened']; rfl⟩
        have hcl : s.close = { fits := { s.fits with rd := b.rd }, hdus := s.hdus, opened := none } := by
          unfold Fitsrs.Session.close
          rw [ho]
          rfl
        have hn := next_anywhere p (data := b.rd.data) h.room.zero h.room'.zero
        have hw2 : CallWithin limit p fuel .hdu { s with opened := some (.bytes { gb with rd := ⟨b.rd.data, pos⟩ }) } := by
          unfold CallWithin at hw ⊢
          dsimp only at hw ⊢
          rw [hcl] at hw
          have hw : (Fits.next p { s.fits with rd := ⟨b.rd.data, b.rd.pos⟩ }).2.rd.pos < limit := hw
          rw [hn] at hw
          exact hw
        have := call_same hS p gz fuel .hdu hs2 hw2
        have e1 : s.failsIn p fuel .hdu =
            Fitsrs.Session.failsIn p fuel .hdu { s with opened := some (.bytes { gb with rd := ⟨b.rd.data, pos⟩ }) } := by
          unfold Fitsrs.Session.failsIn
          dsimp only
          rw [hcl]
          show (match (Fits.next p { s.fits with rd := ⟨b.rd.data, b.rd.pos⟩ }).1 with | some (.ok _) => false | _ => true) = _
          rw [hn]
          rfl
        have e2 : s.call p gz fuel .hdu =
            Fitsrs.Session.call p gz fuel .hdu { s with opened := some (.bytes { gb with rd := ⟨b.rd.data, pos⟩ }) } := by
          unfold Fitsrs.Session.call
          dsimp only
          rw [hcl]
          unfold Fitsrs.Session.nextHdu
          dsimp only
          rw [show ({ s.fits with rd := b.rd } : Fits) = { s.fits with rd := ⟨b.rd.data, b.rd.pos⟩ } from rfl, hn]
          rfl
        rw [e1, e2]
        exact .of this
      · exfalso
        rw [ho] at hw
        cases c <;> first | exact hc rfl | exact hh rfl | exact hw

/-- A whole program. -/
theorem runAny_same (hS : Simulates S F limit R) (hM : Gives more F R) (p : Profile) (gz : Gunzip) (fuel : Nat) (cs : List Call)
    {g : Session σ} {s : Fitsrs.Session} (h : Kin R g s) (hw : WithinAny limit p gz fuel cs s) :
    S.runAny more p fuel cs g = s.runAll p gz fuel cs ∨
      F ∧ ∃ k x, k < (s.runAll p gz fuel cs).length ∧ S.runAny more p fuel cs g = (s.runAll p gz fuel cs).take k ++ [x] ∧
        NothingOrError x := by
  induction cs generalizing g s with
  | nil => exact .inl rfl
  | cons c cs ih =>
    unfold WithinAny at hw
    have hc := any_same hS hM p gz fuel c h hw.1
    unfold runAny Fitsrs.Session.runAll
    rcases hc with (⟨hy, hx⟩ | ⟨r, g', s', hy, hx, hs⟩) | ⟨hF, r, g', hx, hn⟩
    · rw [hx, hy]
      exact .inl rfl
    · rw [hx, hy]
      cases hf : s.failsAny p fuel c with
      | true =>
        rw [hf] at *
        left
        cases r <;> rfl
      | false =>
        obtain ⟨hset, hw2⟩ := hw.2 r s' hy hf
        have hkin : Kin R g' s' := by
          rcases hs hf with h | h
          · exact kin_of_same h hset
          · exact .inr h
        have hr := ih hkin hw2
        cases r with
        | panic => exact .inl rfl
        | _ =>
          dsimp only
          rw [if_neg (by simp)]
          rcases hr with hr | ⟨hF, k, x, h1, h2, h3⟩
          · rw [hr]
            exact .inl rfl
          · refine .inr ⟨hF, k + 1, x, Nat.succ_lt_succ h1, ?_, h3⟩
            rw [h2]
            rfl
    · right
      refine ⟨hF, 0, some r, ?_, ?_, hn⟩
      · rcases s.call p gz fuel c with _ | ⟨r2, s2⟩
        · exact Nat.zero_lt_succ _
        · cases r2 <;> dsimp only <;> first | (split <;> exact Nat.zero_lt_succ _) | exact Nat.zero_lt_succ _
      · rw [hx]
        cases r with
        | panic => exact absurd hn (by intro h; exact h)
        | _ => rfl

theorem kin_new {data : List UInt8} {rd : σ} (h : R rd ⟨data, 0⟩) : Kin R (Session.new rd) (Fitsrs.Session.new ⟨data, 0⟩) :=
  .inl ⟨⟨rfl, ⟨rfl, rfl, rfl, rfl, h⟩, rfl⟩, fun b h => by cases h⟩

end Input

theorem BufReader.readSome_spec (fuel : Nat) {n : Nat} {b : BufReader} {r : Reader} (h : b.Is r) (hn : n ≠ 0)
    (hf : b.file.plan.length < fuel) :
    (∃ k, k ≤ n ∧ k ≠ 0 ∧ (b.readSome fuel n).1 = .ok ((r.data.drop r.pos).take k) ∧
      (b.readSome fuel n).2.Is { r with pos := r.pos + ((r.data.drop r.pos).take k).length } ∧
      (b.readSome fuel n).2.file.plan <:+ b.file.plan) ∨
    .fails ∈ b.file.plan ∧ ∃ e, (b.readSome fuel n).1 = .err e := by
  induction fuel generalizing b with
  | zero => omega
  | succ fuel ih =>
    unfold readSome
    rcases read_spec h hn with ⟨b', plan, e, h', hp, hp'⟩ | ⟨b', plan, e, hp⟩ | ⟨k, b', hk, hk0, e, h', hp⟩
    · rw [e]
      dsimp only
      rw [hp, List.length_cons] at hf
      rcases ih h' (by rw [hp']; omega) with ⟨k, i1, i2, i3, i4, i5⟩ | ⟨i1, i2⟩
      · refine .inl ⟨k, i1, i2, i3, i4, i5.trans ?_⟩
        rw [hp, hp']
        exact List.suffix_cons _ _
      · refine .inr ⟨?_, i2⟩
        rw [hp, ← hp']
        exact List.mem_cons_of_mem _ i1
    · rw [e]
      exact .inr ⟨by rw [hp]; exact List.mem_cons_self, _, rfl⟩
    · rw [e]
      exact .inl ⟨k, hk, hk0, rfl, h', hp⟩

theorem buf_gives (F : Prop) : Input.Gives bufSome F (BufReader.Reads F) := by
  intro b r n hn h
  rcases BufReader.readSome_spec (b.file.plan.length + 1) h.1 hn (Nat.lt_succ_self _) with ⟨k, h1, h2, h3, h4, h5⟩ | ⟨h1, h2⟩
  · exact .inl ⟨k, h1, h2, h3, h4, h.2.imp id fun hx hm => hx (h5.subset hm)⟩
  · rcases h.2 with hF | hF
    · exact .inr ⟨hF, h2⟩
    · exact absurd h1 hF

theorem cursor_gives : Input.Gives cursorSome False (fun s r => s = r) := by
  rintro s r n hn rfl
  exact .inl ⟨n, Nat.le_refl _, hn, rfl, rfl⟩

/-- The call is one of those of the model, and the positions are below the limit. -/
def Spec.AnyBelow (limit : Nat) (p : Profile) (fuel : Nat) (c : Call) (s : Session) : Prop :=
  match c, s.opened with
  | .next, some (.bytes _) => True
  | .bytes, some (.table _) => True
  | c, _ => CallWithin limit p fuel c s

/-- All the calls of a program are so, up to the first in which a read fails. -/
def Spec.BelowAny (limit : Nat) (p : Profile) (gz : Gunzip) (fuel : Nat) : List Call → Session → Prop
  | [], _ => True
  | c :: cs, s => AnyBelow limit p fuel c s ∧
    ∀ r s', s.call p gz fuel c = some (r, s') → s.failsAny p fuel c = false → BelowAny limit p gz fuel cs s'

/-- A program sees the same with the calls after a failure and without them. -/
theorem C94_prefix (p : Profile) (gz : Gunzip) (fuel : Nat) (cs : List Call) (s : Session) :
    s.runAll p gz fuel cs <+: s.run p gz fuel cs := by
  induction cs generalizing s with
  | nil => exact List.prefix_rfl
  | cons c cs ih =>
    unfold Session.runAll Session.run
    rcases s.call p gz fuel c with _ | ⟨r, s'⟩
    · exact List.prefix_rfl
    · cases r with
      | panic => exact List.prefix_rfl
      | _ =>
        dsimp only
        split
        · exact ⟨_, rfl⟩
        · obtain ⟨t, ht⟩ := ih s'
          exact ⟨t, by rw [← ht]; rfl⟩

/-- **C94, in full.** A program that uses images, binary tables and the bytes of tables sees, with a `BufReader` over a file of
less than 2^63 bytes, whatever the capacity of the buffer is and however the file delivers its bytes, what it sees with the
reader in memory. -/
def C94_statement : Prop :=
  ∀ (p : Profile) (gz : Gunzip) (fuel : Nat) (data : List UInt8) (cap : Nat) (plan : List ReadEvent) (cs : List Call),
    data.length < 2 ^ 63 → .fails ∉ plan → BelowAny (2 ^ 63) p gz fuel cs (Session.new ⟨data, 0⟩) →
    bufInput.runAny bufSome p fuel cs (Input.Session.new (BufReader.new cap ⟨data, 0, plan⟩)) =
      (Session.new ⟨data, 0⟩).runAll p gz fuel cs

/-- **C94, partial** (full statement: `C94_statement`): for programs which, after they have opened a stream of bytes inside the
data unit, go on to the next HDU and do not ask for data of this one again. -/
theorem C94_partial (p : Profile) (gz : Gunzip) (fuel : Nat) (data : List UInt8) (cap : Nat) (plan : List ReadEvent)
    (cs : List Call) (hd : data.length < 2 ^ 63) (hp : .fails ∉ plan)
    (hw : WithinAny (2 ^ 63) p gz fuel cs (Session.new ⟨data, 0⟩)) :
    bufInput.runAny bufSome p fuel cs (Input.Session.new (BufReader.new cap ⟨data, 0, plan⟩)) =
      (Session.new ⟨data, 0⟩).runAll p gz fuel cs := by
  rcases Input.runAny_same (buf_simulates False) (buf_gives False) p gz fuel cs (Input.kin_new (reads_new hd (.inr hp))) hw
    with h | ⟨h, -⟩
  · exact h
  · exact h.elim

/-- **C94, FITSFile, partial.** The same for a file opened with `FITSFile::open`. -/
theorem C94_fitsfile_partial (p : Profile) (gz : Gunzip) (fuel : Nat) (data : List UInt8) (cap : Nat) (plan : List ReadEvent)
    (cs : List Call) (hd : data.length < 2 ^ 63) (hp : .fails ∉ plan)
    (hw : WithinAny (2 ^ 63) p gz fuel cs (Session.new ⟨data, 0⟩)) :
    gzInput.runAny bufSome p fuel cs (Input.Session.new (BufReader.new cap ⟨data, 0, plan⟩)) =
      (Session.new ⟨data, 0⟩).runAll p gz fuel cs := by
  rcases Input.runAny_same (gz_simulates False) (buf_gives False) p gz fuel cs (Input.kin_new (reads_new hd (.inr hp))) hw
    with h | ⟨h, -⟩
  · exact h
  · exact h.elim

/-- **C94, memory, partial.** The same for a `Cursor`, in either version. -/
theorem C94_cursor_partial (limit : Nat) (p : Profile) (gz : Gunzip) (fuel : Nat) (data : List UInt8) (cs : List Call)
    (hw : WithinAny limit p gz fuel cs (Session.new ⟨data, 0⟩)) :
    cursorInput.runAny cursorSome p fuel cs (Input.Session.new ⟨data, 0⟩) = (Session.new ⟨data, 0⟩).runAll p gz fuel cs ∧
      oldCursorInput.runAny cursorSome p fuel cs (Input.Session.new ⟨data, 0⟩) =
        (Session.new ⟨data, 0⟩).runAll p gz fuel cs := by
  refine ⟨?_, ?_⟩
  · rcases Input.runAny_same (cursor_simulates limit) cursor_gives p gz fuel cs (Input.kin_new rfl) hw with h | ⟨h, -⟩
    · exact h
    · exact h.elim
  · rcases Input.runAny_same (oldCursor_simulates limit) cursor_gives p gz fuel cs (Input.kin_new rfl) hw with h | ⟨h, -⟩
    · exact h
    · exact h.elim

/-- **C94, failing reads, partial.** If reads of the file can fail, the program sees the same up to some call, and that call gives
an error or nothing; a stream of bytes gives an error. -/
theorem C94_failing_partial (p : Profile) (gz : Gunzip) (fuel : Nat) (data : List UInt8) (cap : Nat) (plan : List ReadEvent)
    (cs : List Call) (hd : data.length < 2 ^ 63) (hw : WithinAny (2 ^ 63) p gz fuel cs (Session.new ⟨data, 0⟩)) :
    bufInput.runAny bufSome p fuel cs (Input.Session.new (BufReader.new cap ⟨data, 0, plan⟩)) =
        (Session.new ⟨data, 0⟩).runAll p gz fuel cs ∨
      ∃ k x, k < ((Session.new ⟨data, 0⟩).runAll p gz fuel cs).length ∧
        bufInput.runAny bufSome p fuel cs (Input.Session.new (BufReader.new cap ⟨data, 0, plan⟩)) =
          ((Session.new ⟨data, 0⟩).runAll p gz fuel cs).take k ++ [x] ∧ NothingOrError x := by
  rcases Input.runAny_same (buf_simulates True) (buf_gives True) p gz fuel cs (Input.kin_new (reads_new hd (.inl trivial))) hw
    with h | ⟨-, h⟩
  · exact .inl h
  · exact .inr h

/-! ### Examples -/

def checkRoom (f : Fits) (limit pos : Nat) : Bool :=
  decide (f.start = false ∧ f.errored = false ∧ f.posStart ≤ pos ∧ pos + limit ≤ f.posStart + f.numBytes ∧
    f.posStart + roundUp2880 f.numBytes < 2 ^ 63)

def checkSettled (s : Session) : Bool :=
  match s.opened with
  | some (.bytes b) => checkRoom s.fits b.limit b.rd.pos
  | _ => true

theorem checkSettled_sound {s : Session} (h : checkSettled s = true) : Settled s := by
  unfold checkSettled at h
  unfold Settled
  split at h
  · have := of_decide_eq_true h
    exact ⟨this.1, this.2.1, this.2.2.1, this.2.2.2.1, this.2.2.2.2⟩
  · trivial

def checkCallWithin (limit : Nat) (p : Profile) (fuel : Nat) (c : Call) (s : Session) : Bool :=
  match c with
  | .hdu => decide ((s.close.fits.next p).2.rd.pos < limit)
  | .getData _ => true
  | c => checkUnit limit p fuel c s.opened

theorem checkCallWithin_sound {limit : Nat} {p : Profile} {fuel : Nat} {c : Call} {s : Session}
    (h : checkCallWithin limit p fuel c s = true) : CallWithin limit p fuel c s := by
  have other : ∀ (x : Option OpenUnit), checkUnit limit p fuel c x = true → UnitWithin limit p fuel c x := by
    intro x hx
    cases x with
    | none => trivial
    | some o =>
      unfold checkUnit at hx
      dsimp only at hx
      cases hu : o.detached.useP p fuel c with
      | none => rw [hu] at hx; cases hx
      | some prog =>
        rw [hu] at hx
        exact ⟨prog, hu, checkBelow_sound prog hx⟩
  cases c with
  | hdu => exact (of_decide_eq_true h : (s.close.fits.next p).2.rd.pos < limit)
  | getData k => trivial
  | _ => exact other _ h

/-- `free`: data may be asked for again. -/
def checkAny (free : Bool) (limit : Nat) (p : Profile) (fuel : Nat) (c : Call) (s : Session) : Bool :=
  match c, s.opened with
  | .next, some (.bytes _) => true
  | .hdu, some (.bytes _) => checkCallWithin limit p fuel .hdu s
  | .getData _, some (.bytes _) => free
  | _, some (.bytes _) => false
  | .bytes, some (.table _) => true
  | c, _ => checkCallWithin limit p fuel c s

def checkAll (free : Bool) (limit : Nat) (p : Profile) (gz : Gunzip) (fuel : Nat) : List Call → Session → Bool
  | [], _ => true
  | c :: cs, s => checkAny free limit p fuel c s &&
    match s.call p gz fuel c with
    | none => true
    | some (_, s') => (free || checkSettled s') && checkAll free limit p gz fuel cs s'

theorem checkAny_within {limit : Nat} {p : Profile} {fuel : Nat} {c : Call} {s : Session}
    (h : checkAny false limit p fuel c s = true) : AnyWithin limit p fuel c s := by
  unfold checkAny at h
  unfold AnyWithin
  have sound := fun c => checkCallWithin_sound (limit := limit) (p := p) (fuel := fuel) (c := c) (s := s)
  generalize s.opened = o at h
  rcases o with _ | (_ | _ | _ | _ | _) <;> cases c <;> first | exact sound _ h | trivial | exact absurd h (by decide)

theorem checkAny_below {limit : Nat} {p : Profile} {fuel : Nat} {c : Call} {s : Session}
    (h : checkAny true limit p fuel c s = true) : AnyBelow limit p fuel c s := by
  unfold checkAny at h
  unfold AnyBelow
  have sound := fun c => checkCallWithin_sound (limit := limit) (p := p) (fuel := fuel) (c := c) (s := s)
  generalize s.opened = o at h
  rcases o with _ | (_ | _ | _ | _ | _) <;> cases c <;> first | exact sound _ h | trivial | exact absurd h (by decide)

theorem checkAll_within {limit : Nat} {p : Profile} {gz : Gunzip} {fuel : Nat} {cs : List Call} {s : Session}
    (h : checkAll false limit p gz fuel cs s = true) : WithinAny limit p gz fuel cs s := by
  induction cs generalizing s with
  | nil => trivial
  | cons c cs ih =>
    unfold checkAll at h
    rw [Bool.and_eq_true] at h
    refine ⟨checkAny_within h.1, fun r s' hs _ => ?_⟩
    have h := h.2
    rw [hs] at h
    dsimp only at h
    rw [Bool.and_eq_true, Bool.false_or] at h
    exact ⟨checkSettled_sound h.1, ih h.2⟩

theorem checkAll_below {limit : Nat} {p : Profile} {gz : Gunzip} {fuel : Nat} {cs : List Call} {s : Session}
    (h : checkAll true limit p gz fuel cs s = true) : BelowAny limit p gz fuel cs s := by
  induction cs generalizing s with
  | nil => trivial
  | cons c cs ih =>
    unfold checkAll at h
    rw [Bool.and_eq_true] at h
    refine ⟨checkAny_below h.1, fun r s' hs _ => ?_⟩
    have h := h.2
    rw [hs] at h
    dsimp only at h
    rw [Bool.and_eq_true] at h
    exact ih h.2

/-- The bytes of the ASCII table, one more, and the next HDU. -/
def asciiProgram : List Call := [.hdu, .hdu, .getData 0, .next, .next, .next, .next, .next, .next, .next, .hdu]

set_option maxRecDepth 20000 in
theorem asciiProgram_within : WithinAny (2 ^ 63) .checked (.of fun xs => xs) 100 asciiProgram (Session.new ⟨asciiFile, 0⟩) :=
  checkAll_within (by decide +kernel)

set_option maxRecDepth 20000 in
/-- An ASCII table, through a buffer of 7 bytes, single bytes and interruptions. -/
example : (bufInput.runAny bufSome .checked 100 asciiProgram
      (Input.Session.new (BufReader.new 7 ⟨asciiFile, 0, [.short 0, .interrupted, .short 3, .short 100]⟩))).drop 2 =
    [some (.ok .unit), some (.ok (.byte (some 65))), some (.ok (.byte (some 66))), some (.ok (.byte (some 67))),
     some (.ok (.byte (some 68))), some (.ok (.byte (some 69))), some (.ok (.byte (some 70))), some (.ok (.byte none)),
     some (.ok (.hdu none))] := by
  rw [C94_partial .checked (.of fun xs => xs) 100 asciiFile 7 _ asciiProgram (by decide +kernel) (by decide) asciiProgram_within]
  decide +kernel

/-- The first byte of the ASCII table, twice. -/
def twiceProgram : List Call := [.hdu, .hdu, .getData 0, .next, .getData 0, .next]

set_option maxRecDepth 20000 in
theorem twice_below : BelowAny (2 ^ 63) .checked (.of fun xs => xs) 100 twiceProgram (Session.new ⟨asciiFile, 0⟩) :=
  checkAll_below (by decide +kernel)

set_option maxRecDepth 20000 in
theorem twice_memory : ((Session.new ⟨asciiFile, 0⟩).runAll .checked (.of fun xs => xs) 100 twiceProgram).drop 3 =
    [some (.ok (.byte (some 65))), some (.ok .unit), some (.ok (.byte (some 32)))] := by decide +kernel

set_option maxRecDepth 20000 in
theorem twice_file : (bufInput.runAny bufSome .checked 100 twiceProgram
      (Input.Session.new (BufReader.new 5762 ⟨asciiFile, 0, []⟩))).drop 3 =
    [some (.ok (.byte (some 65))), some (.ok .unit), some (.ok (.byte (some 67)))] := by decide +kernel

/-- **C94 does not hold in full**: the stream of bytes takes as much as the reader gives from it; a second `get_data` begins
there.  With a table of the letters A to F, in memory the second stream begins after the table; with a buffer that ends
after the B, it begins with C. -/
theorem C94_fails : ¬ C94_statement := by
  intro h
  have h1 := congrArg (List.drop 3) (h .checked (.of fun xs => xs) 100 asciiFile 5762 [] twiceProgram (by decide +kernel) (by decide)
    twice_below)
  rw [twice_memory, twice_file] at h1
  exact absurd h1 (by decide)

end Fitsrs

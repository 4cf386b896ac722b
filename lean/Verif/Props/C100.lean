import Verif.Spec.AsyncPolls
import Verif.Lemmas.Pixels
import Verif.Lemmas.AsyncData
/-
C100 the values of an asynchronous data unit after delays and failures.
-/

namespace Fitsrs
open Spec Fut

theorem AReader.bytes_consume (r : AReader) {k : Nat} (hk : k ≤ r.cur.length) : (r.consume k).bytes = r.bytes.drop k := by
  unfold AReader.consume AReader.bytes
  rw [List.drop_append_of_le_length hk]

/-- What one poll of a read gives, and where it leaves the reader. -/
theorem readExactN_polled (S : Nat → Prop) (fuel : Nat) : ∀ (n : Nat) (acc : List UInt8) (r : AReader) (base : Nat), n ≤ fuel →
    StopsAt S (base + r.cur.length) r.events →
    (((readExactN fuel n acc).poll r).1 = .ready (.ok (acc ++ r.bytes.take n)) ∧ n ≤ r.bytes.length ∧
      ((readExactN fuel n acc).poll r).2.bytes = r.bytes.drop n ∧
      StopsAt S (base + n + ((readExactN fuel n acc).poll r).2.cur.length) ((readExactN fuel n acc).poll r).2.events ∧
      stops ((readExactN fuel n acc).poll r).2.events ≤ stops r.events) ∨
    ∃ l, l < n ∧ ((∃ f, ((readExactN fuel n acc).poll r).1 = .pending f) ∨ ∃ e, ((readExactN fuel n acc).poll r).1 = .ready (.err e)) ∧
      ((readExactN fuel n acc).poll r).2.bytes = r.bytes.drop l ∧
      StopsAt S (base + l + ((readExactN fuel n acc).poll r).2.cur.length) ((readExactN fuel n acc).poll r).2.events ∧
      (r.bytes.drop l = [] ∨ S (base + l) ∧ stops ((readExactN fuel n acc).poll r).2.events < stops r.events) := by
  induction fuel with
  | zero =>
    intro n acc r base hn hs
    have : n = 0 := by omega
    subst this
    exact .inl ⟨by simp [readExactN, poll], by omega, rfl, hs, Nat.le_refl _⟩
  | succ fuel ih =>
    intro n acc r base hn hs
    cases n with
    | zero => exact .inl ⟨by simp [readExactN, poll], by omega, rfl, hs, Nat.le_refl _⟩
    | succ n =>
      have key : ∀ (b : UInt8) (bs : List UInt8) (es : List Event), StopsAt S (base + (b :: bs).length) es →
          ∀ x, x = (Fut.consume (min (n + 1) (b :: bs).length) (readExactN fuel (n + 1 - (b :: bs).length)
            (acc ++ (b :: bs).take (n + 1)))).poll ⟨b :: bs, es⟩ →
          (x.1 = .ready (.ok (acc ++ (AReader.mk (b :: bs) es).bytes.take (n + 1))) ∧ n + 1 ≤ (AReader.mk (b :: bs) es).bytes.length ∧
            x.2.bytes = (AReader.mk (b :: bs) es).bytes.drop (n + 1) ∧ StopsAt S (base + (n + 1) + x.2.cur.length) x.2.events ∧
            stops x.2.events ≤ stops es) ∨
          ∃ l, l < n + 1 ∧ ((∃ f, x.1 = .pending f) ∨ ∃ e, x.1 = .ready (.err e)) ∧
            x.2.bytes = (AReader.mk (b :: bs) es).bytes.drop l ∧ StopsAt S (base + l + x.2.cur.length) x.2.events ∧
            ((AReader.mk (b :: bs) es).bytes.drop l = [] ∨ S (base + l) ∧ stops x.2.events < stops es) := by
        intro b bs es hs x hx
        generalize hc : b :: bs = c at *
        have hc0 : 0 < c.length := by rw [← hc]; exact Nat.succ_pos _
        generalize hk : min (n + 1) c.length = k at *
        have hkc : k ≤ c.length := by omega
        have hb := AReader.bytes_consume ⟨c, es⟩ hkc
        have hl : (AReader.mk c es).bytes.length = c.length + (eventBytes es).length := List.length_append
        have ht : c.take (n + 1) = (AReader.mk c es).bytes.take k := by
          rw [show (AReader.mk c es).bytes = c ++ eventBytes es from rfl, List.take_append_of_le_length hkc]
          by_cases h : n + 1 ≤ c.length
          · rw [show k = n + 1 by omega]
          · rw [show k = c.length by omega, List.take_of_length_le (by omega), List.take_length]
        have e : n + 1 - c.length = n + 1 - k := by omega
        have hx' : x = (readExactN fuel (n + 1 - k) (acc ++ (AReader.mk c es).bytes.take k)).poll (AReader.consume k ⟨c, es⟩) := by
          rw [hx, ← e, ← ht]; rfl
        have hcur : (AReader.consume k ⟨c, es⟩).cur.length = c.length - k := List.length_drop
        have hsplit : ∀ j, k + j = n + 1 → (AReader.mk c es).bytes.take k ++ ((AReader.mk c es).bytes.drop k).take j =
            (AReader.mk c es).bytes.take (n + 1) := by
          intro j hj
          rw [← hj, List.take_add]
        rcases ih (n + 1 - k) (acc ++ (AReader.mk c es).bytes.take k) (AReader.consume k ⟨c, es⟩) (base + k) (by omega)
          (by rw [hcur, show base + k + (c.length - k) = base + c.length by omega]; exact hs) with
          ⟨i1, i2, i3, i4, i5⟩ | ⟨l, i1, i2, i3, i4, i5⟩
        · rw [← hx'] at i1 i3 i4 i5
          rw [hb] at i1 i2 i3
          rw [List.append_assoc, hsplit _ (by omega)] at i1
          rw [List.length_drop] at i2
          rw [List.drop_drop, show k + (n + 1 - k) = n + 1 by omega] at i3
          rw [show base + k + (n + 1 - k) = base + (n + 1) by omega] at i4
          exact .inl ⟨i1, by omega, i3, i4, i5⟩
        · rw [← hx'] at i2 i3 i4 i5
          rw [hb, List.drop_drop] at i3 i5
          rw [Nat.add_assoc base] at i4 i5
          exact .inr ⟨k + l, by omega, i2, i3, i4, i5⟩
      obtain ⟨cur, es⟩ := r
      cases cur with
      | cons b bs => exact key b bs es hs _ rfl
      | nil =>
        cases es with
        | nil => exact .inr ⟨0, by omega, .inr ⟨_, rfl⟩, rfl, hs, .inl rfl⟩
        | cons e es =>
          cases e with
          | pending => exact .inr ⟨0, by omega, .inl ⟨_, rfl⟩, rfl, hs.2, .inr ⟨hs.1, Nat.lt_succ_self _⟩⟩
          | fail x => exact .inr ⟨0, by omega, .inr ⟨_, rfl⟩, rfl, hs.2, .inr ⟨hs.1, Nat.lt_succ_self _⟩⟩
          | chunk b bs => exact key b bs es hs _ rfl

/-- What one poll for a value gives. -/
theorem St.pollNext_polled (S : Nat → Prop) (p : Profile) (s : St) (base left : Nat) (hr : s.remaining = (left + 1) * pixelSize s.ty)
    (hs : StopsAt S (base + s.rd.cur.length) s.rd.events) :
    (∃ v s', s.pollNext p = (.ready (some (.ok v)), s') ∧ PixelOk s.ty v ∧ pixelBytes v = s.rd.bytes.take (pixelSize s.ty) ∧
      s'.ty = s.ty ∧ s'.remaining = left * pixelSize s.ty ∧ s'.rd.bytes = s.rd.bytes.drop (pixelSize s.ty) ∧
      StopsAt S (base + pixelSize s.ty + s'.rd.cur.length) s'.rd.events ∧ stops s'.rd.events ≤ stops s.rd.events) ∨
    ∃ x s' l, s.pollNext p = (x, s') ∧ GivesNone x ∧ l < pixelSize s.ty ∧ s'.ty = s.ty ∧ s'.remaining = s.remaining ∧
      s'.rd.bytes = s.rd.bytes.drop l ∧ StopsAt S (base + l + s'.rd.cur.length) s'.rd.events ∧
      (s.rd.bytes.drop l = [] ∨ S (base + l) ∧ stops s'.rd.events < stops s.rd.events) := by
  have hpos := pixelSize_pos s.ty
  rw [Nat.add_mul, Nat.one_mul] at hr
  unfold St.pollNext
  rw [if_neg (by omega), byteSize_eq]
  have := readExactN_polled S (pixelSize s.ty) (pixelSize s.ty) [] s.rd base (Nat.le_refl _) hs
  unfold readExact
  generalize (readExactN (pixelSize s.ty) (pixelSize s.ty) []).poll s.rd = y at this ⊢
  obtain ⟨y1, y2⟩ := y
  rcases this with ⟨i1, i2, i3, i4, i5⟩ | ⟨l, i1, i2, i3, i4, i5⟩
  · dsimp only at i1
    subst i1
    rw [List.nil_append]
    have hu : usub p s.remaining (pixelSize s.ty) = .ok (left * pixelSize s.ty) := by
      unfold usub
      rw [if_pos (by omega)]
      congr 1
      omega
    obtain ⟨o1, o2⟩ := ofBytes_ok s.ty (s.rd.bytes.take (pixelSize s.ty)) (by rw [List.length_take]; omega)
    dsimp only
    rw [hu]
    exact .inl ⟨_, _, rfl, o1, o2, rfl, rfl, i3, i4, i5⟩
  · rcases i2 with ⟨f, i2⟩ | ⟨e, i2⟩ <;> (dsimp only at i2; subst i2)
    · exact .inr ⟨_, _, l, rfl, .inl rfl, i1, rfl, rfl, i3, i4, i5⟩
    · exact .inr ⟨_, _, l, rfl, .inr ⟨_, rfl⟩, i1, rfl, rfl, i3, i4, i5⟩

theorem Spec.StopsAt.all (pos : Nat) (es : List Event) : StopsAt (fun _ => True) pos es := by
  induction es generalizing pos with
  | nil => trivial
  | cons e es ih => cases e <;> first | exact ⟨trivial, ih _⟩ | exact ih _

/-! ### The property -/

/-- **C100**: of a source that is never late but may fail, the values given by any number of polls for the values of an image, whatever
errors are reported between them, are the pixels of the image, in order. -/
def C100_statement : Prop :=
  ∀ (p : Profile) (b : Bitpix) (ps : List Pixel) (after : List UInt8) (r : AReader) (m : Nat), (∀ v ∈ ps, PixelOk b v) →
    (∀ e ∈ r.events, e ≠ .pending) → r.bytes = arrayBytes ps ++ after →
    valuesOf (St.polls p m ⟨b, r, (arrayBytes ps).length⟩) <+: ps

/-- **C100, exactly**: whatever the source does, each poll gives the value of the next bytes, or nothing, and then some bytes are left out,
fewer than a value has; the end is given when as many values as the image has were given. -/
theorem C100_exact (p : Profile) (b : Bitpix) (r : AReader) (left m : Nat) :
    PolledFrom b r.bytes left (St.polls p m ⟨b, r, left * pixelSize b⟩) := by
  induction m generalizing r left with
  | zero => exact .nil _ _
  | succ m ih =>
    unfold St.polls
    cases left with
    | zero =>
      rw [St.pollNext_end (by rw [Nat.zero_mul])]
      exact .over (ih r 0)
    | succ left =>
      rcases St.pollNext_polled (fun _ => True) p ⟨b, r, (left + 1) * pixelSize b⟩ 0 left rfl (StopsAt.all _ _) with
        ⟨v, ⟨t, rd, rem⟩, h1, h2, h3, h4, h5, h6, -⟩ | ⟨x, ⟨t, rd, rem⟩, l, h1, h2, h3, h4, h5, h6, -⟩
      · dsimp only at h2 h3 h4 h5 h6
        subst h4; subst h5
        rw [h1]
        have := ih rd left
        rw [h6] at this
        exact .given v h2 h3 this
      · dsimp only at h3 h4 h5 h6
        subst h4; subst h5
        rw [h1]
        have := ih rd (left + 1)
        rw [h6] at this
        exact .lost h2 l h3 this

/-- **C100, partial** (full statement: `C100_statement`): the source may be late or fail, as often as it likes, before and after pixels,
but not inside one.  If polled often enough, all the pixels are given. -/
theorem C100_partial (p : Profile) (b : Bitpix) (ps : List Pixel) (after : List UInt8) (r : AReader) (m : Nat)
    (h : ∀ v ∈ ps, PixelOk b v) (hb : r.bytes = arrayBytes ps ++ after)
    (hs : StopsAt (fun n => n % pixelSize b = 0) r.cur.length r.events) :
    valuesOf (St.polls p m ⟨b, r, (arrayBytes ps).length⟩) <+: ps ∧
    (ps.length + stops r.events ≤ m → valuesOf (St.polls p m ⟨b, r, (arrayBytes ps).length⟩) = ps) := by
  rw [arrayBytes_length h]
  have key : ∀ (m base : Nat) (ps : List Pixel) (r : AReader), (∀ v ∈ ps, PixelOk b v) → r.bytes = arrayBytes ps ++ after →
      base % pixelSize b = 0 → StopsAt (fun n => n % pixelSize b = 0) (base + r.cur.length) r.events →
      valuesOf (St.polls p m ⟨b, r, ps.length * pixelSize b⟩) <+: ps ∧
      (ps.length + stops r.events ≤ m → valuesOf (St.polls p m ⟨b, r, ps.length * pixelSize b⟩) = ps) := by
    intro m
    induction m with
    | zero =>
      intro base ps r h hb hm hs
      refine ⟨List.nil_prefix, fun hl => ?_⟩
      cases ps with
      | nil => rfl
      | cons v ps => rw [List.length_cons] at hl; omega
    | succ m ih =>
      intro base ps r h hb hm hs
      unfold St.polls
      cases ps with
      | nil =>
        rw [St.pollNext_end (by exact Nat.zero_mul _)]
        have : ∀ k, valuesOf (St.polls p k ⟨b, r, 0⟩) = [] := by
          intro k
          induction k with
          | zero => rfl
          | succ k ih' =>
            unfold St.polls
            rw [St.pollNext_end rfl]
            exact ih'
        have e : valuesOf (.ready none :: St.polls p m ⟨b, r, ([] : List Pixel).length * pixelSize b⟩) = [] := by
          rw [List.length_nil, Nat.zero_mul]
          exact this m
        rw [e]
        exact ⟨List.nil_prefix, fun _ => rfl⟩
      | cons v ps =>
        have hv := h v (List.mem_cons_self ..)
        have hlen : (pixelBytes v).length = pixelSize b := pixelBytes_length hv
        have hcons : arrayBytes (v :: ps) = pixelBytes v ++ arrayBytes ps := rfl
        rw [hcons, List.append_assoc] at hb
        rcases St.pollNext_polled _ p ⟨b, r, (ps.length + 1) * pixelSize b⟩ base ps.length rfl hs with
          ⟨u, ⟨t, rd, rem⟩, h1, h2, h3, h4, h5, h6, h7, h8⟩ | ⟨x, ⟨t, rd, rem⟩, l, h1, h2, h3, h4, h5, h6, h7, h8⟩
        · dsimp only at h2 h3 h4 h5 h6 h7 h8
          subst h4; subst h5
          rw [hb, List.take_left' hlen] at h3
          have huv : u = v := by
            have := ofBytes_pixelBytes h2
            rw [h3, ofBytes_pixelBytes hv] at this
            exact this.symm
          subst huv
          rw [hb, List.drop_left' hlen] at h6
          have := ih (base + pixelSize t) ps rd (fun w hw => h w (List.mem_cons_of_mem _ hw)) h6
            (by rw [Nat.add_mod_right]; exact hm) h7
          rw [List.length_cons, h1]
          refine ⟨(List.prefix_cons_inj u).2 this.1, fun hm' => ?_⟩
          show u :: _ = u :: _
          rw [this.2 (by omega)]
        · dsimp only at h3 h4 h5 h6 h7 h8
          subst h4; subst h5
          rcases h8 with h8 | ⟨h8, h9⟩
          · have := congrArg List.length h8
            rw [hb, List.length_drop, List.length_append, hlen, List.length_nil] at this
            omega
          · have hl : l = 0 := by
              rw [Nat.add_mod, hm, Nat.zero_add, Nat.mod_mod, Nat.mod_eq_of_lt h3] at h8
              exact h8
            subst hl
            have := ih base (v :: ps) rd h (by rw [h6, List.drop_zero, hb, hcons, List.append_assoc]) hm h7
            have e : valuesOf (x :: St.polls p m ⟨t, rd, (ps.length + 1) * pixelSize t⟩) =
                valuesOf (St.polls p m ⟨t, rd, (ps.length + 1) * pixelSize t⟩) := by
              rcases h2 with h2 | ⟨e, h2⟩ <;> (rw [h2]; rfl)
            rw [List.length_cons, h1]
            rw [List.length_cons] at this
            dsimp only
            rw [e]
            exact ⟨this.1, fun hm' => this.2 (by omega)⟩
  exact key m 0 ps r h hb (Nat.zero_mod _) (by rw [Nat.zero_add]; exact hs)

/-- **C100, single bytes**: the bytes of a table, or the pixels of an image of bytes, are given in order whatever the source does, and all of
them if it is polled often enough. -/
theorem C100_bytes (p : Profile) (ps : List Pixel) (after : List UInt8) (r : AReader) (m : Nat)
    (h : ∀ v ∈ ps, PixelOk .u8 v) (hb : r.bytes = arrayBytes ps ++ after) :
    valuesOf (St.polls p m ⟨.u8, r, (arrayBytes ps).length⟩) <+: ps ∧
    (ps.length + stops r.events ≤ m → valuesOf (St.polls p m ⟨.u8, r, (arrayBytes ps).length⟩) = ps) := by
  refine C100_partial p .u8 ps after r m h hb ?_
  have e : (fun n => n % pixelSize .u8 = 0) = fun _ => True := by
    funext n
    exact propext ⟨fun _ => trivial, fun _ => Nat.mod_one n⟩
  rw [e]
  exact StopsAt.all _ _

/-- A source of two shorts that fails after the first byte: the value given is made of bytes of both, and then the next polls read on after
the image. -/
theorem C100_between : St.polls .checked 4 ⟨.i16, ⟨[], [.chunk 0 [], .fail .invalidInput, .chunk 1 [0, 2, 7, 7]]⟩, 4⟩ =
    [.ready (some (.err (.io .invalidInput))), .ready (some (.ok (.i16 256))), .ready (some (.ok (.i16 519))), .ready none] := by
  decide +kernel

/-- C100 is false. -/
theorem C100_fails : ¬ C100_statement := by
  intro h
  have := h .checked .i16 [.i16 1, .i16 2] [7, 7] ⟨[], [.chunk 0 [], .fail .invalidInput, .chunk 1 [0, 2, 7, 7]]⟩ 4 (by decide)
    (by decide) (by decide +kernel)
  rw [show (arrayBytes [.i16 1, .i16 2]).length = 4 from rfl, C100_between] at this
  revert this
  decide +kernel

/-- The hypotheses of `C100_partial` hold in a case with delays and failures between the pixels. -/
example : StopsAt (fun n => n % pixelSize .i16 = 0) 0 [.fail .invalidInput, .chunk 0 [1], .pending, .fail .unexpectedEof, .chunk 0 [2, 7]] ∧
    St.polls .checked 6 ⟨.i16, ⟨[], [.fail .invalidInput, .chunk 0 [1], .pending, .fail .unexpectedEof, .chunk 0 [2, 7]]⟩, 4⟩ =
      [.ready (some (.err (.io .invalidInput))), .ready (some (.ok (.i16 1))), .pending, .ready (some (.err (.io .unexpectedEof))),
        .ready (some (.ok (.i16 2))), .ready none] := by
  refine ⟨⟨rfl, rfl, rfl, trivial⟩, by decide +kernel⟩

end Fitsrs

import Verif.Lemmas.Kept
import Verif.Props.C47_C51
import Verif.Props.C64
/-
C49 and C50: what becomes of the bytes when the source is not ready, exactly.
-/

namespace Fitsrs
open Spec Fut

theorem values_of (b : Bitpix) (n : Nat) : ∀ bs : List UInt8, bs.length = n * pixelSize b →
    ∃ ps : List Pixel, ps.length = n ∧ (∀ v ∈ ps, PixelOk b v) ∧ arrayBytes ps = bs := by
  induction n with
  | zero =>
    intro bs h
    rw [Nat.zero_mul] at h
    obtain rfl := List.length_eq_zero_iff.1 h
    exact ⟨[], rfl, fun v hv => (by cases hv), rfl⟩
  | succ n ih =>
    intro bs h
    rw [Nat.succ_mul] at h
    obtain ⟨ps, h1, h2, h3⟩ := ih (bs.drop (pixelSize b)) (by rw [List.length_drop]; omega)
    obtain ⟨h4, h5⟩ := ofBytes_ok b (bs.take (pixelSize b)) (by rw [List.length_take]; omega)
    refine ⟨Pixel.ofBytes b (bs.take (pixelSize b)) :: ps, by rw [List.length_cons, h1], fun v hv => ?_, ?_⟩
    · rcases List.mem_cons.1 hv with rfl | hv
      · exact h4
      · exact h2 v hv
    · show pixelBytes _ ++ arrayBytes ps = bs
      rw [h5, h3, List.take_append_drop]

/-- **C49**, exactly, if enough bytes are kept: whatever the schedule, the stream returns the values of the bytes that are
not dropped by a delay. -/
theorem C49_kept {p : Profile} {b : Bitpix} {ps : List Pixel} {rest : List UInt8} {r : AReader} {m : Nat}
    (hh : Healthy r.events) (hok : ∀ v ∈ ps, PixelOk b v)
    (hk : kept (pixelSize b) r.cur r.events = arrayBytes ps ++ rest)
    (hm : pendings r.events + ps.length ≤ m) : St.collect p m ⟨b, r, ps.length * pixelSize b⟩ = ps.map .ok := by
  rw [collect_kept m ps r rest ps.length hh hok hk (Or.inl rfl) hm, if_pos rfl, List.append_nil]

/-- **C49**, exactly, if not enough bytes are kept: the values of the bytes that are kept, and then an error at every
call. -/
theorem C49_short {p : Profile} {b : Bitpix} {ps : List Pixel} {rest : List UInt8} {r : AReader} {m n : Nat}
    (hh : Healthy r.events) (hok : ∀ v ∈ ps, PixelOk b v)
    (hk : kept (pixelSize b) r.cur r.events = arrayBytes ps ++ rest)
    (hn : ps.length < n) (hr : rest.length < pixelSize b) (hm : pendings r.events + ps.length ≤ m) :
    St.collect p m ⟨b, r, n * pixelSize b⟩ =
      ps.map .ok ++ List.replicate (m - pendings r.events - ps.length) (.err (.io .unexpectedEof)) := by
  rw [collect_kept m ps r rest n hh hok hk (Or.inr ⟨hn, hr⟩) hm, if_neg (by omega)]

/-- **C49**, the schedules for which it holds: the stream returns the given values exactly when their bytes are not
dropped. -/
theorem C49_exact {p : Profile} {b : Bitpix} {ps : List Pixel} {r : AReader} {m : Nat} (hh : Healthy r.events)
    (hok : ∀ v ∈ ps, PixelOk b v) (hm : pendings r.events + ps.length ≤ m) :
    St.collect p m ⟨b, r, ps.length * pixelSize b⟩ = ps.map .ok ↔ arrayBytes ps <+: kept (pixelSize b) r.cur r.events := by
  have hsz := pixelSize_pos b
  constructor
  · intro h
    generalize hK : kept (pixelSize b) r.cur r.events = K
    by_cases hl : ps.length * pixelSize b ≤ K.length
    · obtain ⟨qs, h1, h2, h3⟩ := values_of b ps.length (K.take (ps.length * pixelSize b)) (by
        rw [List.length_take]; omega)
      have h4 := C49_kept (p := p) (m := m) (r := r) (rest := K.drop (ps.length * pixelSize b)) hh h2 (by
        rw [h3, List.take_append_drop, hK]) (by omega)
      rw [h1, h] at h4
      have h5 : ps = qs := by
        refine List.map_inj_right ?_ |>.1 h4
        intro x y hxy
        injection hxy
      rw [h5, h3]
      exact List.take_prefix ..
    · have hq : K.length / pixelSize b < ps.length := (Nat.div_lt_iff_lt_mul hsz).2 (by omega)
      have hle : K.length / pixelSize b * pixelSize b ≤ K.length := Nat.div_mul_le_self ..
      obtain ⟨qs, h1, h2, h3⟩ := values_of b (K.length / pixelSize b) (K.take (K.length / pixelSize b * pixelSize b)) (by
        rw [List.length_take]; exact Nat.min_eq_left hle)
      have h4 := C49_short (p := p) (m := m) (r := r) (n := ps.length)
        (rest := K.drop (K.length / pixelSize b * pixelSize b)) hh h2 (by
        rw [h3, List.take_append_drop, hK]) (by omega) (by
        rw [List.length_drop]
        have := Nat.mod_lt K.length hsz
        have h5 := Nat.div_add_mod K.length (pixelSize b)
        rw [Nat.mul_comm] at h5
        omega) (by omega)
      rw [h] at h4
      have h5 : Res.err (.io .unexpectedEof) ∈ ps.map Res.ok := by
        rw [h4]
        exact List.mem_append_right _ (List.mem_replicate.2 ⟨by omega, rfl⟩)
      obtain ⟨v, -, hv⟩ := List.mem_map.1 h5
      cases hv
  · rintro ⟨rest, h⟩
    exact C49_kept hh hok h.symm hm

/-- Of four 16-bit values that arrive with a delay inside the first and one inside the third, two are lost and the others
are wrong: the third byte and the fourth are read as a value, the fifth is dropped. -/
example (p : Profile) : St.collect p 6 ⟨.i16, ⟨[], deliver [[0], [], [1, 0, 2, 0, 3], [], [0, 4]]⟩, 4 * 2⟩ =
    [.ok (.i16 256), .ok (.i16 512), .ok (.i16 4), .err (.io .unexpectedEof)] :=
  C49_short (b := .i16) (ps := [.i16 256, .i16 512, .i16 4]) (rest := []) (n := 4)
    (r := ⟨[], deliver [[0], [], [1, 0, 2, 0, 3], [], [0, 4]]⟩) (by decide) (by decide) (by decide) (by decide) (by decide) (by decide)

/-- Delays that drop nothing, and delays that do. -/
example (p : Profile) : St.collect p 4 ⟨.i16, ⟨[], deliver [[0, 1, 0], [2], [], []]⟩, 2 * 2⟩ = [.ok (.i16 1), .ok (.i16 2)] ∧
    St.collect p 4 ⟨.i16, ⟨[], deliver [[0, 1, 0], [], [2], []]⟩, 2 * 2⟩ ≠ [.ok (.i16 1), .ok (.i16 2)] :=
  ⟨(C49_exact (b := .i16) (ps := [.i16 1, .i16 2]) (by decide) (by decide) (by decide)).2 (by decide),
    fun h => absurd ((C49_exact (b := .i16) (ps := [.i16 1, .i16 2]) (by decide) (by decide) (by decide)).1 h) (by decide)⟩

/-! ## C50 -/

theorem afterDelay_eq {as t : List Event} (h : Ready as) : afterDelay (as ++ .pending :: t) = t := by
  induction as with
  | nil => rfl
  | cons e es ih =>
    cases e with
    | pending => exact h.pending.elim
    | fail x => exact h.fail.elim
    | chunk b bs => exact ih h.tail

theorem poll_pending {α : Type} {f f' : Fut α} {r r' : AReader} (h : f.poll r = (.pending f', r')) :
    r' = ⟨[], afterDelay r.events⟩ := by
  obtain ⟨cur, es⟩ := r
  induction f generalizing cur es with
  | done x => cases h
  | consume n k ih => exact ih (cur.drop n) es h
  | fill k l ih ih' =>
    cases cur with
    | cons b bs => exact ih (b :: bs) (b :: bs) es h
    | nil =>
      cases es with
      | nil => exact ih [] [] [] h
      | cons e es =>
        cases e with
        | pending =>
          injection h with _ h
          exact h.symm
        | fail x => exact ih' x [] es h
        | chunk b bs => exact ih (b :: bs) (b :: bs) es h

theorem poll_not_pending {α : Type} {f : Fut α} {a : α} {r r' : AReader} (h : f.poll r = (.ready a, r')) :
    afterDelay r'.events = afterDelay r.events := by
  obtain ⟨cur, es⟩ := r
  induction f generalizing cur es with
  | done x =>
    injection h with _ h
    rw [← h]
  | consume n k ih => exact ih (cur.drop n) es h
  | fill k l ih ih' =>
    cases cur with
    | cons b bs => exact ih (b :: bs) (b :: bs) es h
    | nil =>
      cases es with
      | nil => exact ih [] [] [] h
      | cons e es =>
        cases e with
        | pending => cases h
        | fail x => exact ih' x [] es h
        | chunk b bs => exact ih (b :: bs) (b :: bs) es h

theorem record_ready {p : Profile} {n : Option (Res AHdu)} {f f' : AFits} : AFits.record p n f ≠ (.pending, f') := by
  unfold AFits.record
  intro h
  split at h
  · split at h <;> cases h
  · cases h
  · cases h
  · cases h

/-- **C50**, exactly, at a delay: all that was delivered before the delay is lost, be it a part of a header, of a data unit
that is being skipped, or a whole data unit and a part of the next header; nothing else changes, so that the number of bytes
of the data unit to skip remains the same. -/
theorem C50_pending {p : Profile} {f f' : AFits} (h : f.pollNext p = (.pending, f')) :
    f' = { f with rd := ⟨[], afterDelay f.rd.events⟩ } := by
  unfold AFits.pollNext at h
  split at h
  · cases h
  · split at h
    · split at h
      · rename_i hp
        injection h with _ h
        rw [← h, poll_pending hp]
      · exact absurd h record_ready
    · split at h
      · rename_i hp
        injection h with _ h
        rw [← h, poll_pending hp]
      · exact absurd h record_ready
      · rename_i hp
        split at h
        · rename_i hq
          injection h with _ h
          rw [← h, poll_pending hq, poll_not_pending hp]
        · exact absurd h record_ready
      · exact absurd h record_ready
      · exact absurd h record_ready

/-- **C50**, exactly, for the whole stream: if a call is pending the stream goes on as if what was delivered before the
delay had never been in the file. -/
theorem C50_lost {p : Profile} {f f' : AFits} {m : Nat} (h : f.pollNext p = (.pending, f')) :
    AFits.collect p (m + 1) f = AFits.collect p m { f with rd := ⟨[], afterDelay f.rd.events⟩ } := by
  rw [← C50_pending h]
  conv => lhs; unfold AFits.collect
  rw [h]

theorem bytesBefore_eq {as t : List Event} (h : Ready as) : bytesBefore (as ++ .pending :: t) = (eventBytes as).length := by
  induction as with
  | nil => rfl
  | cons e es ih =>
    cases e with
    | pending => exact h.pending.elim
    | fail x => exact h.fail.elim
    | chunk b bs =>
      show bs.length + 1 + bytesBefore (es ++ .pending :: t) = (b :: bs ++ eventBytes es).length
      rw [ih h.tail, List.length_append, List.length_cons]

/-- **C50**, exactly, for the first header: if it has not been delivered as a whole before a delay, the call is pending and
what was delivered is lost. -/
theorem C50_first {p : Profile} {r : AReader} {h : HDU} (hx : ((Fits.fromReader ⟨r.bytes, 0⟩).next p).1 = some (.ok h))
    (hd : r.cur.length + bytesBefore r.events < h.dataOffset) (hh : Healthy r.events) (hp : ¬ Ready r.events) :
    (AFits.fromReader r).pollNext p = (.pending, AFits.fromReader ⟨[], afterDelay r.events⟩) := by
  obtain ⟨sz, s', hn, hsz⟩ : ∃ sz s', HDU.newPrimary ⟨r.bytes, 0⟩ = (.ok h, s') ∧ h.dataSize p = .ok sz := by
    have hy : (Fits.fromReader ⟨r.bytes, 0⟩).next p = Fits.record p (some (HDU.newPrimary ⟨r.bytes, 0⟩).1)
        { start := false, posStart := 0, numBytes := 0, errored := false, rd := (HDU.newPrimary ⟨r.bytes, 0⟩).2.rd } := rfl
    rw [hy] at hx
    obtain ⟨h1, sz, hsz, -⟩ := Fits.record_ok (show Fits.record p _ _ = (some (.ok h), _) from Prod.ext hx rfl)
    exact ⟨sz, _, Prod.ext (by simpa using h1) rfl, hsz⟩
  have hin := newPrimary_inside hn
  dsimp only at hin
  obtain ⟨cur, es⟩ := r
  rcases events_split hh with hr | ⟨as, t, rfl, hr⟩
  · exact absurd hr hp
  dsimp only at hd hp
  rw [bytesBefore_eq hr] at hd
  have hb : (AReader.mk cur (as ++ .pending :: t)).bytes = cur ++ eventBytes as ++ eventBytes t := by
    unfold AReader.bytes
    rw [eventBytes_append, ← List.append_assoc]
    rfl
  have hb2 : (AReader.mk cur (as ++ stripEvents t)).bytes = cur ++ eventBytes as ++ eventBytes t := by
    unfold AReader.bytes
    rw [eventBytes_append, strip_bytes, ← List.append_assoc]
  have hr2 : Ready (as ++ stripEvents t) := by
    intro e he
    rcases List.mem_append.1 he with he | he
    · exact hr e he
    · exact strip_ready hh.after.tail e he
  rw [hb] at hn hin
  obtain ⟨r1, h1, h2⟩ := newPrimaryA_ok (rd := ⟨cur ++ eventBytes as ++ eventBytes t, 0⟩)
    (r := ⟨cur, as ++ stripEvents t⟩)
    (fuel := (cur ++ eventBytes as ++ eventBytes t).length + 1) (k := h.dataOffset) hn (by
      have := Sees.of_ready (r := ⟨cur, as ++ stripEvents t⟩) hr2 h.dataOffset
      rw [hb2] at this
      exact this) (Nat.le_refl _) (by dsimp only; omega)
  have h3 := h2.bytes
  unfold AFits.pollNext AFits.fromReader
  dsimp only
  rw [if_neg (by decide), if_pos rfl, hb]
  rcases poll_delay (AHdu.newPrimary ((cur ++ eventBytes as ++ eventBytes t).length + 1)) (cur := cur) (t := t) hr with
    ⟨a, cur', as', -, h4⟩ | ⟨f', h4⟩
  · exfalso
    rw [h4] at h1
    injection h1 with _ h1
    rw [← h1] at h3
    have h5 := congrArg List.length h3
    unfold AReader.bytes at h5
    dsimp only at h5
    rw [eventBytes_append, strip_bytes] at h5
    rw [List.length_append, List.length_append, List.length_drop] at h5
    rw [List.length_append, List.length_append] at h5 hin
    omega
  · rw [h4, afterDelay_eq hr]

/-- **C50**, exactly, for a file with a delay in its first header: the stream gives the HDUs of what follows the delay, as
if this were the file. -/
theorem C50_cut {p : Profile} {r : AReader} {h : HDU} {m : Nat} (hx : ((Fits.fromReader ⟨r.bytes, 0⟩).next p).1 = some (.ok h))
    (hd : r.cur.length + bytesBefore r.events < h.dataOffset) (hh : Healthy r.events) (hp : ¬ Ready r.events) :
    AFits.collect p (m + 1) (AFits.fromReader r) = AFits.collect p m (AFits.fromReader ⟨[], afterDelay r.events⟩) :=
  collect_pending (C50_first hx hd hh hp)

set_option maxRecDepth 20000 in
/-- The sample file with a delay after its first record is read as the file without this record: the stream fails. -/
example : AFits.collect .checked 4 (AFits.fromReader ⟨[], deliver [sampleFile.take 80, [], sampleFile.drop 80]⟩) =
    AFits.collect .checked 3 (AFits.fromReader ⟨[], deliver [sampleFile.drop 80]⟩) := by
  have hb : (AReader.mk [] (deliver [sampleFile.take 80, [], sampleFile.drop 80])).bytes = sampleFile := by decide +kernel
  have ha : afterDelay (deliver [sampleFile.take 80, [], sampleFile.drop 80]) = deliver [sampleFile.drop 80] := by
    decide +kernel
  have := C50_cut (p := .checked) (r := ⟨[], deliver [sampleFile.take 80, [], sampleFile.drop 80]⟩) (h := samplePrimaryHdu)
    (m := 3) (by rw [hb]; decide +kernel) (by decide +kernel) (by decide +kernel) (by decide +kernel)
  dsimp only at this
  rw [ha] at this
  exact this

/-- **C50**, exactly, for the next header: if the rest of the data unit and the next header have not been delivered as a
whole before a delay, the call is pending, what was delivered is lost, and the next call will skip as many bytes again. -/
theorem C50_next {p : Profile} {data : List UInt8} {a : AFits} {pos sz : Nat} {h : HDU} {s' : HState}
    (hs : a.start = false) (he : a.errored = false) (hb : a.rd.bytes = data.drop pos)
    (hx : Fits.extensionAt p data (pos + (a.remaining + (roundUp2880 a.numBytes - a.numBytes))) = (.ok h, s'))
    (hsz : h.dataSize p = .ok sz) (hd : pos + (a.rd.cur.length + bytesBefore a.rd.events) < h.dataOffset)
    (hh : Healthy a.rd.events) (hp : ¬ Ready a.rd.events) :
    a.pollNext p = (.pending, { a with rd := ⟨[], afterDelay a.rd.events⟩ }) := by
  have hin : h.dataOffset ≤ data.length := newXtension_inside hx
  obtain ⟨start, remaining, numBytes, errored, rd⟩ := a
  obtain ⟨cur, es⟩ := rd
  dsimp only at hs he hb hx hd hp hh ⊢
  subst hs he
  rcases events_split hh with hr | ⟨as, t, rfl, hr⟩
  · exact absurd hr hp
  rw [bytesBefore_eq hr] at hd
  have hb1 : (AReader.mk cur (as ++ .pending :: t)).bytes = cur ++ eventBytes as ++ eventBytes t := by
    unfold AReader.bytes
    rw [eventBytes_append, ← List.append_assoc]
    rfl
  have hb2 : (AReader.mk cur (as ++ stripEvents t)).bytes = data.drop pos := by
    rw [← hb, hb1]
    unfold AReader.bytes
    rw [eventBytes_append, strip_bytes, ← List.append_assoc]
  rw [hb1] at hb
  have hr2 : Ready (as ++ stripEvents t) := by
    intro e he
    rcases List.mem_append.1 he with he | he
    · exact hr e he
    · exact strip_ready hh.after.tail e he
  obtain ⟨r', h1, h2⟩ := pollNext_ok (p := p)
    (a := { start := false, numBytes := numBytes, remaining := remaining, errored := false, rd := ⟨cur, as ++ stripEvents t⟩ })
    (pos := pos) (k := h.dataOffset - pos) rfl rfl (by
      have := Sees.of_ready (r := ⟨cur, as ++ stripEvents t⟩) hr2 (h.dataOffset - pos)
      rw [hb2] at this
      exact this) hx hsz (Nat.le_refl _)
  unfold AFits.pollNext at h1 ⊢
  dsimp only at h1 ⊢
  rw [if_neg (by decide), if_neg (by decide)] at h1 ⊢
  rw [afterDelay_eq hr]
  rcases poll_delay (AFits.consumeUntilNextHdu remaining numBytes) (cur := cur) (t := t) hr with
    ⟨v, cur1, as1, hr1, h4⟩ | ⟨f', h4⟩
  · rw [h4] at h1 ⊢
    cases v with
    | err e => cases h1
    | panic => cases h1
    | ok v =>
      cases v with
      | true => cases h1
      | false =>
        dsimp only at h1 ⊢
        have hlen : (AReader.mk cur1 (as1 ++ .pending :: t)).bytes.length =
            (AReader.mk cur1 (as1 ++ stripEvents t)).bytes.length := by
          unfold AReader.bytes
          rw [eventBytes_append, eventBytes_append, strip_bytes]
          rfl
        rw [hlen]
        generalize (AReader.mk cur1 (as1 ++ stripEvents t)).bytes.length + 1 = fuel at h1 ⊢
        rcases poll_delay (AHdu.newXtension p fuel) (cur := cur1) (t := t) hr1 with ⟨w, cur2, as2, hr2, h5⟩ | ⟨f', h5⟩
        · exfalso
          rw [h5] at h1
          dsimp only at h1
          have h6 : r' = ⟨cur2, as2 ++ stripEvents t⟩ := by
            cases w with
            | err e => cases h1
            | panic => cases h1
            | ok w =>
              unfold AFits.record at h1
              dsimp only at h1
              split at h1
              · injection h1 with _ h1
                injection h1 with _ _ _ _ h1
                exact h1.symm
              · cases h1
              · cases h1
          have h7 := congrArg List.length h2.bytes
          rw [h6] at h7
          unfold AReader.bytes at h7
          dsimp only at h7
          rw [eventBytes_append, strip_bytes, List.length_append, List.length_append, List.length_drop] at h7
          have h8 := congrArg List.length hb
          rw [List.length_append, List.length_append, List.length_drop] at h8
          omega
        · rw [h5]
  · rw [h4]

set_option maxRecDepth 20000 in
theorem sample_next : (Fits.extensionAt .checked sampleFile (2880 + (10 + (roundUp2880 10 - 10)))).1 = .ok sampleImageHdu := by
  decide +kernel

set_option maxRecDepth 20000 in
theorem sample_next_size : sampleImageHdu.dataSize .checked = .ok 12 := by decide +kernel

theorem exists_snd {α β : Type} {x : α × β} {a : α} (h : x.1 = a) : ∃ b, x = (a, b) := ⟨x.2, by rw [← h]⟩

set_option maxRecDepth 20000 in
/-- The sample file, after its first header, with a delay after 100 bytes. -/
example : AFits.pollNext .checked ⟨false, 10, 10, false, ⟨[], deliver [(sampleFile.drop 2880).take 100, [], sampleFile.drop 2980]⟩⟩ =
    (.pending, ⟨false, 10, 10, false, ⟨[], afterDelay (deliver [(sampleFile.drop 2880).take 100, [], sampleFile.drop 2980])⟩⟩) := by
  obtain ⟨s', hx⟩ := exists_snd sample_next
  have hb : (AReader.mk [] (deliver [(sampleFile.drop 2880).take 100, [], sampleFile.drop 2980])).bytes = sampleFile.drop 2880 := by
    decide +kernel
  have hd : 2880 + (0 + bytesBefore (deliver [(sampleFile.drop 2880).take 100, [], sampleFile.drop 2980])) <
      sampleImageHdu.dataOffset := by
    decide +kernel
  have hp : ¬ Ready (deliver [(sampleFile.drop 2880).take 100, [], sampleFile.drop 2980]) := by decide +kernel
  have hh : Healthy (deliver [(sampleFile.drop 2880).take 100, [], sampleFile.drop 2980]) := by decide +kernel
  generalize deliver [(sampleFile.drop 2880).take 100, [], sampleFile.drop 2980] = es at *
  exact C50_next (a := ⟨false, 10, 10, false, ⟨[], es⟩⟩) rfl rfl hb hx sample_next_size hd hh hp

end Fitsrs

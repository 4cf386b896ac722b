import Verif.Lemmas.AsyncData
import Verif.Spec.Kept
/-
Delays of an asynchronous source: what is read before them and what is lost.
-/

namespace Fitsrs
open Spec Fut

theorem events_split {es : List Event} (hh : Healthy es) : Ready es ∨ ∃ as t, es = as ++ .pending :: t ∧ Ready as := by
  induction es with
  | nil => left; intro e h; cases h
  | cons e es ih =>
    cases e with
    | pending => exact Or.inr ⟨[], es, rfl, fun e h => by cases h⟩
    | fail x => exact hh.fail.elim
    | chunk b bs =>
      rcases ih hh.tail with h | ⟨as, t, rfl, h⟩
      · exact Or.inl h.chunk
      · exact Or.inr ⟨.chunk b bs :: as, t, rfl, h.chunk⟩

theorem Spec.Ready.append {as bs : List Event} (h : Ready as) (h' : Ready bs) : Ready (as ++ bs) := fun e he => by
  rcases List.mem_append.1 he with he | he
  · exact h e he
  · exact h' e he

theorem Spec.Healthy.after {as bs : List Event} (h : Healthy (as ++ bs)) : Healthy bs :=
  fun e he => h e (List.mem_append_right _ he)

theorem Spec.Ready.delay {as t : List Event} (h : Ready as) (h' : Healthy t) : Healthy (as ++ .pending :: t) := fun e he => by
  rcases List.mem_append.1 he with he | he
  · exact h.healthy e he
  · rcases List.mem_cons.1 he with rfl | he
    · rfl
    · exact h' e he

theorem kept_ready {w : Nat} {es : List Event} (h : Ready es) (cur : List UInt8) : kept w cur es = cur ++ eventBytes es := by
  induction es generalizing cur with
  | nil => exact (List.append_nil cur).symm
  | cons e es ih =>
    cases e with
    | pending => exact h.pending.elim
    | fail x => exact h.fail.elim
    | chunk b bs =>
      show kept w (cur ++ b :: bs) es = cur ++ (b :: bs ++ eventBytes es)
      rw [ih h.tail, List.append_assoc]

theorem kept_delay {w : Nat} {as t : List Event} (h : Ready as) (cur : List UInt8) :
    kept w cur (as ++ .pending :: t) =
      (cur ++ eventBytes as).take ((cur ++ eventBytes as).length / w * w) ++ kept w [] t := by
  induction as generalizing cur with
  | nil =>
    show cur.take _ ++ _ = _
    rw [show eventBytes [] = [] from rfl, List.append_nil]
  | cons e es ih =>
    cases e with
    | pending => exact h.pending.elim
    | fail x => exact h.fail.elim
    | chunk b bs =>
      show kept w (cur ++ b :: bs) (es ++ .pending :: t) = _
      rw [ih h.tail]
      show _ = List.take ((cur ++ (b :: bs ++ eventBytes es)).length / w * w) (cur ++ (b :: bs ++ eventBytes es)) ++ _
      rw [← List.append_assoc cur (b :: bs)]

theorem pendings_none {es : List Event} (h : Ready es) : pendings es = 0 := by
  induction es with
  | nil => rfl
  | cons e es ih =>
    cases e with
    | pending => exact h.pending.elim
    | fail x => exact h.fail.elim
    | chunk b bs => exact ih h.tail

theorem pendings_delay {as t : List Event} (h : Ready as) : pendings (as ++ .pending :: t) = pendings t + 1 := by
  induction as with
  | nil => rfl
  | cons e es ih =>
    cases e with
    | pending => exact h.pending.elim
    | fail x => exact h.fail.elim
    | chunk b bs => exact ih h.tail

theorem eventBytes_append (as bs : List Event) : eventBytes (as ++ bs) = eventBytes as ++ eventBytes bs := by
  induction as with
  | nil => rfl
  | cons e es ih =>
    cases e with
    | pending => exact ih
    | fail x => exact ih
    | chunk b l =>
      show b :: l ++ eventBytes (es ++ bs) = b :: l ++ eventBytes es ++ eventBytes bs
      rw [ih, List.append_assoc]

/-- Polling up to a delay: the result comes before it and does not depend on what follows, or everything up to the delay
is consumed. -/
theorem poll_delay {α : Type} (f : Fut α) {cur : List UInt8} {as t : List Event} (h : Ready as) :
    (∃ a cur' as', Ready as' ∧ ∀ tail, f.poll ⟨cur, as ++ tail⟩ = (.ready a, ⟨cur', as' ++ tail⟩)) ∨
      ∃ f', f.poll ⟨cur, as ++ .pending :: t⟩ = (.pending f', ⟨[], t⟩) := by
  induction f generalizing cur as with
  | done a => exact Or.inl ⟨a, cur, as, h, fun _ => rfl⟩
  | consume n k ih => exact ih (cur := cur.drop n) h
  | fill k l ih ih' =>
    cases cur with
    | cons b bs => exact ih (b :: bs) (cur := b :: bs) h
    | nil =>
      cases as with
      | nil => exact Or.inr ⟨.fill k l, rfl⟩
      | cons e es =>
        cases e with
        | pending => exact h.pending.elim
        | fail x => exact h.fail.elim
        | chunk b bs => exact ih (b :: bs) (cur := b :: bs) (as := es) h.tail

/-- A source that is always ready. -/
theorem poll_all {α : Type} (f : Fut α) {cur : List UInt8} {es : List Event} (h : Ready es) :
    ∃ a cur' es', f.poll ⟨cur, es⟩ = (.ready a, ⟨cur', es'⟩) ∧ Ready es' := by
  induction f generalizing cur es with
  | done a => exact ⟨a, cur, es, rfl, h⟩
  | consume n k ih => exact ih (cur := cur.drop n) h
  | fill k l ih ih' =>
    cases cur with
    | cons b bs => exact ih (b :: bs) (cur := b :: bs) h
    | nil =>
      cases es with
      | nil => exact ih [] (cur := []) h
      | cons e es =>
        cases e with
        | pending => exact h.pending.elim
        | fail x => exact h.fail.elim
        | chunk b bs => exact ih (b :: bs) (cur := b :: bs) h.tail

theorem clear_delay {as t : List Event} (h : Ready as) {k : Nat} (hk : k ≤ (eventBytes as).length) :
    ClearE k (as ++ .pending :: t) := by
  induction as generalizing k with
  | nil => exact Nat.le_zero.1 hk
  | cons e es ih =>
    cases e with
    | pending => exact h.pending.elim
    | fail x => exact h.fail.elim
    | chunk b bs =>
      refine ih h.tail ?_
      have : (eventBytes (.chunk b bs :: es)).length = bs.length + 1 + (eventBytes es).length := by
        show (b :: bs ++ eventBytes es).length = _
        rw [List.length_append, List.length_cons]
      omega

/-- Reading `w` bytes, before a delay. -/
theorem readExact_before {w : Nat} {cur : List UInt8} {as t : List Event} (h : Ready as)
    (hw : w ≤ (cur ++ eventBytes as).length) :
    ∃ cur' as', (readExact w).poll ⟨cur, as ++ .pending :: t⟩ =
        (.ready (.ok ((cur ++ eventBytes as).take w)), ⟨cur', as' ++ .pending :: t⟩) ∧ Ready as' ∧
      cur' ++ eventBytes as' = (cur ++ eventBytes as).drop w := by
  have hb : (AReader.mk cur (as ++ .pending :: t)).bytes = (cur ++ eventBytes as) ++ eventBytes t := by
    unfold AReader.bytes
    rw [eventBytes_append, ← List.append_assoc]
    rfl
  have hs : Sees ⟨cur, as ++ .pending :: t⟩ w ((cur ++ eventBytes as) ++ eventBytes t) := by
    refine ⟨hb, clear_delay h ?_⟩
    rw [List.length_append] at hw
    dsimp only
    omega
  obtain ⟨r', h1, h2⟩ := readExact_ok hs (by rw [List.length_append]; omega) (Nat.le_refl _)
  rw [List.take_append_of_le_length hw] at h1
  rw [List.drop_append_of_le_length hw] at h2
  rcases poll_delay (readExact w) (cur := cur) (t := t) h with ⟨a, cur', as', h3, h4⟩ | ⟨f', h3⟩
  · have h5 := h4 (.pending :: t)
    rw [h1] at h5
    injection h5 with h5 h6
    subst h6
    refine ⟨cur', as', h1, h3, ?_⟩
    have h7 := h2.bytes
    unfold AReader.bytes at h7
    dsimp only at h7
    rw [eventBytes_append, ← List.append_assoc] at h7
    exact List.append_cancel_right h7
  · rw [h1] at h3
    cases h3

/-- Reading `w` bytes when there are less before a delay. -/
theorem readExact_across {w : Nat} {cur : List UInt8} {as t : List Event} (h : Ready as)
    (hw : (cur ++ eventBytes as).length < w) :
    ∃ f', (readExact w).poll ⟨cur, as ++ .pending :: t⟩ = (.pending f', ⟨[], t⟩) := by
  rcases poll_delay (readExact w) (cur := cur) (t := t) h with ⟨a, cur', as', h3, h4⟩ | h3
  · exfalso
    have h5 := h4 []
    rw [List.append_nil] at h5
    obtain ⟨r1, h6, -⟩ := readExact_eof (n := w) (Sees.of_ready (r := ⟨cur, as⟩) h (w + 1)) hw (by
      show (cur ++ eventBytes as).length < w + 1; omega)
    rw [h5] at h6
    injection h6 with h6 _
    have h7 := h4 [.chunk 0 (List.replicate w 0)]
    have hr : Ready (as ++ [.chunk 0 (List.replicate w 0)]) := by
      intro e he
      rcases List.mem_append.1 he with he | he
      · exact h e he
      · rw [List.mem_singleton.1 he]; rfl
    obtain ⟨r2, h8, -⟩ := readExact_ok (n := w) (Sees.of_ready (r := ⟨cur, as ++ [.chunk 0 (List.replicate w 0)]⟩) hr w) (by
      unfold AReader.bytes
      rw [eventBytes_append, List.length_append, List.length_append]
      have : (eventBytes [Event.chunk 0 (List.replicate w 0)]).length = w + 1 := by
        show ((0 : UInt8) :: List.replicate w 0 ++ []).length = _
        rw [List.append_nil, List.length_cons, List.length_replicate]
      omega) (Nat.le_refl _)
    rw [h7] at h8
    injection h8 with h8 _
    rw [h6] at h8
    cases h8
  · exact h3

theorem St.pollNext_read {p : Profile} {b : Bitpix} {r r' : AReader} {n : Nat} {bs : List UInt8}
    (h : (readExact (pixelSize b)).poll r = (.ready (.ok bs), r')) :
    St.pollNext p ⟨b, r, (n + 1) * pixelSize b⟩ = (.ready (some (.ok (Pixel.ofBytes b bs))), ⟨b, r', n * pixelSize b⟩) := by
  have hsz := pixelSize_pos b
  have hm : (n + 1) * pixelSize b = n * pixelSize b + pixelSize b := Nat.succ_mul ..
  unfold St.pollNext
  dsimp only
  rw [if_neg (by omega), byteSize_eq, h]
  dsimp only
  rw [usub_ok (by omega)]
  dsimp only
  rw [hm, Nat.add_sub_cancel]

theorem St.pollNext_delay {p : Profile} {b : Bitpix} {r r' : AReader} {n : Nat} {f : Fut (Res (List UInt8))}
    (h : (readExact (pixelSize b)).poll r = (.pending f, r')) :
    St.pollNext p ⟨b, r, (n + 1) * pixelSize b⟩ = (.pending, ⟨b, r', (n + 1) * pixelSize b⟩) := by
  have hsz := pixelSize_pos b
  have hm : (n + 1) * pixelSize b = n * pixelSize b + pixelSize b := Nat.succ_mul ..
  unfold St.pollNext
  dsimp only
  rw [if_neg (by omega), byteSize_eq, h]

theorem St.pollNext_fail {p : Profile} {b : Bitpix} {r r' : AReader} {n : Nat} {e : Err}
    (h : (readExact (pixelSize b)).poll r = (.ready (.err e), r')) :
    St.pollNext p ⟨b, r, (n + 1) * pixelSize b⟩ = (.ready (some (.err e)), ⟨b, r', (n + 1) * pixelSize b⟩) := by
  have hsz := pixelSize_pos b
  have hm : (n + 1) * pixelSize b = n * pixelSize b + pixelSize b := Nat.succ_mul ..
  unfold St.pollNext
  dsimp only
  rw [if_neg (by omega), byteSize_eq, h]

/-- The pixels of the bytes that are kept, and then failures if there are not enough. -/
theorem collect_kept {p : Profile} {b : Bitpix} (m : Nat) : ∀ (ps : List Pixel) (r : AReader) (rest : List UInt8) (n : Nat),
    Healthy r.events → (∀ v ∈ ps, PixelOk b v) → kept (pixelSize b) r.cur r.events = arrayBytes ps ++ rest →
    (n = ps.length ∨ ps.length < n ∧ rest.length < pixelSize b) → pendings r.events + ps.length ≤ m →
    St.collect p m ⟨b, r, n * pixelSize b⟩ = ps.map .ok ++
      if n = ps.length then [] else List.replicate (m - pendings r.events - ps.length) (.err (.io .unexpectedEof)) := by
  have hsz := pixelSize_pos b
  induction m with
  | zero =>
    intro ps r rest n hh hok hk hn hm
    obtain rfl : ps = [] := List.length_eq_zero_iff.1 (by omega)
    show [] = _
    split
    · rfl
    · rw [Nat.zero_sub, Nat.zero_sub]; rfl
  | succ m ih =>
    intro ps r rest n hh hok hk hn hm
    cases n with
    | zero =>
      obtain rfl : ps = [] := List.length_eq_zero_iff.1 (by omega)
      unfold St.collect
      rw [St.pollNext_end (by simp)]
      rfl
    | succ n =>
      obtain ⟨cur, es⟩ := r
      dsimp only at hh hk hm ⊢
      -- a pixel is read
      have one : ∀ (v : Pixel) (qs : List Pixel) (r' : AReader), Healthy r'.events → ps = v :: qs →
          (readExact (pixelSize b)).poll ⟨cur, es⟩ = (.ready (.ok ((arrayBytes ps ++ rest).take (pixelSize b))), r') →
          kept (pixelSize b) r'.cur r'.events = (arrayBytes ps ++ rest).drop (pixelSize b) → pendings r'.events = pendings es →
          St.collect p (m + 1) ⟨b, ⟨cur, es⟩, (n + 1) * pixelSize b⟩ = ps.map .ok ++
            if n + 1 = ps.length then [] else List.replicate (m + 1 - pendings es - ps.length) (.err (.io .unexpectedEof)) := by
        intro v qs r' hh' hps hp hk' hpe
        subst hps
        have hv := hok v (List.mem_cons_self ..)
        have hlv := pixelBytes_length hv
        have hall : arrayBytes (v :: qs) ++ rest = pixelBytes v ++ (arrayBytes qs ++ rest) := by
          rw [← List.append_assoc]; rfl
        rw [hall] at hp hk'
        rw [List.take_append_of_le_length (by omega), List.take_of_length_le (by omega)] at hp
        rw [List.drop_append_of_le_length (by omega), List.drop_of_length_le (by omega), List.nil_append] at hk'
        rw [List.length_cons] at hm hn
        have hi := ih qs r' rest n hh' (fun w hw => hok w (List.mem_cons_of_mem _ hw)) hk' (by omega) (by omega)
        conv => lhs; unfold St.collect
        rw [St.pollNext_read hp]
        dsimp only
        rw [hi, ofBytes_pixelBytes hv, hpe, List.map_cons, List.length_cons, List.cons_append]
        congr 2
        by_cases hq : n = qs.length
        · rw [if_pos hq, if_pos (by omega)]
        · rw [if_neg hq, if_neg (by omega)]
          congr 1
          omega
      rcases events_split hh with hr | ⟨as, t, rfl, hr⟩
      · rw [kept_ready hr] at hk
        have h0 : pendings es = 0 := pendings_none hr
        cases ps with
        | nil =>
          have hl : (cur ++ eventBytes es).length < pixelSize b := by
            rw [hk]
            rcases hn with hn | hn
            · cases hn
            · exact hn.2
          obtain ⟨r', h1, h2⟩ := readExact_eof (n := pixelSize b) (Sees.of_ready (r := ⟨cur, es⟩) hr (pixelSize b)) hl hl
          obtain ⟨a, cur', es', h3, h4⟩ := poll_all (readExact (pixelSize b)) (cur := cur) hr
          rw [h1] at h3
          injection h3 with _ h3
          subst h3
          have hb : cur' ++ eventBytes es' = [] := h2.bytes
          have hi := ih [] ⟨cur', es'⟩ [] (n + 1) h4.healthy (fun v hv => by cases hv) (by
            dsimp only; rw [kept_ready h4, hb]; rfl) (Or.inr ⟨by simp, hsz⟩) (by
            dsimp only; rw [pendings_none h4]; simp)
          conv => lhs; unfold St.collect
          rw [St.pollNext_fail h1]
          dsimp only
          rw [hi, if_neg (by simp), if_neg (by simp), h0]
          dsimp only
          rw [pendings_none h4]
          rfl
        | cons v qs =>
          have hlen : pixelSize b ≤ (cur ++ eventBytes es).length := by
            rw [hk]
            have := pixelBytes_length (hok v (List.mem_cons_self ..))
            show _ ≤ (pixelBytes v ++ arrayBytes qs ++ rest).length
            rw [List.length_append, List.length_append]
            omega
          obtain ⟨r', h1, h2⟩ := readExact_ok (n := pixelSize b) (Sees.of_ready (r := ⟨cur, es⟩) hr (pixelSize b)) hlen
            (Nat.le_refl _)
          obtain ⟨a, cur', es', h3, h4⟩ := poll_all (readExact (pixelSize b)) (cur := cur) hr
          rw [h1] at h3
          injection h3 with _ h3
          subst h3
          refine one v qs _ h4.healthy rfl (by rw [h1, ← hk]; rfl) ?_ ?_
          · dsimp only
            rw [kept_ready h4, ← hk]
            exact h2.bytes
          · dsimp only
            rw [pendings_none h4, h0]
      · rw [kept_delay hr] at hk
        rw [pendings_delay hr] at hm
        by_cases hl : (cur ++ eventBytes as).length < pixelSize b
        · obtain ⟨f', h1⟩ := readExact_across (t := t) hr hl
          have hi := ih ps ⟨[], t⟩ rest (n + 1) hh.after.tail hok (by
            dsimp only
            rw [← hk, Nat.div_eq_of_lt hl, Nat.zero_mul, List.take_zero, List.nil_append]) hn (by dsimp only; omega)
          conv => lhs; unfold St.collect
          rw [St.pollNext_delay h1]
          dsimp only
          rw [hi, pendings_delay hr]
          dsimp only
          congr 3
          omega
        · have hq : pixelSize b ≤ (cur ++ eventBytes as).length / pixelSize b * pixelSize b := by
            have : 1 ≤ (cur ++ eventBytes as).length / pixelSize b := (Nat.le_div_iff_mul_le hsz).2 (by omega)
            exact Nat.le_mul_of_pos_left _ this
          have hle : (cur ++ eventBytes as).length / pixelSize b * pixelSize b ≤ (cur ++ eventBytes as).length :=
            Nat.div_mul_le_self ..
          obtain ⟨cur', as', h1, h2, h3⟩ := readExact_before (t := t) (w := pixelSize b) (cur := cur) hr (by omega)
          generalize hL : cur ++ eventBytes as = L at hk hl hq hle h1 h3
          have hne : ps ≠ [] := by
            rintro rfl
            rcases hn with hn | ⟨-, hn⟩
            · cases hn
            · have := congrArg List.length hk
              rw [List.length_append, List.length_take, List.length_append] at this
              have h0 : (arrayBytes []).length = 0 := rfl
              generalize L.length / pixelSize b * pixelSize b = x at *
              omega
          obtain ⟨v, qs, rfl⟩ := List.exists_cons_of_ne_nil hne
          have ht : (arrayBytes (v :: qs) ++ rest).take (pixelSize b) = L.take (pixelSize b) := by
            rw [← hk, List.take_append_of_le_length (by rw [List.length_take]; omega), List.take_take, Nat.min_eq_left hq]
          have hd : (arrayBytes (v :: qs) ++ rest).drop (pixelSize b) =
              (L.drop (pixelSize b)).take ((L.drop (pixelSize b)).length / pixelSize b * pixelSize b) ++ kept (pixelSize b) [] t := by
            rw [← hk, List.drop_append_of_le_length (by rw [List.length_take]; omega), List.drop_take, List.length_drop]
            congr 2
            have : L.length / pixelSize b = (L.length - pixelSize b) / pixelSize b + 1 := by
              rw [← Nat.add_div_right _ hsz, Nat.sub_add_cancel (by omega)]
            rw [this, Nat.succ_mul, Nat.add_sub_cancel]
          refine one v qs _ (h2.delay hh.after.tail) rfl (by rw [h1, ht]) ?_ ?_
          · dsimp only
            rw [kept_delay h2, h3, hd]
          · dsimp only
            rw [pendings_delay h2, pendings_delay hr]

end Fitsrs

import Verif.Spec.Drift
import Verif.Props.C99
/-
C99, calls of `next` and `read_value` after failed reads.
-/

namespace Fitsrs
open Spec

namespace BufReader

/-- Where a refused move leaves the reader: where it was. -/
theorem seek_refused {b : BufReader} {r : Reader} (h : b.Is r) {off : Int} (hd : r.data.length < 2 ^ 62) (ho : -(2 : Int) ^ 62 < off)
    (hn : (r.pos : Int) + off < 0) : ∃ e, b.seek off = (.err e, b) := by
  have h1 := h.inside
  have h3 := h.pos
  have h4 : b.buf.length ≤ r.data.length := by
    have := congrArg List.length h.all
    rw [List.length_take, List.length_drop] at this
    omega
  unfold BufReader.seek
  rw [if_pos (by omega)]
  unfold SlowFile.seek
  rw [if_neg (by omega)]
  exact ⟨_, rfl⟩

theorem seekRelative_refused {b : BufReader} {r : Reader} (h : b.Is r) {off : Int} (hd : r.data.length < 2 ^ 62)
    (ho : -(2 : Int) ^ 62 < off) (hn : (r.pos : Int) + off < 0) : ∃ e, b.seekRelative off = (.err e, b) := by
  have h1 := h.inside
  have h2 := h.before
  have h3 := h.pos
  unfold BufReader.seekRelative
  rw [if_pos (by omega), if_neg (by omega)]
  exact seek_refused h hd ho hn

end BufReader

/-- Moves of a reader that are refused only if they lead before the beginning. -/
def Input.Moves (S : Input BufReader) : Prop := ∀ {b : BufReader} {r : Reader} {off : Int}, b.Is r → r.data.length < 2 ^ 62 →
  -(2 : Int) ^ 62 < off → (r.pos : Int) + off < 2 ^ 62 →
  (0 ≤ (r.pos : Int) + off → (S.seekRelative off b).1 = .ok () ∧ (S.seekRelative off b).2.Is ⟨r.data, ((r.pos : Int) + off).toNat⟩) ∧
  ((r.pos : Int) + off < 0 → ∃ e, S.seekRelative off b = (.err e, b))

theorem buf_moves : bufInput.Moves := by
  intro b r off h hd ho ht
  refine ⟨fun h0 => ?_, fun hn => BufReader.seekRelative_refused h hd ho hn⟩
  rcases BufReader.seekRelative_cases r off with ⟨-, e⟩ | ⟨q, -⟩
  · have := BufReader.seekRelative_spec h off (by rw [e]; dsimp only; omega)
    rw [e] at this
    exact ⟨this.1, this.2 rfl⟩
  · omega

theorem gz_moves : gzInput.Moves := by
  intro b r off h hd ho ht
  refine ⟨fun h0 => ?_, fun hn => BufReader.seek_refused h hd ho hn⟩
  rcases BufReader.seekRelative_cases r off with ⟨-, e⟩ | ⟨q, -⟩
  · have := BufReader.seek_spec h off (by rw [e]; dsimp only; omega)
    rw [e] at this
    exact ⟨this.1, this.2 rfl⟩
  · omega

/-- One call of `next` before the end. -/
theorem It.nextP_place {S : Input BufReader} (hS : S.Places) {it : It} (hc : it.cur < it.numItems) {b : BufReader} {data : List UInt8}
    {pos : Nat} (h : b.Is ⟨data, pos⟩) :
    (∃ v b', it.nextP.on S b = ((.ok (some v, { it with cur := it.cur + 1 }), false), b') ∧ PixelOk it.ty v ∧
      pixelBytes v = (data.drop pos).take (pixelSize it.ty) ∧ b'.Is ⟨data, pos + pixelSize it.ty⟩) ∨
    ∃ l b', it.nextP.on S b = ((.ok (none, { it with cur := it.cur + 1 }), true), b') ∧ l < pixelSize it.ty ∧ b'.Is ⟨data, pos + l⟩ := by
  unfold It.nextP
  rw [if_neg (by omega)]
  unfold Prog.on
  rcases hS it.ty.byteSize h with ⟨h1, h2, h3⟩ | ⟨e, l, h0, h1, h2⟩
  · cases hx : S.readExact it.ty.byteSize b with
    | mk x b' =>
      rw [hx] at h1 h3
      dsimp only at h1 h2 h3
      subst h1
      rw [byteSize_eq] at h2 h3
      obtain ⟨o1, o2⟩ := ofBytes_ok it.ty _ h2
      dsimp only [Prog.on]
      rw [byteSize_eq]
      exact .inl ⟨_, _, rfl, o1, o2, h3⟩
  · cases hx : S.readExact it.ty.byteSize b with
    | mk x b' =>
      rw [hx] at h1 h2
      dsimp only at h1 h2
      subst h1
      rw [byteSize_eq] at h0
      exact .inr ⟨l, _, rfl, h0, h2⟩

theorem Prog.on_map {σ α β : Type} (S : Input σ) (f : α → β) (P : Prog α) (s : σ) :
    (P.map f).on S s = (((P.on S s).1.1.map f, (P.on S s).1.2), (P.on S s).2) := by
  induction P generalizing s with
  | done a => rfl
  | read n no k ih =>
    unfold Prog.map Prog.on
    cases S.readExact n s with
    | mk r s' => cases r <;> first | exact ih _ _ | rfl
  | move off no k ih =>
    unfold Prog.map Prog.on
    cases S.seekRelative off s with
    | mk r s' => cases r <;> first | exact ih _ | rfl
  | tell k ih => exact ih _ _
  | goto pos no k ih =>
    unfold Prog.map Prog.on
    cases S.seekStart pos s with
    | mk r s' => cases r <;> first | exact ih _ | rfl

/-- What any calls give. -/
theorem Input.calls_drift {S : Input BufReader} (hS : S.Places) (hM : S.Moves) (p : Profile) {data : List UInt8} {start : Nat}
    (hd : data.length < 2 ^ 62) (ops : List PixelOp) {it : It} (hs : start + it.numItems * pixelSize it.ty < 2 ^ 62)
    (hc : it.cur ≤ it.numItems) {drift : Int} (hdr : drift ≤ 0) {b : BufReader} {pos : Nat} (h : b.Is ⟨data, pos⟩)
    (hp : (pos : Int) = start + (it.cur * pixelSize it.ty : Nat) + drift) :
    Drifting it.ty data start it.numItems it.cur drift ops (S.pixelCalls p ops it b) := by
  have hz := pixelSize_pos it.ty
  induction ops generalizing it drift b pos with
  | nil => exact .nil _ _
  | cons op ops ih =>
    have hmono : ∀ i, i ≤ it.numItems → i * pixelSize it.ty ≤ it.numItems * pixelSize it.ty := fun i hi => Nat.mul_le_mul_right _ hi
    cases op with
    | next =>
      unfold pixelCalls
      by_cases hn : it.cur = it.numItems
      · have e : it.nextP.on S b = ((.ok (none, it), false), b) := by
          unfold It.nextP
          rw [if_pos hn]
          rfl
        rw [e]
        have := ih hs hc hdr h hp hz
        rw [hn] at this ⊢
        exact .over this
      · rcases It.nextP_place hS (by omega : it.cur < it.numItems) h with ⟨v, b', e, h1, h2, h3⟩ | ⟨l, b', e, h1, h2⟩
        · rw [e]
          refine .given (op := .next) (by show it.cur < _; omega) pos hp v h1 h2
            (ih (it := { it with cur := it.cur + 1 }) hs (by dsimp only; omega) hdr h3 ?_ hz)
          dsimp only
          rw [Nat.add_mul, Nat.one_mul]
          omega
        · rw [e]
          refine .lost (op := .next) (by show it.cur < _; omega) l h1
            (ih (it := { it with cur := it.cur + 1 }) hs (by dsimp only; omega) (by omega) h2 ?_ hz)
          dsimp only
          rw [Nat.add_mul, Nat.one_mul]
          omega
    | read i =>
      unfold pixelCalls It.readValueP
      by_cases hi : i ≥ it.numItems
      · rw [if_pos hi]
        exact .outside hi (ih hs hc hdr h hp hz)
      · rw [if_neg hi]
        have hm1 := hmono i (by omega)
        have hm2 := hmono it.cur hc
        have hin : it.numItems ≤ it.numItems * pixelSize it.ty := Nat.le_mul_of_pos_right _ hz
        have hoff : it.readOffset p i = .ok (((i * pixelSize it.ty : Nat) : Int) - (it.cur * pixelSize it.ty : Nat)) := by
          unfold It.readOffset asI64 i64op
          rw [if_pos (by omega), if_pos (by omega), if_pos (by omega)]
          show (if _ then _ else _) = _
          rw [byteSize_eq, Int.sub_mul]
          rw [if_pos (by push_cast at *; omega)]
          push_cast
          rfl
        rw [hoff]
        dsimp only
        generalize hoffs : ((i * pixelSize it.ty : Nat) : Int) - (it.cur * pixelSize it.ty : Nat) = off
        have hm := hM (off := off) h hd (by omega) (by dsimp only; omega)
        dsimp only at hm
        by_cases h0 : (pos : Int) + off < 0
        · obtain ⟨e, he⟩ := hm.2 h0
          unfold Prog.on
          rw [he]
          exact .refused (by omega) (ih hs hc hdr h hp hz)
        · obtain ⟨m1, m2⟩ := hm.1 (by omega)
          unfold Prog.on
          cases hx : S.seekRelative off b with
          | mk x b1 =>
            rw [hx] at m1 m2
            dsimp only at m1 m2
            subst m1
            dsimp only
            rw [Prog.on_map]
            rcases It.nextP_place hS (it := { it with cur := i }) (by dsimp only; omega) m2 with
              ⟨v, b', e, h1, h2, h3⟩ | ⟨l, b', e, h1, h2⟩
            · rw [e]
              refine .given (op := .read i) (by show i < _; omega) _ (by show _ = (start : Int) + (i * _ : Nat) + _; omega) v h1 h2
                (ih (it := { it with cur := i + 1 }) hs (by dsimp only; omega) hdr h3 ?_ hz)
              dsimp only
              rw [Nat.add_mul, Nat.one_mul]
              omega
            · rw [e]
              refine .lost (op := .read i) (by show i < _; omega) l h1
                (ih (it := { it with cur := i + 1 }) hs (by dsimp only; omega) (by dsimp only at h1; omega) h2 ?_ hz)
              dsimp only at h1 ⊢
              rw [Nat.add_mul, Nat.one_mul]
              omega

/-- The values given by calls of `next` and `read_value` of the iterator over an image of type `b` and `n` bytes, where the reader of
a program stands after any calls `cs`; the reads of the file may fail. -/
def Spec.callsAfter (S : Input BufReader) (p : Profile) (data : List UInt8) (cap : Nat) (plan : List ReadEvent) (cs : List RawCall)
    (b : Bitpix) (n : Nat) (ops : List PixelOp) : List PixelOut :=
  S.pixelCalls p ops (It.new b ⟨[], 0⟩ n) (S.after p cs (Input.fromReader (BufReader.new cap ⟨data, 0, plan⟩))).rd

/-- **C99, calls of `next` and `read_value`, exactly**: the pixels asked for are read so many bytes before their places as the failed reads
of pixels have left out.  Nothing but opening the data unit again brings the iterator back to its place: the drift never grows. -/
theorem C99_calls (p : Profile) (b : Bitpix) (data : List UInt8) (cap : Nat) (plan : List ReadEvent) (cs : List RawCall)
    (start n : Nat) (ops : List PixelOp) (hd : data.length < 2 ^ 62) (hs : start + n * pixelSize b < 2 ^ 62) :
    (standsAfter bufInput p data cap plan cs = start →
      Drifting b data start n 0 0 ops (callsAfter bufInput p data cap plan cs b (n * pixelSize b) ops)) ∧
    (standsAfter gzInput p data cap plan cs = start →
      Drifting b data start n 0 0 ops (callsAfter gzInput p data cap plan cs b (n * pixelSize b) ops)) := by
  have hn : (It.new b ⟨[], 0⟩ (n * pixelSize b)).numItems = n := by
    show n * pixelSize b / b.byteSize = n
    rw [byteSize_eq, Nat.mul_div_cancel _ (pixelSize_pos b)]
  have key : ∀ {S : Input BufReader} {f : BufReader}, S.Places → S.Moves → f.Is ⟨data, start⟩ →
      Drifting b data start n 0 0 ops (S.pixelCalls p ops (It.new b ⟨[], 0⟩ (n * pixelSize b)) f) := by
    intro S f hP hM h
    have := Input.calls_drift hP hM p (start := start) hd ops (it := It.new b ⟨[], 0⟩ (n * pixelSize b)) (by rw [hn]; exact hs)
      (Nat.zero_le _) (Int.le_refl 0) h (by show (start : Int) = start + (0 * _ : Nat) + 0; omega)
    rw [hn] at this
    exact this
  exact ⟨fun h => key buf_places buf_moves ((after_is (by omega)).1 h), fun h => key gz_places gz_moves ((after_is (by omega)).2 h)⟩

/-- Without drift the pixels come from their places. -/
theorem Spec.Drifting.right {b : Bitpix} {ps : List Pixel} (h : ∀ v ∈ ps, PixelOk b v) {before after : List UInt8} {cur : Nat}
    {drift : Int} {ops : List PixelOp} {out : List PixelOut} (hc : cur ≤ ps.length) (h0 : drift = 0)
    (ho : Drifting b (before ++ arrayBytes ps ++ after) before.length ps.length cur drift ops out) :
    ∃ k, k ≤ ops.length ∧ out.take k = (pixelRun ps cur ops).take k ∧
      (k < ops.length → out[k]? = some (.item none) ∨ out[k]? = some (.value none)) := by
  induction ho with
  | nil => exact ⟨0, Nat.le_refl _, rfl, fun h => absurd h (by simp)⟩
  | over hr ih => exact ⟨0, Nat.zero_le _, rfl, fun _ => .inl rfl⟩
  | outside hi hr ih => exact ⟨0, Nat.zero_le _, rfl, fun _ => .inr rfl⟩
  | refused hi hr ih => exact ⟨0, Nat.zero_le _, rfl, fun _ => .inr rfl⟩
  | @lost _ _ op _ _ hi l hl hr ih => exact ⟨0, Nat.zero_le _, rfl, fun _ => by cases op <;> first | exact .inl rfl | exact .inr rfl⟩
  | @given cur drift op ops out hi pos hp v hv hb hr ih =>
    obtain ⟨k, k1, k2, k3⟩ := ih (by omega) h0
    have hlen := arrayBytes_length h
    have hmul : (asked cur op + 1) * pixelSize b ≤ ps.length * pixelSize b := Nat.mul_le_mul_right _ hi
    rw [Nat.add_mul, Nat.one_mul] at hmul
    have hpos : pos = before.length + asked cur op * pixelSize b := by omega
    rw [hpos, List.append_assoc, ← List.drop_drop, List.drop_left, List.drop_append, List.take_append_of_le_length (by
      rw [List.length_drop]; omega), arrayBytes_get h _ hi] at hb
    have hpv : ps[asked cur op]? = some v := by
      rw [List.getElem?_eq_getElem hi, ← ofBytes_pixelBytes hv, hb, ofBytes_pixelBytes (h _ (List.getElem_mem hi))]
    have hstep : pixelStep ps cur op = (answer op (some v), asked cur op + 1) := by
      cases op with
      | next =>
        unfold pixelStep
        rw [show asked cur .next = cur from rfl] at hpv hi ⊢
        rw [hpv, if_pos hi]
        rfl
      | read i =>
        unfold pixelStep
        rw [show asked cur (.read i) = i from rfl] at hpv hi ⊢
        dsimp only
        rw [hpv, if_pos hi]
        rfl
    refine ⟨k + 1, by rw [List.length_cons]; omega, ?_, fun hk => ?_⟩
    · unfold pixelRun
      rw [hstep, List.take_succ_cons, List.take_succ_cons, k2]
    · rw [List.length_cons] at hk
      simpa using k3 (by omega)

/-- **C99, calls of `next` and `read_value`, partial** (full statement: `C99_statement`): up to the first call that gives no pixel, the calls
give the pixels of the image, as a list with a cursor does. -/
theorem C99_calls_partial (p : Profile) (b : Bitpix) (ps : List Pixel) (before after : List UInt8) (cap : Nat) (plan : List ReadEvent)
    (cs : List RawCall) (ops : List PixelOp) (h : ∀ v ∈ ps, PixelOk b v) (hd : (before ++ arrayBytes ps ++ after).length < 2 ^ 62)
    (hs : standsAfter bufInput p (before ++ arrayBytes ps ++ after) cap plan cs = before.length) :
    ∃ k, k ≤ ops.length ∧
      (callsAfter bufInput p (before ++ arrayBytes ps ++ after) cap plan cs b (arrayBytes ps).length ops).take k =
        (pixelRun ps 0 ops).take k ∧
      (k < ops.length →
        (callsAfter bufInput p (before ++ arrayBytes ps ++ after) cap plan cs b (arrayBytes ps).length ops)[k]? = some (.item none) ∨
        (callsAfter bufInput p (before ++ arrayBytes ps ++ after) cap plan cs b (arrayBytes ps).length ops)[k]? = some (.value none)) := by
  have hl := arrayBytes_length h
  rw [hl]
  rw [List.length_append, List.length_append, hl] at hd
  exact ((C99_calls p b (before ++ arrayBytes ps ++ after) cap plan cs before.length ps.length ops
    (by rw [List.length_append, List.length_append, hl]; exact hd) (by omega)).1 hs).right h (Nat.zero_le _) rfl

/-- After a failed read of one pixel `read_value` gives the pixel before the one it is asked for, and for the first one an error, the
place being before the beginning of the file. -/
example : callsAfter bufInput .wrapping ([9] ++ arrayBytes [.i16 1, .i16 2, .i16 3] ++ [8, 8]) 4 [.short 0, .short 1, .fails] [.read 1]
      .i16 6 [.next, .next, .read 2, .read 1, .read 0, .read 7] =
    [.item (some (.i16 1)), .item none, .value (some (.i16 2)), .value (some (.i16 1)), .value none, .value none] ∧
    standsAfter bufInput .wrapping ([9] ++ arrayBytes [.i16 1, .i16 2, .i16 3] ++ [8, 8]) 4 [.short 0, .short 1, .fails] [.read 1] = 1 := by
  decide +kernel

end Fitsrs

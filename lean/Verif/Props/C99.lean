import Verif.Spec.FailingPixels
import Verif.Lemmas.Failing
import Verif.Lemmas.Pixels
/-
C99 the pixels after a failed read.
-/

namespace Fitsrs
open Spec

namespace BufReader

/-- Where the reader stands after a read: after all the bytes, or, if it fails, after fewer of them. -/
theorem readLoop_place (fuel : Nat) {n : Nat} {b : BufReader} {r : Reader} (h : b.Is r) (hf : n + b.file.plan.length < fuel) :
    ((readLoop fuel n b).1 = .ok ((r.data.drop r.pos).take n) ∧ ((r.data.drop r.pos).take n).length = n ∧
      (readLoop fuel n b).2.Is { r with pos := r.pos + n }) ∨
    ∃ e l, l < n ∧ (readLoop fuel n b).1 = .err e ∧ (readLoop fuel n b).2.Is { r with pos := r.pos + l } := by
  induction fuel generalizing n b r with
  | zero => omega
  | succ fuel ih =>
    unfold BufReader.readLoop
    by_cases hn : n = 0
    · subst hn
      rw [if_pos rfl]
      exact .inl ⟨by simp, by simp, h⟩
    · rw [if_neg hn]
      rcases read_spec h hn with ⟨b', plan, e, h', hp, hp'⟩ | ⟨b', plan, e, hp⟩ | ⟨k, b', hk, hk0, e, h', hp⟩
      · rw [e]
        rw [hp, List.length_cons] at hf
        exact ih h' (by rw [hp']; omega)
      · rw [e]
        exact .inr ⟨_, 0, by omega, rfl, (read_failed h hp e).1⟩
      · rw [e]
        dsimp only
        have hpl := hp.length_le
        have hlen : ((r.data.drop r.pos).take k).length = min k (r.data.length - r.pos) := by
          rw [List.length_take, List.length_drop]
        by_cases hz : ((r.data.drop r.pos).take k).length = 0
        · rw [if_pos hz]
          rw [hz] at h'
          exact .inr ⟨_, 0, by omega, rfl, h'⟩
        · rw [if_neg hz]
          generalize hm : ((r.data.drop r.pos).take k).length = m at *
          have hmk : (r.data.drop r.pos).take k = (r.data.drop r.pos).take m := by
            by_cases hkd : k ≤ r.data.length - r.pos
            · rw [show m = k by omega]
            · rw [List.take_of_length_le (by rw [List.length_drop]; omega), List.take_of_length_le (by rw [List.length_drop]; omega)]
          rcases ih (n := n - m) h' (by omega) with ⟨i1, i2, i3⟩ | ⟨e', l, hl, i1, i2⟩
          · rw [i1]
            dsimp only at i2 i3
            refine .inl ⟨?_, ?_, ?_⟩
            · show Res.ok _ = Res.ok _
              dsimp only
              rw [take_split (r.data.drop r.pos) m n (by omega), List.drop_drop, hmk]
            · rw [List.length_take, List.length_drop] at i2 ⊢
              omega
            · rw [show r.pos + m + (n - m) = r.pos + n by omega] at i3
              exact i3
          · rw [i1]
            dsimp only at i2
            rw [show r.pos + m + l = r.pos + (m + l) by omega] at i2
            exact .inr ⟨e', m + l, by omega, rfl, i2⟩

theorem readExact_place {n : Nat} {b : BufReader} {r : Reader} (h : b.Is r) :
    ((b.readExact n).1 = .ok ((r.data.drop r.pos).take n) ∧ ((r.data.drop r.pos).take n).length = n ∧
      (b.readExact n).2.Is { r with pos := r.pos + n }) ∨
    ∃ e l, l < n ∧ (b.readExact n).1 = .err e ∧ (b.readExact n).2.Is { r with pos := r.pos + l } := by
  unfold BufReader.readExact
  by_cases hn : n ≤ b.buf.length - b.bpos
  · rw [if_pos hn]
    have e := h.bytes
    have hl := congrArg List.length e
    rw [List.length_drop, List.length_take, List.length_drop] at hl
    refine .inl ⟨?_, ?_, h.consume hn⟩
    · dsimp only
      rw [e, List.take_take, Nat.min_eq_left hn]
    · rw [List.length_take, List.length_drop]
      omega
  · rw [if_neg hn]
    exact readLoop_place _ h (by omega)

end BufReader

/-- The reads of a reader, whether they fail or not. -/
def Input.Places (S : Input BufReader) : Prop := ∀ (n : Nat) {b : BufReader} {r : Reader}, b.Is r →
  ((S.readExact n b).1 = .ok ((r.data.drop r.pos).take n) ∧ ((r.data.drop r.pos).take n).length = n ∧
    (S.readExact n b).2.Is { r with pos := r.pos + n }) ∨
  ∃ e l, l < n ∧ (S.readExact n b).1 = .err e ∧ (S.readExact n b).2.Is { r with pos := r.pos + l }

theorem buf_places : bufInput.Places := fun _ _ _ h => BufReader.readExact_place h

theorem gz_places : gzInput.Places := fun _ _ _ h => BufReader.readLoop_place _ h (by omega)

theorem Input.after_keeps {σ : Type} {S : Input σ} {P : σ → Prop} (hS : S.Keeps P) (p : Profile) (cs : List RawCall) {f : File σ}
    (h : P f.rd) : P (S.after p cs f).rd := by
  induction cs generalizing f with
  | nil => exact h
  | cons c cs ih => exact ih (raw_keeps hS p h c)

/-- What an iterator over pixels gives from where the reader stands. -/
theorem Input.pixels_from {S : Input BufReader} (hS : S.Places) (m : Nat) {it : It} {left : Nat} (hl : it.cur + left = it.numItems)
    {b : BufReader} {data : List UInt8} {pos : Nat} (h : b.Is ⟨data, pos⟩) :
    PixelsFrom it.ty data pos left (S.pixels m it b) ∧ (S.pixels m it b).length = m := by
  induction m generalizing it left b pos with
  | zero => exact ⟨.nil _ _, rfl⟩
  | succ m ih =>
    unfold pixels It.nextP
    cases left with
    | zero =>
      rw [if_pos (by omega)]
      obtain ⟨i1, i2⟩ := ih (left := 0) hl h
      exact ⟨.over i1, by show _ + 1 = _; rw [i2]⟩
    | succ left =>
      rw [if_neg (by omega)]
      unfold Prog.on
      rcases hS it.ty.byteSize h with ⟨h1, h2, h3⟩ | ⟨e, l, h0, h1, h2⟩
      · cases hx : S.readExact it.ty.byteSize b with
        | mk x b' =>
          rw [hx] at h1 h3
          dsimp only at h1 h2 h3
          subst h1
          rw [byteSize_eq] at h2 h3
          obtain ⟨i1, i2⟩ := ih (it := { it with cur := it.cur + 1 }) (left := left) (by dsimp only; omega) h3
          obtain ⟨o1, o2⟩ := ofBytes_ok it.ty _ h2
          dsimp only [Prog.on]
          rw [byteSize_eq]
          exact ⟨.given _ o1 o2 i1, by show _ + 1 = _; rw [i2]⟩
      · cases hx : S.readExact it.ty.byteSize b with
        | mk x b' =>
          rw [hx] at h1 h2
          dsimp only at h1 h2
          subst h1
          rw [byteSize_eq] at h0
          obtain ⟨i1, i2⟩ := ih (it := { it with cur := it.cur + 1 }) (left := left) (by dsimp only; omega) h2
          exact ⟨.lost l h0 i1, by show _ + 1 = _; rw [i2]⟩

/-! ### The property -/

/-- The pixels given by `m` calls of the iterator over an image of type `b` and `n` bytes whose data unit begins at `pos`, where the
reader of a program stands after any calls `cs`; the reads of the file may fail. -/
def Spec.pixelsAfter (S : Input BufReader) (p : Profile) (data : List UInt8) (cap : Nat) (plan : List ReadEvent) (cs : List RawCall)
    (b : Bitpix) (n m : Nat) : List (Option Pixel) :=
  S.pixels m (It.new b ⟨[], 0⟩ n) (S.after p cs (Input.fromReader (BufReader.new cap ⟨data, 0, plan⟩))).rd

/-- Where the reader of a program stands after the calls `cs`. -/
def Spec.standsAfter (S : Input BufReader) (p : Profile) (data : List UInt8) (cap : Nat) (plan : List ReadEvent)
    (cs : List RawCall) : Nat :=
  (S.tell (S.after p cs (Input.fromReader (BufReader.new cap ⟨data, 0, plan⟩))).rd).1

/-- **C99**: a pixel given by the iterator is the pixel of its place, also after a read has failed. -/
def C99_statement : Prop :=
  ∀ (p : Profile) (b : Bitpix) (ps : List Pixel) (before after : List UInt8) (cap : Nat) (plan : List ReadEvent) (cs : List RawCall)
    (m k : Nat) (v : Pixel), (∀ v ∈ ps, PixelOk b v) → (before ++ arrayBytes ps ++ after).length < 2 ^ 63 →
    standsAfter bufInput p (before ++ arrayBytes ps ++ after) cap plan cs = before.length →
    (pixelsAfter bufInput p (before ++ arrayBytes ps ++ after) cap plan cs b (arrayBytes ps).length m)[k]? = some (some v) →
    ps[k]? = some v

theorem after_is {p : Profile} {data : List UInt8} {cap : Nat} {plan : List ReadEvent} {cs : List RawCall} {pos : Nat}
    (hd : data.length < 2 ^ 63) :
    (standsAfter bufInput p data cap plan cs = pos →
      (bufInput.after p cs (Input.fromReader (BufReader.new cap ⟨data, 0, plan⟩))).rd.Is ⟨data, pos⟩) ∧
    (standsAfter gzInput p data cap plan cs = pos →
      (gzInput.after p cs (Input.fromReader (BufReader.new cap ⟨data, 0, plan⟩))).rd.Is ⟨data, pos⟩) := by
  have h0 : (BufReader.new cap ⟨data, 0, plan⟩).At data plan :=
    ⟨⟨0, BufReader.is_empty _ _ rfl rfl rfl rfl hd (show 0 < 2 ^ 63 by decide)⟩, List.suffix_refl _⟩
  have key : ∀ {b : BufReader}, b.At data plan → b.streamPosition = pos → b.Is ⟨data, pos⟩ := by
    rintro b ⟨⟨q, h⟩, -⟩ he
    have h3 := h.pos
    have : q = pos := by
      unfold BufReader.streamPosition at he
      dsimp only at h3
      omega
    rw [← this]
    exact h
  exact ⟨fun he => key (Input.after_keeps (buf_keeps data plan) p cs (f := Input.fromReader _) h0) he,
    fun he => key (Input.after_keeps (gz_keeps data plan) p cs (f := Input.fromReader _) h0) he⟩

/-- **C99, exactly**: each call gives the value of the next bytes, or `None`; a call that gives `None` before the iteration is over
leaves out some bytes, fewer than a pixel has, and counts as one of the pixels. -/
theorem C99_exact (p : Profile) (b : Bitpix) (data : List UInt8) (cap : Nat) (plan : List ReadEvent) (cs : List RawCall)
    (pos n m : Nat) (hd : data.length < 2 ^ 63) :
    (standsAfter bufInput p data cap plan cs = pos →
      PixelsFrom b data pos n (pixelsAfter bufInput p data cap plan cs b (n * pixelSize b) m) ∧
      (pixelsAfter bufInput p data cap plan cs b (n * pixelSize b) m).length = m) ∧
    (standsAfter gzInput p data cap plan cs = pos →
      PixelsFrom b data pos n (pixelsAfter gzInput p data cap plan cs b (n * pixelSize b) m) ∧
      (pixelsAfter gzInput p data cap plan cs b (n * pixelSize b) m).length = m) := by
  have hn : (It.new b ⟨[], 0⟩ (n * pixelSize b)).cur + n = (It.new b ⟨[], 0⟩ (n * pixelSize b)).numItems := by
    show 0 + n = n * pixelSize b / b.byteSize
    rw [byteSize_eq, Nat.mul_div_cancel _ (pixelSize_pos b), Nat.zero_add]
  exact ⟨fun h => Input.pixels_from buf_places m hn ((after_is hd).1 h),
    fun h => Input.pixels_from gz_places m hn ((after_is hd).2 h)⟩

/-! ### Consequences -/

/-- Before the first failure. -/
theorem Spec.PixelsFrom.first {b : Bitpix} {ps : List Pixel} (h : ∀ v ∈ ps, PixelOk b v) {before after : List UInt8} {i : Nat}
    {out : List (Option Pixel)} {pos left : Nat} (hp : pos = before.length + i * pixelSize b) (hl : left + i = ps.length)
    (ho : PixelsFrom b (before ++ arrayBytes ps ++ after) pos left out) (k : Nat) (v : Pixel)
    (hk : ∀ j, j < k → out[j]? ≠ some none) (hv : out[k]? = some (some v)) : ps[i + k]? = some v := by
  induction ho generalizing i k with
  | nil => cases hv
  | over h ih =>
    cases k with
    | zero => cases hv
    | succ k => exact absurd rfl (hk 0 (by omega))
  | lost l hl h ih =>
    cases k with
    | zero => cases hv
    | succ k => exact absurd rfl (hk 0 (by omega))
  | given u hu hb hr ih =>
    cases k with
    | zero =>
      cases hv
      have hlt : i < ps.length := by omega
      have hlen := arrayBytes_length h
      have hmul : (i + 1) * pixelSize b ≤ ps.length * pixelSize b := Nat.mul_le_mul_right _ hlt
      rw [Nat.add_mul, Nat.one_mul] at hmul
      rw [hp, List.append_assoc, ← List.drop_drop, List.drop_left, List.drop_append, List.take_append_of_le_length (by
        rw [List.length_drop]; omega), arrayBytes_get h i hlt] at hb
      rw [Nat.add_zero, List.getElem?_eq_getElem hlt, ← ofBytes_pixelBytes hu, hb,
        ofBytes_pixelBytes (h _ (List.getElem_mem hlt))]
    | succ k =>
      have := ih (i := i + 1) (by rw [hp, Nat.add_mul, Nat.one_mul]; omega) (by omega) k
        (fun j hj => by have := hk (j + 1) (by omega); simpa using this) (by simpa using hv)
      rw [← this]
      congr 1
      omega

/-- **C99, partial** (full statement: `C99_statement`): as long as no call has given `None`. -/
theorem C99_partial (p : Profile) (b : Bitpix) (ps : List Pixel) (before after : List UInt8) (cap : Nat) (plan : List ReadEvent)
    (cs : List RawCall) (m k : Nat) (v : Pixel) (h : ∀ v ∈ ps, PixelOk b v) (hd : (before ++ arrayBytes ps ++ after).length < 2 ^ 63)
    (hs : standsAfter bufInput p (before ++ arrayBytes ps ++ after) cap plan cs = before.length)
    (hk : ∀ j, j < k →
      (pixelsAfter bufInput p (before ++ arrayBytes ps ++ after) cap plan cs b (arrayBytes ps).length m)[j]? ≠ some none)
    (hv : (pixelsAfter bufInput p (before ++ arrayBytes ps ++ after) cap plan cs b (arrayBytes ps).length m)[k]? = some (some v)) :
    ps[k]? = some v := by
  rw [arrayBytes_length h] at hk hv
  have := ((C99_exact p b _ cap plan cs _ ps.length m hd).1 hs).1.first h (i := 0) (by omega) rfl k v hk hv
  rwa [Nat.zero_add] at this

/-- The values of one byte, in order. -/
theorem Spec.PixelsFrom.bytes {ps : List Pixel} (h : ∀ v ∈ ps, PixelOk .u8 v) {before after : List UInt8} {i : Nat}
    {out : List (Option Pixel)} {pos left : Nat} (hp : pos = before.length + i) (hl : left + i ≤ ps.length)
    (ho : PixelsFrom .u8 (before ++ arrayBytes ps ++ after) pos left out) : out.filterMap id <+: ps.drop i := by
  induction ho generalizing i with
  | nil => exact List.nil_prefix
  | over h ih => exact ih hp hl
  | lost l h0 hr ih =>
    have : l = 0 := by
      have : pixelSize .u8 = 1 := rfl
      omega
    subst this
    exact ih (i := i) hp (by omega)
  | @given pos left out u hu hb hr ih =>
    have e : pixelSize .u8 = 1 := rfl
    have hlt : i < ps.length := by omega
    have hv : ps[i] = u := by
      have hf : PixelsFrom .u8 (before ++ arrayBytes ps ++ after) pos (ps.length - i - 1 + 1) (some u :: []) :=
        .given u hu hb (.nil _ _)
      have := hf.first h (i := i) (by rw [e]; omega) (by omega) 0 u (fun j hj => by omega) rfl
      rw [Nat.add_zero, List.getElem?_eq_getElem hlt] at this
      exact Option.some.inj this
    have := ih (i := i + 1) (by rw [e]; omega) (by omega)
    rw [List.drop_eq_getElem_cons hlt, hv]
    exact List.prefix_cons_inj u |>.2 this

/-- **C99, single bytes**: for pixels of one byte no pixel is lost or given twice: those given are the first pixels of the image,
in order (but as many are missing at the end as calls have failed). -/
theorem C99_bytes (p : Profile) (ps : List Pixel) (before after : List UInt8) (cap : Nat) (plan : List ReadEvent)
    (cs : List RawCall) (m : Nat) (h : ∀ v ∈ ps, PixelOk .u8 v) (hd : (before ++ arrayBytes ps ++ after).length < 2 ^ 63)
    (hs : standsAfter bufInput p (before ++ arrayBytes ps ++ after) cap plan cs = before.length) :
    (pixelsAfter bufInput p (before ++ arrayBytes ps ++ after) cap plan cs .u8 (arrayBytes ps).length m).filterMap id <+: ps := by
  rw [arrayBytes_length h]
  have := ((C99_exact p .u8 _ cap plan cs _ ps.length m hd).1 hs).1.bytes h (i := 0) (by omega) (by omega)
  exact this

/-- After one failed read of an image of three shorts: the first pixel is given at the place of the second one. -/
theorem C99_shifted : pixelsAfter bufInput .wrapping ([9] ++ arrayBytes [.i16 1, .i16 2, .i16 3] ++ [8, 8]) 4 [.short 0, .fails] [.read 1]
    .i16 6 4 = [none, some (.i16 1), some (.i16 2), none] := by decide +kernel

/-- After a read that failed in the middle of a pixel: values made of two pixels. -/
theorem C99_between : pixelsAfter bufInput .wrapping ([9] ++ arrayBytes [.i16 1, .i16 2, .i16 3] ++ [8, 8]) 4
    [.short 0, .short 0, .fails] [.read 1] .i16 6 4 = [none, some (.i16 256), some (.i16 512), none] := by decide +kernel

/-- C99 is false. -/
theorem C99_fails : ¬ C99_statement := by
  intro h
  have := h .wrapping .i16 [.i16 1, .i16 2, .i16 3] [9] [8, 8] 4 [.short 0, .fails] [.read 1] 4 1 (.i16 1) (by decide)
    (by decide +kernel) (by decide +kernel) (by rw [show (arrayBytes [.i16 1, .i16 2, .i16 3]).length = 6 from rfl, C99_shifted]; rfl)
  cases this

/-- The hypotheses of `C99_bytes` and `C99_partial` hold in a case with a failure: two bytes of three are given. -/
example : pixelsAfter bufInput .checked ([9] ++ arrayBytes [.u8 1, .u8 2, .u8 3] ++ [8]) 2 [.short 0, .short 0, .fails] [.read 1]
      .u8 3 5 = [some (.u8 1), none, some (.u8 2), none, none] ∧
    standsAfter bufInput .checked ([9] ++ arrayBytes [.u8 1, .u8 2, .u8 3] ++ [8]) 2 [.short 0, .short 0, .fails] [.read 1] = 1 := by
  decide +kernel

end Fitsrs

import Verif.Spec.Async
import Verif.Lemmas.Next
/-
Polling futures.
-/

namespace Fitsrs
open Spec Fut

/-! ### Executors -/

/-- The same events without delays. -/
def stripEvents : List Event → List Event
  | [] => []
  | .pending :: es => stripEvents es
  | .fail x :: es => .fail x :: stripEvents es
  | .chunk b bs :: es => .chunk b bs :: stripEvents es

/-- The same reader, always ready. -/
def AReader.strip (r : AReader) : AReader := { r with events := stripEvents r.events }

theorem strip_bytes (es : List Event) : eventBytes (stripEvents es) = eventBytes es := by
  induction es with
  | nil => rfl
  | cons e es ih =>
    cases e with
    | pending => exact ih
    | fail x => exact ih
    | chunk b bs => show b :: bs ++ _ = b :: bs ++ _; rw [ih]

theorem AReader.strip_bytes (r : AReader) : r.strip.bytes = r.bytes := by
  unfold AReader.bytes AReader.strip
  rw [Fitsrs.strip_bytes]

theorem Spec.Healthy.tail {e : Event} {es : List Event} (h : Healthy (e :: es)) : Healthy es :=
  fun x hx => h x (List.mem_cons_of_mem _ hx)

theorem Spec.Healthy.fail {x : IoKind} {es : List Event} (h : Healthy (.fail x :: es)) : False :=
  Bool.noConfusion (h _ (List.mem_cons_self ..))

theorem Spec.Ready.tail {e : Event} {es : List Event} (h : Ready (e :: es)) : Ready es :=
  fun x hx => h x (List.mem_cons_of_mem _ hx)

theorem Spec.Ready.fail {x : IoKind} {es : List Event} (h : Ready (.fail x :: es)) : False :=
  Bool.noConfusion (h _ (List.mem_cons_self ..))

theorem Spec.Ready.pending {es : List Event} (h : Ready (.pending :: es)) : False :=
  Bool.noConfusion (h _ (List.mem_cons_self ..))

theorem Spec.Ready.chunk {b : UInt8} {bs : List UInt8} {es : List Event} (h : Ready es) : Ready (.chunk b bs :: es) := by
  intro e he
  rcases List.mem_cons.1 he with rfl | he
  · rfl
  · exact h e he

theorem Spec.Ready.healthy {es : List Event} (h : Ready es) : Healthy es := by
  intro e he
  have := h e he
  cases e <;> first | rfl | cases this

theorem strip_ready {es : List Event} (hh : Healthy es) : Ready (stripEvents es) := by
  induction es with
  | nil => intro e h; cases h
  | cons e es ih =>
    cases e with
    | pending => exact ih hh.tail
    | fail x => exact hh.fail.elim
    | chunk b bs => exact (ih hh.tail).chunk

/-- One poll of a future, compared with a poll when the source is always ready. -/
theorem poll_strip {α : Type} (f : Fut α) (r : AReader) :
    (∃ a r', f.poll r = (.ready a, r') ∧ f.poll r.strip = (.ready a, r'.strip)) ∨
    (∃ f' r', f.poll r = (.pending f', r') ∧ pendings r'.events < pendings r.events ∧ f'.poll r'.strip = f.poll r.strip) := by
  induction f generalizing r with
  | done a => exact .inl ⟨a, r, rfl, rfl⟩
  | consume n k ih =>
    have := ih (r.consume n)
    exact this
  | fill k l ih ih' =>
    obtain ⟨cur, es⟩ := r
    cases cur with
    | cons b bs => exact ih (b :: bs) ⟨b :: bs, es⟩
    | nil =>
      cases es with
      | nil => exact ih [] ⟨[], []⟩
      | cons e es =>
        cases e with
        | pending => exact .inr ⟨fill k l, ⟨[], es⟩, rfl, Nat.lt_succ_self _, rfl⟩
        | fail x => exact ih' x ⟨[], es⟩
        | chunk b bs => exact ih (b :: bs) ⟨b :: bs, es⟩

/-- Polling until the future is ready: the delays of the source do not matter. -/
theorem block_strip {α : Type} (m : Nat) (f : Fut α) (r : AReader) (h : pendings r.events < m) :
    ∃ a r', f.block m r = (some a, r') ∧ f.poll r.strip = (.ready a, r'.strip) := by
  induction m generalizing f r with
  | zero => omega
  | succ m ih =>
    unfold Fut.block
    rcases poll_strip f r with ⟨a, r', h1, h2⟩ | ⟨f', r', h1, h2, h3⟩
    · exact ⟨a, r', by rw [h1], h2⟩
    · obtain ⟨a, r'', g1, g2⟩ := ih f' r' (by omega)
      exact ⟨a, r'', by rw [h1]; exact g1, by rw [← h3, g2]⟩

theorem poll_bind {α β : Type} (f : Fut α) (g : α → Fut β) (r : AReader) :
    (f.bind g).poll r = match f.poll r with
      | (.ready a, r') => (g a).poll r'
      | (.pending f', r') => (.pending (f'.bind g), r') := by
  induction f generalizing r with
  | done a => rfl
  | consume n k ih => exact ih (r.consume n)
  | fill k l ih ih' =>
    obtain ⟨cur, es⟩ := r
    cases cur with
    | cons b bs => exact ih (b :: bs) ⟨b :: bs, es⟩
    | nil =>
      cases es with
      | nil => exact ih [] ⟨[], []⟩
      | cons e es =>
        cases e with
        | pending => rfl
        | fail x => exact ih' x ⟨[], es⟩
        | chunk b bs => exact ih (b :: bs) ⟨b :: bs, es⟩

theorem poll_bind_ready {α β : Type} {f : Fut α} {g : α → Fut β} {r r' : AReader} {a : α} (h : f.poll r = (.ready a, r')) :
    (f.bind g).poll r = (g a).poll r' := by
  rw [poll_bind, h]

theorem poll_andThen_ok {α β : Type} {f : Fut (Res α)} {e : Err → Err} {g : α → Fut (Res β)} {r r' : AReader} {a : α}
    (h : f.poll r = (.ready (.ok a), r')) : (f.andThen e g).poll r = (g a).poll r' :=
  poll_bind_ready h

theorem poll_andThen_err {α β : Type} {f : Fut (Res α)} {o : Err → Err} {g : α → Fut (Res β)} {r r' : AReader} {e : Err}
    (h : f.poll r = (.ready (.err e), r')) : (f.andThen o g).poll r = (.ready (.err (o e)), r') :=
  poll_bind_ready h

theorem poll_andThen_panic {α β : Type} {f : Fut (Res α)} {o : Err → Err} {g : α → Fut (Res β)} {r r' : AReader}
    (h : f.poll r = (.ready .panic, r')) : (f.andThen o g).poll r = (.ready .panic, r') :=
  poll_bind_ready h

/-! ### Readers that are ready for some time -/

/-- The source is ready, and does not fail, until it has delivered `k` bytes. -/
def ClearE : (k : Nat) → List Event → Prop
  | _, [] => True
  | k, .pending :: _ => k = 0
  | k, .fail _ :: _ => k = 0
  | k, .chunk _ bs :: es => ClearE (k - (bs.length + 1)) es

theorem ClearE.zero (es : List Event) : ClearE 0 es := by
  induction es with
  | nil => trivial
  | cons e es ih =>
    cases e with
    | pending => rfl
    | fail x => rfl
    | chunk b bs => unfold ClearE; rw [Nat.zero_sub]; exact ih

theorem ClearE.mono {k l : Nat} (h : l ≤ k) {es : List Event} (hc : ClearE k es) : ClearE l es := by
  induction es generalizing k l with
  | nil => trivial
  | cons e es ih =>
    cases e with
    | pending => unfold ClearE at hc ⊢; omega
    | fail x => unfold ClearE at hc ⊢; omega
    | chunk b bs => exact ih (by omega) hc

theorem ClearE.of_ready {es : List Event} (h : Ready es) (k : Nat) : ClearE k es := by
  induction es generalizing k with
  | nil => trivial
  | cons e es ih =>
    cases e with
    | pending => exact h.pending.elim
    | fail x => exact h.fail.elim
    | chunk b bs => exact ih h.tail _

/-- The bytes to come, the first `k` of which come without delay; if there are fewer, so does the end of the file. -/
structure Sees (r : AReader) (k : Nat) (bytes : List UInt8) : Prop where
  bytes : r.bytes = bytes
  clear : ClearE (k - r.cur.length) r.events

theorem Sees.mono {r : AReader} {k l : Nat} {bytes : List UInt8} (h : Sees r k bytes) (hl : l ≤ k) : Sees r l bytes :=
  ⟨h.bytes, h.clear.mono (by omega)⟩

theorem Sees.of_ready {r : AReader} (h : Ready r.events) (k : Nat) : Sees r k r.bytes := ⟨rfl, .of_ready h _⟩

theorem Sees.fill {r : AReader} {k : Nat} {bytes : List UInt8} (h : Sees r k bytes) (hk : 0 < k) :
    ∃ r', r.pollFill = (some (.ok r'.cur), r') ∧ Sees r' k bytes ∧ r'.cur <+: bytes ∧ (r'.cur = [] → bytes = []) := by
  obtain ⟨cur, es⟩ := r
  obtain ⟨hb, hc⟩ := h
  subst hb
  cases cur with
  | cons b bs => exact ⟨⟨b :: bs, es⟩, rfl, ⟨rfl, hc⟩, List.prefix_append .., fun h => by cases h⟩
  | nil =>
    cases es with
    | nil => exact ⟨⟨[], []⟩, rfl, ⟨rfl, hc⟩, List.prefix_append .., fun h => rfl⟩
    | cons e es =>
      cases e with
      | pending => unfold ClearE at hc; rw [List.length_nil] at hc; omega
      | fail x => unfold ClearE at hc; rw [List.length_nil] at hc; omega
      | chunk b bs => exact ⟨⟨b :: bs, es⟩, rfl, ⟨rfl, hc⟩, List.prefix_append .., fun h => by cases h⟩

theorem Sees.consume {r : AReader} {k : Nat} {bytes : List UInt8} (h : Sees r k bytes) {n : Nat} (hn : n ≤ r.cur.length) :
    Sees (r.consume n) (k - n) (bytes.drop n) := by
  obtain ⟨hb, hc⟩ := h
  subst hb
  refine ⟨?_, ?_⟩
  · unfold AReader.bytes AReader.consume
    rw [List.drop_append_of_le_length hn]
  · unfold AReader.consume
    rw [List.length_drop]
    exact hc.mono (by omega)

theorem prefix_take {b bytes : List UInt8} (h : b <+: bytes) {n : Nat} (hn : n ≤ b.length) : b.take n = bytes.take n := by
  obtain ⟨t, rfl⟩ := h
  rw [List.take_append_of_le_length hn]

theorem poll_fill {α : Type} {c : List UInt8 → Fut α} {l : IoKind → Fut α} {r r' : AReader} {b : List UInt8}
    (h : r.pollFill = (some (.ok b), r')) : (Fut.fill c l).poll r = (c b).poll r' := by
  conv => lhs; unfold Fut.poll
  rw [h]

/-- `read_exact`. -/
theorem readExactN_ok {fuel n : Nat} {acc bytes : List UInt8} {r : AReader} {k : Nat} (h : Sees r k bytes) (hf : n ≤ fuel)
    (hn : n ≤ bytes.length) (hk : n ≤ k) :
    ∃ r', (readExactN fuel n acc).poll r = (.ready (.ok (acc ++ bytes.take n)), r') ∧ Sees r' (k - n) (bytes.drop n) := by
  induction fuel generalizing n acc bytes r k with
  | zero =>
    obtain rfl : n = 0 := by omega
    exact ⟨r, by rw [List.take_zero, List.append_nil]; rfl, h⟩
  | succ fuel ih =>
    cases n with
    | zero => exact ⟨r, by rw [List.take_zero, List.append_nil]; rfl, h⟩
    | succ n =>
      obtain ⟨r1, h1, h2, h3, h4⟩ := h.fill (by omega)
      unfold readExactN
      rw [poll_fill h1]
      have hne : r1.cur ≠ [] := by
        intro he
        rw [h4 he] at hn
        simp at hn
      have hpos := List.length_pos_iff.2 hne
      have hle := h3.length_le
      rw [if_neg hne]
      show ∃ r', (readExactN fuel _ _).poll (r1.consume _) = _ ∧ _
      obtain ⟨r2, g1, g2⟩ := ih (n := n + 1 - r1.cur.length) (acc := acc ++ r1.cur.take (n + 1))
        (h2.consume (n := min (n + 1) r1.cur.length) (by omega)) (by omega) (by rw [List.length_drop]; omega) (by omega)
      refine ⟨r2, ?_, ?_⟩
      · rw [g1, List.append_assoc]
        congr 4
        by_cases hc : n + 1 ≤ r1.cur.length
        · rw [Nat.sub_eq_zero_of_le hc, List.take_zero, List.append_nil, prefix_take h3 hc]
        · obtain ⟨t, ht⟩ := h3
          rw [Nat.min_eq_right (by omega), ← ht, List.drop_left, List.take_append, List.take_of_length_le (by omega)]
      · rw [List.drop_drop] at g2
        have e1 : min (n + 1) r1.cur.length + (n + 1 - r1.cur.length) = n + 1 := by omega
        have e2 : k - min (n + 1) r1.cur.length - (n + 1 - r1.cur.length) = k - (n + 1) := by omega
        rw [e1, e2] at g2
        exact g2

theorem readExactN_eof {fuel n : Nat} {acc bytes : List UInt8} {r : AReader} {k : Nat} (h : Sees r k bytes) (hf : n ≤ fuel)
    (hn : bytes.length < n) (hk : bytes.length < k) :
    ∃ r', (readExactN fuel n acc).poll r = (.ready (.err (.io .unexpectedEof)), r') ∧ Sees r' (k - bytes.length) [] := by
  induction fuel generalizing n acc bytes r k with
  | zero => omega
  | succ fuel ih =>
    cases n with
    | zero => omega
    | succ n =>
      obtain ⟨r1, h1, h2, h3, h4⟩ := h.fill (by omega)
      unfold readExactN
      rw [poll_fill h1]
      have hle := h3.length_le
      by_cases hne : r1.cur = []
      · rw [if_pos hne]
        have := h4 hne
        subst this
        exact ⟨r1, rfl, h2⟩
      · have hpos := List.length_pos_iff.2 hne
        rw [if_neg hne]
        show ∃ r', (readExactN fuel _ _).poll (r1.consume _) = _ ∧ _
        obtain ⟨r2, g1, g2⟩ := ih (n := n + 1 - r1.cur.length) (acc := acc ++ r1.cur.take (n + 1))
          (h2.consume (n := min (n + 1) r1.cur.length) (by omega)) (by omega) (by rw [List.length_drop]; omega)
          (by rw [List.length_drop]; omega)
        refine ⟨r2, g1, ?_⟩
        rw [List.length_drop] at g2
        have e2 : k - min (n + 1) r1.cur.length - (bytes.length - min (n + 1) r1.cur.length) = k - bytes.length := by omega
        rw [e2] at g2
        exact g2

theorem readExact_ok {n : Nat} {bytes : List UInt8} {r : AReader} {k : Nat} (h : Sees r k bytes) (hn : n ≤ bytes.length)
    (hk : n ≤ k) : ∃ r', (readExact n).poll r = (.ready (.ok (bytes.take n)), r') ∧ Sees r' (k - n) (bytes.drop n) :=
  readExactN_ok h (Nat.le_refl _) hn hk

theorem readExact_eof {n : Nat} {bytes : List UInt8} {r : AReader} {k : Nat} (h : Sees r k bytes) (hn : bytes.length < n)
    (hk : bytes.length < k) :
    ∃ r', (readExact n).poll r = (.ready (.err (.io .unexpectedEof)), r') ∧ Sees r' (k - bytes.length) [] :=
  readExactN_eof h (Nat.le_refl _) hn hk

/-- `read_n_bytes_exact`. -/
theorem readNBytesN_ok {fuel n : Nat} {bytes : List UInt8} {r : AReader} {k : Nat} (h : Sees r k bytes) (hf : n < fuel)
    (hn : n ≤ bytes.length) (hk : n ≤ k) (hk0 : 0 < k) :
    ∃ r', (readNBytesN fuel n).poll r = (.ready (.ok ()), r') ∧ Sees r' (k - n) (bytes.drop n) := by
  induction fuel generalizing n bytes r k with
  | zero => omega
  | succ fuel ih =>
    obtain ⟨r1, h1, h2, h3, h4⟩ := h.fill hk0
    unfold readNBytesN
    rw [poll_fill h1]
    have hle := h3.length_le
    by_cases hne : r1.cur = []
    · rw [if_pos hne]
      have := h4 hne
      subst this
      obtain rfl : n = 0 := by simpa using hn
      exact ⟨r1, rfl, h2⟩
    · have hpos := List.length_pos_iff.2 hne
      rw [if_neg hne]
      by_cases hc : r1.cur.length < n
      · rw [if_pos hc]
        show ∃ r', (readNBytesN fuel _).poll (r1.consume _) = _ ∧ _
        obtain ⟨r2, g1, g2⟩ := ih (n := n - r1.cur.length) (h2.consume (n := r1.cur.length) (Nat.le_refl _)) (by omega)
          (by rw [List.length_drop]; omega) (by omega) (by omega)
        refine ⟨r2, g1, ?_⟩
        rw [List.drop_drop] at g2
        have e1 : r1.cur.length + (n - r1.cur.length) = n := by omega
        have e2 : k - r1.cur.length - (n - r1.cur.length) = k - n := by omega
        rw [e1, e2] at g2
        exact g2
      · rw [if_neg hc]
        exact ⟨r1.consume n, rfl, h2.consume (by omega)⟩

theorem readNBytesN_eof {fuel n : Nat} {bytes : List UInt8} {r : AReader} {k : Nat} (h : Sees r k bytes) (hf : n < fuel)
    (hn : bytes.length < n) (hk : bytes.length < k) :
    ∃ r', (readNBytesN fuel n).poll r = (.ready (.err (.static "The file has reached EOF")), r') ∧
      Sees r' (k - bytes.length) [] := by
  induction fuel generalizing n bytes r k with
  | zero => omega
  | succ fuel ih =>
    obtain ⟨r1, h1, h2, h3, h4⟩ := h.fill (by omega)
    unfold readNBytesN
    rw [poll_fill h1]
    have hle := h3.length_le
    by_cases hne : r1.cur = []
    · rw [if_pos hne]
      have := h4 hne
      subst this
      rw [if_pos (show n ≠ 0 by omega)]
      exact ⟨r1, rfl, h2⟩
    · have hpos := List.length_pos_iff.2 hne
      rw [if_neg hne, if_pos (show r1.cur.length < n by omega)]
      show ∃ r', (readNBytesN fuel _).poll (r1.consume _) = _ ∧ _
      obtain ⟨r2, g1, g2⟩ := ih (n := n - r1.cur.length) (h2.consume (n := r1.cur.length) (Nat.le_refl _)) (by omega)
        (by rw [List.length_drop]; omega) (by rw [List.length_drop]; omega)
      refine ⟨r2, g1, ?_⟩
      rw [List.length_drop] at g2
      have e2 : k - r1.cur.length - (bytes.length - r1.cur.length) = k - bytes.length := by omega
      rw [e2] at g2
      exact g2

theorem readNBytes_ok {n : Nat} {bytes : List UInt8} {r : AReader} {k : Nat} (h : Sees r k bytes) (hn : n ≤ bytes.length)
    (hk : n ≤ k) (hk0 : 0 < k) :
    ∃ r', (readNBytesExact n).poll r = (.ready (.ok ()), r') ∧ Sees r' (k - n) (bytes.drop n) :=
  readNBytesN_ok h (Nat.lt_succ_self _) hn hk hk0

theorem readNBytes_eof {n : Nat} {bytes : List UInt8} {r : AReader} {k : Nat} (h : Sees r k bytes) (hn : bytes.length < n)
    (hk : bytes.length < k) :
    ∃ r', (readNBytesExact n).poll r = (.ready (.err (.static "The file has reached EOF")), r') ∧
      Sees r' (k - bytes.length) [] :=
  readNBytesN_eof h (Nat.lt_succ_self _) hn hk

end Fitsrs

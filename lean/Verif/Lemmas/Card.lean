import Verif.Lemmas.Number
import Verif.Lemmas.EndRecord
import Verif.Spec.Card
/-
Helper lemmas on the parsing of records.
-/

namespace Fitsrs
open Spec

/-- If lossy decoding gives only ASCII characters, the bytes are those characters. -/
theorem utf8Lossy_inv {bs : List UInt8} (h : ∀ c ∈ utf8Lossy bs, c.toNat < 0x80) :
    bs.map asciiChar = utf8Lossy bs ∧ ∀ b ∈ bs, b.toNat < 0x80 := by
  unfold utf8Lossy at *
  induction bs with
  | nil => simp [lossyAux]
  | cons b bs ih =>
    by_cases hb : b.toNat < 0x80
    · simp only [lossyAux, utf8Step_ascii hb, Option.getD_some] at h ⊢
      obtain ⟨h1, h2⟩ := ih (fun c hc => h c (by simp [hc]))
      refine ⟨by simp [h1, asciiChar], ?_⟩
      intro x hx
      rcases List.mem_cons.1 hx with rfl | hx
      · exact hb
      · exact h2 x hx
    · exfalso
      simp only [lossyAux] at h
      have h' := h _ (List.mem_cons_self ..)
      cases hst : utf8Step b bs with
      | mk o k =>
        rw [hst] at h'
        cases o with
        | none =>
          simp only [Option.getD_none] at h'
          revert h'; decide
        | some c =>
          have h1 := utf8Step_multi (by omega) hst
          simp only [Option.getD_some] at h'
          omega

theorem isWs_replacement : isWs replacement = false := by decide

/-- Inside a string, every character pushed that is white space is a blank. -/
theorem splitLoop_inside_ws {s v : Str} {r : Option Str} (h : splitLoop true false s = .ok (v, r))
    (hv : ∀ c ∈ v, isWs c = true) : ∀ c ∈ s, c = ' ' := by
  induction s generalizing v with
  | nil => intro c hc; simp at hc
  | cons d s ih =>
    by_cases hq : d = '\''
    · exfalso
      subst hq
      rw [splitLoop_quote] at h
      obtain ⟨x, -, h⟩ := Res.map_eq_ok.1 h
      rw [Prod.mk.injEq] at h
      have := hv '\'' (by rw [← h.1]; simp)
      revert this; decide
    by_cases hs : d = '/'
    · exfalso
      subst hs
      rw [splitLoop_slash] at h
      obtain ⟨x, -, h⟩ := Res.map_eq_ok.1 h
      rw [Prod.mk.injEq] at h
      have := hv '/' (by rw [← h.1]; simp)
      revert this; decide
    by_cases hp : isPrintable d = true
    · rw [splitLoop_other hq hs hp] at h
      obtain ⟨x, hx, h⟩ := Res.map_eq_ok.1 h
      rw [Prod.mk.injEq] at h
      have h1 := hv d (by rw [← h.1]; simp)
      rw [isWs_printable ((isPrintable_iff d).1 hp), decide_eq_true_eq] at h1
      have := ih (v := x.1) (by rw [if_neg (by simp)] at hx; rw [hx, ← h.2]) (fun c hc => hv c (by rw [← h.1]; simp [hc]))
      intro c hc
      rcases List.mem_cons.1 hc with rfl | hc
      · exact h1
      · exact this c hc
    · exfalso
      unfold splitLoop at h
      dsimp only at h
      rw [if_neg hq, if_neg hs, if_neg hp, if_pos rfl] at h
      obtain ⟨x, -, h⟩ := Res.map_eq_ok.1 h
      rw [Prod.mk.injEq] at h
      have := hv replacement (by rw [← h.1]; simp)
      rw [isWs_replacement] at this
      simp at this

/-- The value part of a field is a lone quote exactly when the field is. -/
theorem split_loneQuote {buf : List UInt8} {c : Option Str}
    (h : splitValueAndComment buf = .ok (['\''], c)) : trimAscii buf = [0x27] := by
  unfold splitValueAndComment at h
  obtain ⟨⟨v, r⟩, hv, h⟩ := Res.map_eq_ok.1 h
  have hvt : trimStr v = ['\''] := by
    revert h
    dsimp only
    split <;> intro h <;> exact (Prod.mk.inj h).1
  clear h
  have hhead : ∀ x, (utf8Lossy (trimAscii buf)).head? = some x → x ≠ ' ' := by
    rintro x hx rfl
    cases ht : trimAscii buf with
    | nil => rw [ht] at hx; simp [utf8Lossy, lossyAux] at hx
    | cons b bs =>
      rw [ht] at hx
      simp only [utf8Lossy, lossyAux, List.head?_cons, Option.some.injEq] at hx
      have hb := trimBy_head (p := isAsciiWs) buf b (by rw [show trimBy isAsciiWs buf = trimAscii buf from rfl, ht]; rfl)
      by_cases hb8 : b.toNat < 0x80
      · rw [utf8Step_ascii hb8, Option.getD_some] at hx
        have := asciiChar_toNat hb8
        rw [asciiChar, hx] at this
        have hb32 : b = 0x20 := UInt8.toNat_inj.1 this.symm
        rw [hb32] at hb
        revert hb; decide
      · cases hst : utf8Step b bs with
        | mk o k =>
          rw [hst] at hx
          cases o with
          | none => simp only [Option.getD_none] at hx; revert hx; decide
          | some c =>
            have h1 := utf8Step_multi (by omega) hst
            simp only [Option.getD_some] at hx
            rw [hx] at h1
            revert h1; decide
  generalize hs : utf8Lossy (trimAscii buf) = s at hv hhead
  cases s with
  | nil =>
    simp only [splitLoop, Res.ok.injEq, Prod.mk.injEq] at hv
    rw [← hv.1] at hvt
    simp [trimStr, trimBy, trimEndBy] at hvt
  | cons d s =>
    have hd := hhead d rfl
    by_cases hq : d = '\''
    · subst hq
      rw [splitLoop_quote] at hv
      obtain ⟨⟨v', r'⟩, hx, h⟩ := Res.map_eq_ok.1 hv
      rw [Prod.mk.injEq] at h
      have hws : ∀ c ∈ v', isWs c = true := by
        obtain ⟨a, b, he, ha, hb⟩ := trimBy_spec (p := isWs) v
        rw [show trimBy isWs v = trimStr v from rfl, hvt] at he
        rw [he] at h
        cases a with
        | nil =>
          simp only [List.nil_append, List.cons_append, List.cons.injEq, true_and] at h
          rw [h.1]; exact hb
        | cons a0 a =>
          simp only [List.cons_append, List.cons.injEq] at h
          have := ha a0 (by simp)
          rw [← h.1.1] at this
          exact absurd this (by decide)
      have hblank := splitLoop_inside_ws hx hws
      have hasc : ∀ c ∈ utf8Lossy (trimAscii buf), c.toNat < 0x80 := by
        rw [hs]
        intro c hc
        rcases List.mem_cons.1 hc with rfl | hc
        · decide
        · rw [hblank c hc]; decide
      obtain ⟨h1, h2⟩ := utf8Lossy_inv hasc
      rw [hs] at h1
      have hs0 : s = [] := by
        cases hl : s.getLast? with
        | none => simpa using hl
        | some x =>
          exfalso
          have hx' : x = ' ' := hblank x (List.mem_of_getLast? hl)
          subst hx'
          have : ('\'' :: s).getLast? = some ' ' := by rw [List.getLast?_cons, hl]; rfl
          rw [← h1, List.getLast?_map] at this
          obtain ⟨b, hb, hb2⟩ := Option.map_eq_some_iff.1 this
          have hlast := trimBy_last (p := isAsciiWs) buf b hb
          have hb8 := h2 b (List.mem_of_getLast? hb)
          have hb32 : b = 0x20 := asciiChar_inj hb8 (by decide) (hb2.trans (by decide))
          rw [hb32] at hlast
          revert hlast; decide
      subst hs0
      cases ht : trimAscii buf with
      | nil => rw [ht] at h1; simp at h1
      | cons b bs =>
        rw [ht] at h1
        simp only [List.map_cons, List.cons.injEq, List.map_eq_nil_iff] at h1
        rw [h1.2]
        rw [asciiChar_inj (h2 b (by rw [ht]; simp)) (b := 0x27) (by decide) (h1.1.trans (by decide))]
    · exfalso
      by_cases hsl : d = '/'
      · subst hsl
        rw [splitLoop_slash] at hv
        simp only [Res.ok.injEq, Prod.mk.injEq] at hv
        rw [← hv.1] at hvt
        simp [trimStr, trimBy, trimEndBy] at hvt
      · by_cases hp : isPrintable d = true
        · rw [splitLoop_other hq hsl hp] at hv
          obtain ⟨⟨v', r'⟩, hx, h⟩ := Res.map_eq_ok.1 hv
          rw [Prod.mk.injEq] at h
          have hws : isWs d = false := by
            rw [isWs_printable ((isPrintable_iff d).1 hp)]; simpa using hd
          have : (trimStr v).head? = some d := by
            obtain ⟨a, b, he, ha, hb⟩ := trimBy_spec (p := isWs) v
            rw [show trimBy isWs v = trimStr v from rfl] at he
            rw [← h.1] at he
            cases a with
            | cons a0 a =>
              simp only [List.cons_append, List.cons.injEq] at he
              have := ha a0 (by simp)
              rw [← he.1, hws] at this
              simp at this
            | nil =>
              cases htv : trimStr v with
              | nil =>
                rw [htv] at hvt; simp at hvt
              | cons x xs =>
                rw [← h.1] at htv
                rw [htv] at he
                simp only [List.nil_append, List.cons_append, List.cons.injEq] at he
                rw [he.1]; rfl
          rw [hvt] at this
          simp only [List.head?_cons, Option.some.injEq] at this
          exact hq this.symm
        · unfold splitLoop at hv
          dsimp only at hv
          rw [if_neg hq, if_neg hsl, if_neg hp, if_neg (by simp)] at hv
          simp at hv

theorem split_of_loneQuote {buf : List UInt8} (h : trimAscii buf = [0x27]) :
    splitValueAndComment buf = .ok (['\''], none) := by
  unfold splitValueAndComment
  rw [h]
  decide

theorem loneQuote_iff (f : List UInt8) : LoneQuote f ↔ trimAscii f = [0x27] := by
  constructor
  · rintro ⟨a, b, rfl, ha, hb⟩
    apply trimBy_core
    · intro x hx; exact (isAsciiWs_iff x).2 (ha x hx)
    · intro x hx; exact (isAsciiWs_iff x).2 (hb x hx)
    · intro x hx; simp at hx; subst hx; decide
    · intro x hx; simp at hx; subst hx; decide
  · intro h
    obtain ⟨a, b, he, ha, hb⟩ := trimBy_spec (p := isAsciiWs) f
    rw [show trimBy isAsciiWs f = trimAscii f from rfl, h] at he
    exact ⟨a, b, he, fun x hx => (isAsciiWs_iff x).1 (ha x hx), fun x hx => (isAsciiWs_iff x).1 (hb x hx)⟩

theorem parseString_panic {s : Str} : parseString s = .panic ↔ s = ['\''] := by
  unfold parseString
  dsimp only
  rw [Res.map_eq_panic]
  constructor
  · intro h
    split at h
    · rename_i hq
      split at h
      · rename_i h1
        match s, hq, h1 with
        | [c], hq, _ => simp at hq; rw [hq]
      · simp at h
    · repeat' split at h
      all_goals simp at h
  · rintro rfl; decide

theorem parseValue_panic {buf : List UInt8} : parseValue buf = .panic ↔ LoneQuote buf := by
  rw [loneQuote_iff]
  constructor
  · intro h
    unfold parseValue at h
    rcases Res.bind_eq_panic.1 h with h | ⟨⟨v, c⟩, hs, h⟩
    · exact absurd h (splitValueAndComment_ne_panic buf)
    · dsimp only at h
      split at h
      · simp at h
      · split at h
        · rw [Res.map_eq_panic, parseString_panic] at h
          rw [h] at hs
          exact split_loneQuote hs
        · repeat' split at h
          all_goals simp at h
  · intro h
    unfold parseValue
    rw [split_of_loneQuote h]
    rfl

theorem parseContinuation_panic {r : List UInt8} : parseContinuation r = .panic ↔ LoneQuote (r.drop 8) := by
  rw [loneQuote_iff]
  constructor
  · intro h
    unfold parseContinuation at h
    rcases Res.bind_eq_panic.1 h with h | ⟨⟨v, c⟩, hs, h⟩
    · exact absurd h (splitValueAndComment_ne_panic _)
    · dsimp only at h
      rw [Res.map_eq_panic, parseString_panic] at h
      rw [h] at hs
      exact split_loneQuote hs
  · intro h
    unfold parseContinuation
    rw [split_of_loneQuote h]
    decide

theorem fromStr_ne_panic {s : Str} : XtensionType.fromStr s ≠ .panic := by
  unfold XtensionType.fromStr
  repeat' split
  all_goals simp

theorem parseExtension_panic {r : List UInt8} : parseExtension r = .panic ↔ LoneQuote (r.drop 10) := by
  rw [loneQuote_iff]
  constructor
  · intro h
    unfold parseExtension at h
    rcases Res.bind_eq_panic.1 h with h | ⟨⟨v, c⟩, hs, h⟩
    · exact absurd h (splitValueAndComment_ne_panic _)
    · dsimp only at h
      split at h
      · rename_i hq
        split at h
        · rename_i h1
          match v, hq, h1 with
          | [x], hq, _ =>
            simp at hq
            rw [hq] at hs
            exact split_loneQuote hs
        · rw [Res.map_eq_panic] at h
          exact absurd h fromStr_ne_panic
      · simp at h
  · intro h
    unfold parseExtension
    rw [split_of_loneQuote h]
    decide

/-! ### Keyword fields -/

/-- The special keywords as bytes. -/
theorem keywordIs_iff {r : List UInt8} {kw : Str} (hp : Printable kw) (hb : ' ' ∉ kw) :
    KeywordIs r kw ↔ utf8Strict (trimAscii (r.take 8)) = some kw := by
  have hlt : ∀ c ∈ kw, c.toNat < 0x80 := by intro c hc; have := hp c hc; omega
  have hws : ∀ b ∈ toBytes kw, isAsciiWs b = false := by
    intro b hb'
    obtain ⟨c, hc, rfl⟩ := List.mem_map.1 hb'
    rw [isAsciiWs_toByte (hp c hc), decide_eq_false_iff_not]
    rintro rfl; exact hb hc
  constructor
  · rintro ⟨a, b, h, ha, hb'⟩
    have : trimAscii (r.take 8) = toBytes kw := by
      rw [h]
      apply trimBy_core
      · intro x hx; exact (isAsciiWs_iff x).2 (ha x hx)
      · intro x hx; exact (isAsciiWs_iff x).2 (hb' x hx)
      · intro x hx; exact hws x (List.mem_of_mem_head? hx)
      · intro x hx; exact hws x (List.mem_of_getLast? hx)
    rw [this, utf8Strict_ascii (toBytes_ascii hlt), map_asciiChar_toBytes hlt]
  · intro h
    obtain ⟨h1, h2⟩ := utf8Strict_inv h hlt
    have h3 : trimAscii (r.take 8) = toBytes kw := by
      rw [← h1]
      unfold toBytes
      rw [List.map_map]
      conv => lhs; rw [← List.map_id (trimAscii (r.take 8))]
      apply List.map_congr_left
      intro b hb'
      have := asciiChar_toNat (h2 b hb')
      simp only [id, Function.comp_apply, this]
      exact (UInt8.ofNat_toNat).symm
    obtain ⟨a, b, he, ha, hb'⟩ := trimBy_spec (p := isAsciiWs) (r.take 8)
    rw [show trimBy isAsciiWs (r.take 8) = trimAscii (r.take 8) from rfl, h3] at he
    exact ⟨a, b, he, fun x hx => (isAsciiWs_iff x).1 (ha x hx), fun x hx => (isAsciiWs_iff x).1 (hb' x hx)⟩

theorem special_ok : ∀ kw ∈ special, Printable kw ∧ ' ' ∉ kw := by
  intro kw hkw
  have h1 : ∀ kw ∈ special, (∀ c ∈ kw, 0x20 ≤ c.toNat ∧ c.toNat ≤ 0x7E) ∧ ' ' ∉ kw := by decide
  exact h1 kw hkw

/-! ### Tokens -/

theorem tokens_nil : tokens [] = [] := by simp [tokens, List.splitOnP_nil]

theorem tokens_ws {b : UInt8} (h : isAsciiWs b = true) (l : List UInt8) : tokens (b :: l) = tokens l := by
  unfold tokens
  have := List.splitOnP_append_cons (p := isAsciiWs) [] l h
  rw [List.nil_append] at this
  rw [this, List.splitOnP_nil, List.filter_append]
  simp

theorem tokens_token {t : List UInt8} {b : UInt8} (ht : ∀ x ∈ t, isAsciiWs x = false) (h0 : t ≠ [])
    (h : isAsciiWs b = true) (l : List UInt8) : tokens (t ++ b :: l) = t :: tokens l := by
  unfold tokens
  rw [List.splitOnP_append_cons_of_forall_mem ht b h]
  simp [h0]

theorem tokens_single {t : List UInt8} (ht : ∀ x ∈ t, isAsciiWs x = false) (h0 : t ≠ []) :
    tokens t = [t] := by
  unfold tokens
  rw [List.splitOnP_eq_singleton ht]
  simp [h0]

theorem tokens_eq_nil {l : List UInt8} : tokens l = [] ↔ ∀ x ∈ l, isAsciiWs x = true := by
  constructor
  · intro h
    induction l with
    | nil => intro x hx; simp at hx
    | cons b l ih =>
      by_cases hb : isAsciiWs b = true
      · rw [tokens_ws hb] at h
        intro x hx
        rcases List.mem_cons.1 hx with rfl | hx
        · exact hb
        · exact ih h x hx
      · exfalso
        rw [Bool.not_eq_true] at hb
        let t := (b :: l).takeWhile fun x => !isAsciiWs x
        have ht : ∀ x ∈ t, isAsciiWs x = false := by
          intro x hx
          have := mem_takeWhile_imp hx
          simpa using this
        have ht0 : t ≠ [] := by simp [t, hb]
        have he : b :: l = t ++ (b :: l).dropWhile fun x => !isAsciiWs x :=
          List.takeWhile_append_dropWhile.symm
        cases hd : (b :: l).dropWhile fun x => !isAsciiWs x with
        | nil =>
          rw [hd, List.append_nil] at he
          rw [he, tokens_single ht ht0] at h
          simp at h
        | cons c r =>
          have hc : isAsciiWs c = true := by
            have := (dropWhile_spec (p := fun x => !isAsciiWs x) (b :: l)).choose_spec.2.2 c (by rw [hd]; rfl)
            simpa using this
          rw [he, hd, tokens_token ht ht0 hc] at h
          simp at h
  · intro h
    induction l with
    | nil => exact tokens_nil
    | cons b l ih => rw [tokens_ws (h b (by simp)), ih (fun x hx => h x (by simp [hx]))]

theorem tokens_blank_prefix (n : Nat) (l : List UInt8) : tokens (toBytes (blank n) ++ l) = tokens l := by
  induction n with
  | zero => rfl
  | succ n ih =>
    have : toBytes (blank (n + 1)) ++ l = 0x20 :: (toBytes (blank n) ++ l) := rfl
    rw [this, tokens_ws (by decide), ih]

theorem token_ws {t : Str} (hp : Printable t) (hb : ' ' ∉ t) : ∀ x ∈ toBytes t, isAsciiWs x = false := by
  intro b hb'
  obtain ⟨c, hc, rfl⟩ := List.mem_map.1 hb'
  rw [isAsciiWs_toByte (hp c hc), decide_eq_false_iff_not]
  rintro rfl; exact hb hc

theorem tokens_hierarchText {ts : List (Nat × Str)} (pad : Nat)
    (h1 : ∀ p ∈ ts, p.2 ≠ [] ∧ Printable p.2 ∧ ' ' ∉ p.2 ∧ '=' ∉ p.2) (h2 : ∀ p ∈ ts.tail, 0 < p.1) :
    tokens (toBytes (hierarchText ts ++ blank pad)) = ts.map fun p => toBytes p.2 := by
  induction ts with
  | nil =>
    have := tokens_blank_prefix pad []
    rw [List.append_nil, tokens_nil] at this
    simpa [hierarchText] using this
  | cons p ts ih =>
    obtain ⟨n, t⟩ := p
    obtain ⟨ht0, htp, htb, -⟩ := h1 (n, t) (by simp)
    have hws := token_ws htp htb
    have ht0' : toBytes t ≠ [] := by simpa [toBytes] using ht0
    have ih := ih (fun p hp => h1 p (by simp [hp]))
      (fun p hp => h2 p (List.mem_of_mem_tail hp))
    simp only [hierarchText, List.append_assoc, toBytes_append] at ih ⊢
    rw [tokens_blank_prefix, List.map_cons]
    rw [← ih]
    cases ts with
    | nil =>
      simp only [hierarchText]
      have e0 : toBytes [] = [] := rfl
      simp only [e0, List.nil_append]
      cases pad with
      | zero =>
        have : toBytes (blank 0) = [] := rfl
        rw [this, List.append_nil, tokens_single hws ht0', tokens_nil]
      | succ k =>
        have : toBytes (blank (k + 1)) = 0x20 :: toBytes (blank k) := rfl
        rw [this, tokens_token hws ht0' (by decide), tokens_ws (by decide)]
    | cons q ts =>
      obtain ⟨m, u⟩ := q
      have hm := h2 (m, u) (by simp)
      cases m with
      | zero => simp at hm
      | succ k =>
        have : toBytes (blank (k + 1)) = 0x20 :: toBytes (blank k) := rfl
        simp only [hierarchText, toBytes_append, this, List.cons_append, List.append_assoc]
        rw [tokens_token hws ht0' (by decide), tokens_ws (by decide)]

theorem joinDots_eq (l : List Str) : joinDots l = dotted l := by
  induction l with
  | nil => rfl
  | cons a l ih =>
    cases l with
    | nil => rfl
    | cons b l => simp [joinDots, dotted, ih]

/-! ### HIERARCH -/

theorem parseHierarch_parts {r k v : List UInt8} (h : hierarchParts r k v) :
    parseHierarch r = (match tokens k with
      | [] => .err .dynamic
      | ts => (parseValue v).map fun x => .hierarch (joinDots (ts.map utf8Lossy)) x) := by
  obtain ⟨h1, h2⟩ := h
  have hk : ∀ x ∈ k, (x != 0x3D) = true := by
    intro x hx; simp only [bne_iff_ne, ne_eq]; rintro rfl; exact h2 hx
  unfold parseHierarch
  dsimp only
  rw [h1, if_pos (by simp)]
  have e1 : (k ++ 0x3D :: v).takeWhile (· != 0x3D) = k := by
    rw [List.takeWhile_append_of_pos hk]; simp
  have e2 : (k ++ 0x3D :: v).dropWhile (· != 0x3D) = 0x3D :: v := by
    rw [List.dropWhile_append_of_pos hk]; simp
  rw [e1, e2, List.drop_one, List.tail_cons]
  cases tokens k <;> rfl

theorem hierarchParts_iff (r : List UInt8) : (∃ k v, hierarchParts r k v) ↔ 0x3D ∈ r.drop 9 := by
  constructor
  · rintro ⟨k, v, h, -⟩; rw [h]; simp
  · intro h
    obtain ⟨k, v, h1, h2⟩ := List.eq_append_cons_of_mem h
    exact ⟨k, v, h1, h2⟩

theorem parseHierarch_panic {r : List UInt8} :
    parseHierarch r = .panic ↔ ∃ k v, hierarchParts r k v ∧ (∃ x ∈ k, ¬ isBlank x) ∧ LoneQuote v := by
  have htok : ∀ k, tokens k ≠ [] ↔ ∃ x ∈ k, ¬ isBlank x := by
    intro k
    rw [ne_eq, tokens_eq_nil]
    simp only [isAsciiWs_iff, Classical.not_forall, exists_prop]
  constructor
  · intro h
    by_cases hm : 0x3D ∈ r.drop 9
    · obtain ⟨k, v, hkv⟩ := (hierarchParts_iff r).2 hm
      rw [parseHierarch_parts hkv] at h
      split at h
      · simp at h
      · rename_i ht
        rw [Res.map_eq_panic] at h
        exact ⟨k, v, hkv, (htok k).1 ht, parseValue_panic.1 h⟩
    · unfold parseHierarch at h
      simp [hm] at h
  · rintro ⟨k, v, hkv, hk, hv⟩
    rw [parseHierarch_parts hkv]
    split
    · rename_i ht; exact absurd ht ((htok k).2 hk)
    · rw [Res.map_eq_panic]; exact parseValue_panic.2 hv

end Fitsrs

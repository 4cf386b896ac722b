import Verif.Spec.LayoutKeys
import Verif.Props.C17_C21
import Verif.Props.C25_C28
/-
C92: how the data of an HDU are laid out depends only on the keywords that say so.
-/

namespace Fitsrs
open Spec

/-- The maps give the same value, up to the comment, to the keyword. -/
def SameAt (m m' : ValueMap) (k : Str) : Prop := (m.get k).map bare = (m'.get k).map bare

theorem SameAt.cases {m m' : ValueMap} {k : Str} (h : SameAt m m' k) :
    (m.get k = none ∧ m'.get k = none) ∨
      ∃ v v', m.get k = some v ∧ m'.get k = some v' ∧ bare v = bare v' := by
  unfold SameAt at h
  cases h1 : m.get k <;> cases h2 : m'.get k <;> rw [h1, h2] at h
  · exact .inl ⟨rfl, rfl⟩
  · cases h
  · cases h
  · exact .inr ⟨_, _, rfl, rfl, Option.some.inj h⟩

theorem SameAt.getI64 {m m' : ValueMap} {k : Str} (h : SameAt m m' k) : m.getI64 k = m'.getI64 k := by
  unfold ValueMap.getI64
  rcases h.cases with ⟨h1, h2⟩ | ⟨v, v', h1, h2, e⟩
  · rw [h1, h2]
  · rw [h1, h2]
    cases v <;> cases v' <;> simp [bare] at e ⊢
    exact e

theorem SameAt.getString {m m' : ValueMap} {k : Str} (h : SameAt m m' k) : m.getString k = m'.getString k := by
  unfold ValueMap.getString
  rcases h.cases with ⟨h1, h2⟩ | ⟨v, v', h1, h2, e⟩
  · rw [h1, h2]
  · rw [h1, h2]
    cases v <;> cases v' <;> simp [bare] at e ⊢ <;> exact e

theorem SameAt.getU64 {m m' : ValueMap} {k : Str} (h : SameAt m m' k) : m.getU64 k = m'.getU64 k := by
  unfold ValueMap.getU64; rw [h.getI64]

theorem SameAt.getU8 {m m' : ValueMap} {k : Str} (h : SameAt m m' k) : m.getU8 k = m'.getU8 k := by
  unfold ValueMap.getU8 ValueMap.getInt; rw [h.getI64]

theorem SameAt.getBitpix {m m' : ValueMap} {k : Str} (h : SameAt m m' k) : m.getBitpix k = m'.getBitpix k := by
  unfold ValueMap.getBitpix ValueMap.getInt; rw [h.getI64]

theorem SameAt.getTFormAscii {m m' : ValueMap} {k : Str} (h : SameAt m m' k) :
    m.getTFormAscii k = m'.getTFormAscii k := by
  unfold ValueMap.getTFormAscii; rw [h.getString]

theorem SameAt.optBitpix {m m' : ValueMap} {k : Str} (h : SameAt m m' k) :
    m.getOpt ValueMap.getBitpix k = m'.getOpt ValueMap.getBitpix k := by
  unfold ValueMap.getOpt
  rcases h.cases with ⟨h1, h2⟩ | ⟨v, v', h1, h2, e⟩
  · rw [h1, h2]
  · rw [h1, h2, h.getBitpix]
    cases v <;> cases v' <;> simp [bare] at e ⊢

theorem collectAxes_alike {m m' : ValueMap} : ∀ (k i : Nat), (∀ j, j < k → SameAt m m' (kwN "NAXIS" (i + j))) →
    collectAxes m i k = collectAxes m' i k
  | 0, _, _ => rfl
  | k + 1, i, h => by
    unfold collectAxes
    rw [(h 0 (by omega)).getU64 (k := kwN "NAXIS" i), collectAxes_alike k (i + 1) fun j hj => by
      have := h (j + 1) (by omega)
      rwa [show i + (j + 1) = i + 1 + j by omega] at this]

theorem asciiFields_alike {m m' : ValueMap} : ∀ (k i : Nat),
    (∀ j, j < k → SameAt m m' (kwN "TBCOL" (i + j)) ∧ SameAt m m' (kwN "TFORM" (i + j))) →
    asciiFields m i k = asciiFields m' i k
  | 0, _, _ => rfl
  | k + 1, i, h => by
    unfold asciiFields
    rw [(h 0 (by omega)).1.getU64 (k := kwN "TBCOL" i), (h 0 (by omega)).2.getTFormAscii (k := kwN "TFORM" i),
      asciiFields_alike k (i + 1) fun j hj => by
        have := h (j + 1) (by omega)
        rwa [show i + (j + 1) = i + 1 + j by omega] at this]

theorem binFields_alike {m m' : ValueMap} : ∀ (k i : Nat),
    (∀ j, j < k → SameAt m m' (kwN "TFORM" (i + j)) ∧ SameAt m m' (kwN "TTYPE" (i + j))) →
    binFields m i k = binFields m' i k
  | 0, _, _ => rfl
  | k + 1, i, h => by
    unfold binFields
    rw [(h 0 (by omega)).1.getString (k := kwN "TFORM" i), (h 0 (by omega)).2.getString (k := kwN "TTYPE" i),
      binFields_alike k (i + 1) fun j hj => by
        have := h (j + 1) (by omega)
        rwa [show i + (j + 1) = i + 1 + j by omega] at this]

theorem zAxes_alike {m m' : ValueMap} : ∀ (k i : Nat),
    (∀ j, j < k → SameAt m m' (kwN "ZNAXIS" (i + j)) ∧ SameAt m m' (kwN "ZTILE" (i + j))) →
    zAxes m i k = zAxes m' i k
  | 0, _, _ => rfl
  | k + 1, i, h => by
    unfold zAxes zTile
    rw [(h 0 (by omega)).1.getU64 (k := kwN "ZNAXIS" i), (h 0 (by omega)).2.getU64 (k := kwN "ZTILE" i),
      zAxes_alike k (i + 1) fun j hj => by
        have := h (j + 1) (by omega)
        rwa [show i + (j + 1) = i + 1 + j by omega] at this]

/-- What the block size of RICE is read from. -/
theorem riceBlocksize_find {m : ValueMap} (hn : m.keywords.Nodup)
    (h1 : ∀ t t' c c', m.get ("ZNAME".toList ++ t) = some (.string "BLOCKSIZE".toList c) →
      m.get ("ZNAME".toList ++ t') = some (.string "BLOCKSIZE".toList c') → t = t') :
    ∃ o : Option Nat, riceBlocksize m = o.getD 32 ∧ ∀ n, o = some n ↔
      ∃ t c, m.get ("ZNAME".toList ++ t) = some (.string "BLOCKSIZE".toList c) ∧
        m.getU8 (replaceName ("ZNAME".toList ++ t)) = .ok n := by
  refine ⟨_, rfl, fun n => ?_⟩
  generalize hf : (fun e : Str × Value => _) = f
  have hany : ∀ e ∈ m, ∀ a, f e = some a ↔ ∃ t c, m.get ("ZNAME".toList ++ t) = some (.string "BLOCKSIZE".toList c) ∧
      e.1 = "ZNAME".toList ++ t ∧ m.getU8 (replaceName e.1) = .ok a := by
    rintro ⟨k, v⟩ he a
    rw [← hf]
    dsimp only
    constructor
    · intro ha
      split at ha
      · rename_i s c
        split at ha
        · rename_i hs
          obtain ⟨t, ht⟩ := List.isPrefixOf_iff_prefix.1 hs.2
          split at ha
          · rename_i n' hg
            injection ha with ha
            refine ⟨t, c, ?_, ht.symm, by rw [← ha]; exact hg⟩
            rw [ht, get_of_mem hn he, hs.1]
          · cases ha
        · cases ha
      · cases ha
    · rintro ⟨t, c, hg, rfl, hu⟩
      rw [get_of_mem hn he] at hg
      obtain rfl := Option.some.inj hg
      dsimp only
      rw [if_pos ⟨rfl, List.isPrefixOf_iff_prefix.2 ⟨t, rfl⟩⟩]
      rw [hu]
  constructor
  · intro h
    obtain ⟨e, he, ha⟩ := List.exists_of_findSome?_eq_some h
    obtain ⟨t, c, g1, g2, g3⟩ := (hany e he n).1 ha
    exact ⟨t, c, g1, g2 ▸ g3⟩
  · rintro ⟨t, c, g1, g2⟩
    have hm := mem_of_get g1
    have hv : f ("ZNAME".toList ++ t, .string "BLOCKSIZE".toList c) = some n := (hany _ hm n).2 ⟨t, c, g1, rfl, g2⟩
    cases hr : m.findSome? f with
    | none => rw [List.findSome?_eq_none_iff] at hr; rw [hr _ hm] at hv; cases hv
    | some n' =>
      obtain ⟨e, he, ha⟩ := List.exists_of_findSome?_eq_some hr
      obtain ⟨t', c', g1', g2', g3'⟩ := (hany e he n').1 ha
      obtain rfl := h1 _ _ _ _ g1 g1'
      rw [g2', g2] at g3'
      injection g3' with g3'
      rw [g3']

theorem replaceName_value (t : Str) : ∃ t', replaceName ("ZNAME".toList ++ t) = "ZVAL".toList ++ t' :=
  ⟨replaceName t, by
    show 'Z' :: 'V' :: 'A' :: 'L' :: replaceName t = _
    rfl⟩

theorem SameAt.symm {m m' : ValueMap} {k : Str} (h : SameAt m m' k) : SameAt m' m k := Eq.symm h

theorem SameAt.isString {m m' : ValueMap} {k s : Str} {c : Option Str} (h : SameAt m m' k)
    (hg : m.get k = some (.string s c)) : ∃ c', m'.get k = some (.string s c') := by
  rcases h.cases with ⟨h1, _⟩ | ⟨v, v', h1, h2, e⟩
  · rw [h1] at hg; cases hg
  · rw [hg] at h1
    obtain rfl := Option.some.inj h1
    cases v' <;> simp [bare] at e
    subst e
    exact ⟨_, h2⟩

theorem riceBlocksize_alike {m m' : ValueMap} (hn : m.keywords.Nodup) (hn' : m'.keywords.Nodup)
    (h1 : ∀ t t' c c', m.get ("ZNAME".toList ++ t) = some (.string "BLOCKSIZE".toList c) →
      m.get ("ZNAME".toList ++ t') = some (.string "BLOCKSIZE".toList c') → t = t')
    (hz : ∀ t, SameAt m m' ("ZNAME".toList ++ t)) (hv : ∀ t, SameAt m m' ("ZVAL".toList ++ t)) :
    riceBlocksize m = riceBlocksize m' := by
  obtain ⟨o, e, ho⟩ := riceBlocksize_find hn h1
  obtain ⟨o', e', ho'⟩ := riceBlocksize_find hn' (fun t t' c c' g g' => by
    obtain ⟨d, gd⟩ := (hz t).symm.isString g
    obtain ⟨d', gd'⟩ := (hz t').symm.isString g'
    exact h1 _ _ _ _ gd gd')
  rw [e, e']
  congr 1
  apply Option.ext
  intro n
  rw [ho, ho']
  constructor
  · rintro ⟨t, c, g, gu⟩
    obtain ⟨d, gd⟩ := (hz t).isString g
    obtain ⟨t', ht⟩ := replaceName_value t
    refine ⟨t, d, gd, ?_⟩
    rw [ht] at gu ⊢
    rw [← (hv t').getU8]
    exact gu
  · rintro ⟨t, c, g, gu⟩
    obtain ⟨d, gd⟩ := (hz t).symm.isString g
    obtain ⟨t', ht⟩ := replaceName_value t
    refine ⟨t, d, gd, ?_⟩
    rw [ht] at gu ⊢
    rw [(hv t').getU8]
    exact gu

theorem getZCmpType_alike {m m' : ValueMap} (h : SameAt m m' "ZCMPTYPE".toList) (hr : riceBlocksize m = riceBlocksize m') :
    getZCmpType m = getZCmpType m' := by
  unfold getZCmpType
  rw [hr]
  rcases h.cases with ⟨h1, h2⟩ | ⟨v, v', h1, h2, e⟩
  · rw [h1, h2]
  · rw [h1, h2]
    cases v <;> cases v' <;> simp only [bare, Value.string.injEq, reduceCtorEq, and_true] at e ⊢
    rw [e]

theorem quantiz_none (m : ValueMap) : orNone (m.getOpt (ValueMap.getEnum ZQuantiz) "ZQUANTIZ".toList) = none := by
  unfold ValueMap.getOpt
  split <;> rfl

/-- The number of a map. -/
def numberIn (m : ValueMap) (k : Str) : Nat :=
  match m.get k with
  | some (.integer n _) => n.toNat
  | _ => 0

theorem numberIn_of {m : ValueMap} {k : Str} {n : Nat} (h : m.getU64 k = .ok n) : numberIn m k = n := by
  unfold ValueMap.getU64 at h
  obtain ⟨i, hi, h⟩ := Res.bind_eq_ok.1 h
  unfold ValueMap.getI64 at hi
  unfold numberIn
  split at hi
  · rename_i n' c hg
    injection hi with hi
    subst hi
    split at h
    · injection h with h
      rw [hg]; exact h
    · cases h
  · cases hi

theorem imageParse_alike {m m' : ValueMap} (h1 : SameAt m m' "BITPIX".toList) (h2 : SameAt m m' "NAXIS".toList)
    (h3 : ∀ i, i < numberIn m "NAXIS".toList → SameAt m m' (kwN "NAXIS" (i + 1))) : Image.parse m = Image.parse m' := by
  unfold Image.parse
  rw [← h1.getBitpix, ← h2.getU64]
  cases m.getBitpix "BITPIX".toList with
  | ok b =>
    show (m.getU64 _).bind _ = (m.getU64 _).bind _
    cases hn : m.getU64 "NAXIS".toList with
    | ok n =>
      have := numberIn_of hn
      show (collectAxes m 1 n).bind _ = (collectAxes m' 1 n).bind _
      rw [collectAxes_alike n 1 fun j hj => by rw [Nat.add_comm]; exact h3 j (by omega)]
    | err e => rfl
    | panic => rfl
  | err e => rfl
  | panic => rfl

theorem res_bind_congr {α β : Type} {x : Res α} {f g : α → Res β} (h : ∀ a, x = .ok a → f a = g a) :
    (x >>= f) = (x >>= g) := by
  cases x with
  | ok a => exact h a rfl
  | err e => rfl
  | panic => rfl

theorem asciiParse_alike {m m' : ValueMap} (h1 : SameAt m m' "BITPIX".toList) (h2 : SameAt m m' "NAXIS".toList)
    (h3 : SameAt m m' (kwN "NAXIS" 1)) (h4 : SameAt m m' (kwN "NAXIS" 2)) (h5 : SameAt m m' "PCOUNT".toList)
    (h6 : SameAt m m' "GCOUNT".toList) (h7 : SameAt m m' "TFIELDS".toList)
    (h8 : ∀ i, i < numberIn m "TFIELDS".toList → SameAt m m' (kwN "TBCOL" (i + 1)) ∧ SameAt m m' (kwN "TFORM" (i + 1))) :
    AsciiTable.parse m = AsciiTable.parse m' := by
  unfold AsciiTable.parse
  rw [← h1.getBitpix, ← h2.getU64, ← h3.getU64, ← h4.getU64, ← h5.getU64, ← h6.getU64, ← h7.getU64]
  refine res_bind_congr fun b _ => ?_
  split
  · rfl
  refine res_bind_congr fun n _ => ?_
  split
  · rfl
  refine res_bind_congr fun n1 _ => res_bind_congr fun n2 _ => res_bind_congr fun pc _ => ?_
  split
  · rfl
  refine res_bind_congr fun gc _ => ?_
  split
  · rfl
  refine res_bind_congr fun tf htf => res_bind_congr fun _ _ => res_bind_congr fun _ _ => ?_
  have := numberIn_of htf
  rw [asciiFields_alike tf 1 fun j hj => by rw [Nat.add_comm]; exact h8 j (by omega)]

theorem getZAxes_alike {m m' : ValueMap} (h1 : SameAt m m' "ZNAXIS".toList)
    (h2 : ∀ i, i < numberIn m "ZNAXIS".toList → SameAt m m' (kwN "ZNAXIS" (i + 1)) ∧ SameAt m m' (kwN "ZTILE" (i + 1))) :
    getZAxes m = getZAxes m' := by
  unfold getZAxes
  rw [← h1.getU64]
  cases hz : m.getU64 "ZNAXIS".toList with
  | ok z =>
    have := numberIn_of hz
    dsimp only
    rw [zAxes_alike z 1 fun j hj => by rw [Nat.add_comm]; exact h2 j (by omega)]
  | err e => rfl
  | panic => rfl

theorem binParse_alike (p : Profile) {m m' : ValueMap} (h1 : SameAt m m' "BITPIX".toList)
    (h2 : SameAt m m' "NAXIS".toList) (h3 : SameAt m m' (kwN "NAXIS" 1)) (h4 : SameAt m m' (kwN "NAXIS" 2))
    (h5 : SameAt m m' "PCOUNT".toList) (h6 : SameAt m m' "GCOUNT".toList) (h7 : SameAt m m' "TFIELDS".toList)
    (h8 : SameAt m m' "THEAP".toList)
    (h9 : ∀ i, i < numberIn m "TFIELDS".toList → SameAt m m' (kwN "TFORM" (i + 1)) ∧ SameAt m m' (kwN "TTYPE" (i + 1)))
    (hc : getZCmpType m = getZCmpType m') (hb : SameAt m m' "ZBITPIX".toList) (hd : SameAt m m' "ZDITHER0".toList)
    (ha : getZAxes m = getZAxes m') :
    BinTable.parse p m = BinTable.parse p m' := by
  unfold BinTable.parse
  rw [← h1.getBitpix, ← h2.getU64, ← h3.getU64, ← h4.getU64, ← h5.getU64, ← h6.getU64, ← h7.getU64, ← ha]
  refine res_bind_congr fun b _ => ?_
  split
  · rfl
  refine res_bind_congr fun n _ => ?_
  split
  · rfl
  refine res_bind_congr fun n1 _ => res_bind_congr fun n2 _ => res_bind_congr fun pc _ => res_bind_congr fun gc _ => ?_
  split
  · rfl
  refine res_bind_congr fun tf htf => res_bind_congr fun ax _ => ?_
  have := numberIn_of htf
  unfold mkZImage getTheap
  rw [binFields_alike tf 1 fun j hj => by rw [Nat.add_comm]; exact h9 j (by omega), ← h8.getU64, ← hc, quantiz_none,
    quantiz_none, hb.optBitpix, hd.getI64]

/-- The map of a header and what it says about keywords. -/
theorem header_map (body : List Card) (hb : Card.end_ ∉ body) :
    ∃ m, processCards (body ++ [.end_]) = .ok m ∧ (∀ k, m.get k = lastValue (entries (body ++ [.end_])) k) ∧
      m.keywords.Nodup := by
  obtain ⟨m, hm, -⟩ := processLoop_spec body hb [] none (by intro n h; cases h)
  refine ⟨m, hm, (processCards_observed hm).1, ?_⟩
  exact (C17_keywords (fun _ => .ok ()) (body ++ [.end_]) ⟨_, m, ()⟩ (by
    unfold Header.parse
    rw [show processCards (body ++ [.end_]) = .ok m from hm]
    rfl)).2.1

theorem header_layout {X : Type} (parse : ValueMap → Res X) {body : List Card} {m : ValueMap}
    (hm : processCards (body ++ [.end_]) = .ok m) :
    (Header.parse parse (body ++ [.end_])).map (·.xtension) = parse m := by
  unfold Header.parse
  rw [hm]
  show ((parse m).bind _).map _ = _
  cases parse m <;> rfl

theorem numberIn_eq {m : ValueMap} {cards : List Card} (h : ∀ k, m.get k = lastValue (entries cards) k) (k : Str) :
    numberIn m k = numberOf cards k := by
  unfold numberIn numberOf
  rw [h]
  generalize lastValue (entries cards) k = o
  cases o with
  | none => rfl
  | some v => cases v <;> rfl

theorem SameBare.alike {keys : Str → Prop} {cards cards' : List Card} {m m' : ValueMap}
    (h : ∀ k, m.get k = lastValue (entries cards) k) (h' : ∀ k, m'.get k = lastValue (entries cards') k)
    (hs : SameBare keys cards cards') {k : Str} (hk : keys k) : SameAt m m' k := by
  unfold SameAt
  rw [h, h']
  exact hs k hk

/-- **C92, images.** Two headers that give the same values to `BITPIX`, `NAXIS` and the `NAXISn` are both accepted, with the
same layout of the data, or both refused, with the same error. -/
theorem C92_image (body body' : List Card) (hb : Card.end_ ∉ body) (hb' : Card.end_ ∉ body')
    (hs : SameBare (ImageKey (body ++ [.end_])) (body ++ [.end_]) (body' ++ [.end_])) :
    (Header.parse Image.parse (body ++ [.end_])).map (·.xtension) =
      (Header.parse Image.parse (body' ++ [.end_])).map (·.xtension) := by
  obtain ⟨m, hm, hg, -⟩ := header_map body hb
  obtain ⟨m', hm', hg', -⟩ := header_map body' hb'
  rw [header_layout _ hm, header_layout _ hm']
  have al {k : Str} (hk : ImageKey (body ++ [.end_]) k) : SameAt m m' k := SameBare.alike hg hg' hs hk
  exact imageParse_alike (al .bitpix) (al .naxis) fun i hi => al (.axis i (numberIn_eq hg _ ▸ hi))

/-- **C92, ASCII tables.** -/
theorem C92_ascii (body body' : List Card) (hb : Card.end_ ∉ body) (hb' : Card.end_ ∉ body')
    (hs : SameBare (AsciiKey (body ++ [.end_])) (body ++ [.end_]) (body' ++ [.end_])) :
    (Header.parse AsciiTable.parse (body ++ [.end_])).map (·.xtension) =
      (Header.parse AsciiTable.parse (body' ++ [.end_])).map (·.xtension) := by
  obtain ⟨m, hm, hg, -⟩ := header_map body hb
  obtain ⟨m', hm', hg', -⟩ := header_map body' hb'
  rw [header_layout _ hm, header_layout _ hm']
  have al {k : Str} (hk : AsciiKey (body ++ [.end_]) k) : SameAt m m' k := SameBare.alike hg hg' hs hk
  exact asciiParse_alike (al .bitpix) (al .naxis) (al .naxis1) (al .naxis2) (al .pcount) (al .gcount) (al .tfields)
    fun i hi => ⟨al (.tbcol i (numberIn_eq hg _ ▸ hi)), al (.tform i (numberIn_eq hg _ ▸ hi))⟩

/-- **C92, binary tables and compressed images.** -/
theorem C92_bintable (p : Profile) (body body' : List Card) (hb : Card.end_ ∉ body) (hb' : Card.end_ ∉ body')
    (h1 : OneBlockSize (body ++ [.end_]))
    (hs : SameBare (BinKey (body ++ [.end_])) (body ++ [.end_]) (body' ++ [.end_])) :
    (Header.parse (BinTable.parse p) (body ++ [.end_])).map (·.xtension) =
      (Header.parse (BinTable.parse p) (body' ++ [.end_])).map (·.xtension) := by
  obtain ⟨m, hm, hg, hn⟩ := header_map body hb
  obtain ⟨m', hm', hg', hn'⟩ := header_map body' hb'
  rw [header_layout _ hm, header_layout _ hm']
  have al {k : Str} (hk : BinKey (body ++ [.end_]) k) : SameAt m m' k := SameBare.alike hg hg' hs hk
  have hr : riceBlocksize m = riceBlocksize m' := by
    refine riceBlocksize_alike hn hn' ?_ (fun t => al (.zname t)) (fun t => al (.zval t))
    intro t t' c c' g g'
    rw [hg] at g g'
    exact h1 t t' c c' g g'
  exact binParse_alike p (al .bitpix) (al .naxis) (al .naxis1) (al .naxis2) (al .pcount) (al .gcount) (al .tfields)
    (al .theap) (fun i hi => ⟨al (.tform i (numberIn_eq hg _ ▸ hi)), al (.ttype i (numberIn_eq hg _ ▸ hi))⟩)
    (getZCmpType_alike (al .zcmptype) hr) (al .zbitpix) (al .zdither0)
    (getZAxes_alike (al .znaxis) fun i hi => ⟨al (.zaxis i (numberIn_eq hg _ ▸ hi)), al (.ztile i (numberIn_eq hg _ ▸ hi))⟩)

/-- A record of comments, history or blanks, or one that gives no value. -/
def Spec.Commentary : Card → Prop
  | .comment _ | .history _ | .space | .undefined _ => True
  | _ => False

theorem processLoop_commentary {c : Card} (hc : Commentary c) (a b : List Card) (ha : Card.end_ ∉ a) (m : ValueMap)
    (kw : Option Str) : processLoop m kw (a ++ c :: b) = processLoop m kw (a ++ b) := by
  induction a generalizing m kw with
  | nil => cases c <;> first | rfl | exact hc.elim
  | cons d a ih =>
    have ih := ih fun h => ha (List.mem_cons_of_mem _ h)
    cases d with
    | end_ => exact absurd (List.mem_cons_self ..) ha
    | continuation s cm =>
      simp only [List.cons_append, processLoop]
      simp only [ih]
    | _ => exact ih _ _

/-- **C92, commentary.** Records of comments, history or blanks, wherever they are in a header, change neither the values
of its keywords nor the layout, for any kind of HDU. -/
theorem C92_commentary {X : Type} (parse : ValueMap → Res X) (c : Card) (hc : Commentary c) (a b : List Card)
    (ha : Card.end_ ∉ a) :
    (Header.parse parse (a ++ c :: b)).map (fun h => (h.values, h.xtension)) =
      (Header.parse parse (a ++ b)).map (fun h => (h.values, h.xtension)) := by
  unfold Header.parse processCards
  rw [processLoop_commentary hc a b ha]
  cases processLoop [] none (a ++ b) with
  | ok m =>
    show ((parse m).bind _).map _ = ((parse m).bind _).map _
    cases parse m <;> rfl
  | err e => rfl
  | panic => rfl

example : Commentary (.comment "x".toList) ∧ Card.end_ ∉ [Card.value "A".toList (.string "b&".toList none)] := ⟨trivial, by decide⟩

/-- Two headers of the same image: other records, another order, other comments. -/
def layoutCards : List Card :=
  [.value "BITPIX".toList (.integer 16 none), .value "NAXIS".toList (.integer 2 (some "axes".toList)),
    .value "NAXIS1".toList (.integer 3 none), .value "NAXIS2".toList (.integer 4 none)]

def layoutCards' : List Card :=
  [.value "NAXIS1".toList (.integer 7 none), .value "OBJECT".toList (.string "M31".toList none),
    .value "NAXIS2".toList (.integer 4 (some "rows".toList)), .value "NAXIS3".toList (.integer 9 none),
    .value "NAXIS".toList (.integer 2 none), .value "NAXIS1".toList (.integer 3 none), .comment "".toList,
    .value "BITPIX".toList (.integer 16 none), .value "PCOUNT".toList (.integer 5 none)]

example : SameBare (ImageKey (layoutCards ++ [.end_])) (layoutCards ++ [.end_]) (layoutCards' ++ [.end_]) ∧
    (Header.parse Image.parse (layoutCards ++ [.end_])).map (·.xtension) = .ok ⟨.i16, [3, 4]⟩ := by
  refine ⟨?_, by decide +kernel⟩
  intro k hk
  cases hk with
  | bitpix => decide +kernel
  | naxis => decide +kernel
  | axis i hi =>
    rw [show numberOf (layoutCards ++ [.end_]) "NAXIS".toList = 2 by decide +kernel] at hi
    match i, hi with
    | 0, _ => decide +kernel
    | 1, _ => decide +kernel

theorem lastValue_mem {es : List (Str × Value)} {k : Str} {v : Value} (h : lastValue es k = some v) : (k, v) ∈ es := by
  unfold lastValue at h
  obtain ⟨e, he, rfl⟩ := Option.map_eq_some_iff.1 h
  have hm := List.mem_filter.1 (List.mem_of_getLast? he)
  have : e.1 = k := by simpa using hm.2
  rw [← this]
  exact hm.1

/-- A record with another keyword, at the beginning. -/
theorem SameBare.extra {keys : Str → Prop} {n : Str} (hn : ¬ keys n) (v : Value) (cards : List Card) :
    SameBare keys cards (.value n v :: cards) := by
  intro k hk
  rw [show entries (.value n v :: cards) = (n, extend v cards) :: entries cards from rfl, lastValue_cons,
    if_neg (by rintro rfl; exact hn hk), Option.or_none]

/-- The header of an ASCII table. -/
def asciiCards : List Card :=
  [.value "BITPIX".toList (.integer 8 none), .value "NAXIS".toList (.integer 2 none), .value "NAXIS1".toList (.integer 6 none),
    .value "NAXIS2".toList (.integer 1 none), .value "PCOUNT".toList (.integer 0 none),
    .value "GCOUNT".toList (.integer 1 none), .value "TFIELDS".toList (.integer 1 none),
    .value "TBCOL1".toList (.integer 1 none), .value "TFORM1".toList (.string "I6".toList none)]

example : SameBare (AsciiKey (asciiCards ++ [.end_])) (asciiCards ++ [.end_])
      (.value "OBJECT".toList (.logical true none) :: asciiCards ++ [.end_]) ∧
    (Header.parse AsciiTable.parse (asciiCards ++ [.end_])).map (·.xtension.tforms) = .ok [.decimalInteger 6] := by
  refine ⟨SameBare.extra ?_ _ _, by decide +kernel⟩
  have : ∀ k, AsciiKey (asciiCards ++ [.end_]) k → k.head? ≠ some 'O' := by
    intro k hk
    cases hk <;> exact fun e => by cases e
  exact fun h => this _ h rfl

/-- Two headers of the same table, with a parameter of the compression. -/
def tableCards : List Card :=
  [.value "BITPIX".toList (.integer 8 none), .value "NAXIS".toList (.integer 2 none), .value "NAXIS1".toList (.integer 2 none),
    .value "NAXIS2".toList (.integer 1 none), .value "PCOUNT".toList (.integer 0 none),
    .value "GCOUNT".toList (.integer 1 none), .value "TFIELDS".toList (.integer 1 none),
    .value "TFORM1".toList (.string "1I".toList none), .value "ZNAME1".toList (.string "BLOCKSIZE".toList none),
    .value "ZVAL1".toList (.integer 16 none)]

def tableCards' : List Card :=
  (Card.value "ZVAL1".toList (.integer 16 (some "pixels".toList)) :: .value "OBJECT".toList (.string "x".toList none) ::
    tableCards.take 9).reverse

theorem tableCards_keys : ((entries (tableCards ++ [.end_])).map fun e => (e.1, bare e.2)).all fun e =>
    (lastValue (entries (tableCards' ++ [.end_])) e.1).map bare = some e.2 ∧
      (lastValue (entries (tableCards ++ [.end_])) e.1).map bare = some e.2 := by decide +kernel

theorem tableCards_keys' : ((entries (tableCards' ++ [.end_])).all fun e => e.1.head? = some 'O' ∨
    e.1 ∈ (entries (tableCards ++ [.end_])).map Prod.fst) := by decide +kernel

example : OneBlockSize (tableCards ++ [.end_]) ∧
    SameBare (BinKey (tableCards ++ [.end_])) (tableCards ++ [.end_]) (tableCards' ++ [.end_]) ∧
    (Header.parse (BinTable.parse .checked) (tableCards' ++ [.end_])).map (·.xtension.tforms) = .ok [.plain .I 1] := by
  refine ⟨?_, ?_, by decide +kernel⟩
  · intro t t' c c' h h'
    have one : ∀ {t c}, lastValue (entries (tableCards ++ [.end_])) ("ZNAME".toList ++ t) = some (.string "BLOCKSIZE".toList c) →
        t = ['1'] := by
      intro t c h
      have hm := lastValue_mem h
      have hk : ∀ e ∈ entries (tableCards ++ [.end_]), e.1.take 5 = "ZNAME".toList → e.1.drop 5 = ['1'] := by decide +kernel
      exact hk _ hm rfl
    rw [one h, one h']
  · intro k hk
    have h2 : k.head? ≠ some 'O' := by
      cases hk <;> exact fun e => by cases e
    have a1 := List.all_eq_true.1 tableCards_keys
    have a2 := List.all_eq_true.1 tableCards_keys'
    have found : ∀ e ∈ entries (tableCards ++ [.end_]), e.1 = k →
        (lastValue (entries (tableCards ++ [.end_])) k).map bare = (lastValue (entries (tableCards' ++ [.end_])) k).map bare := by
      rintro e he rfl
      have := a1 _ (List.mem_map_of_mem (f := fun e => (e.1, bare e.2)) he)
      simp only [decide_eq_true_eq] at this
      rw [this.1, this.2]
    cases h : lastValue (entries (tableCards ++ [.end_])) k with
    | some v => rw [← h]; exact found _ (lastValue_mem h) rfl
    | none =>
      rw [← h]
      cases h' : lastValue (entries (tableCards' ++ [.end_])) k with
      | none => rw [h]
      | some v =>
        have := a2 _ (lastValue_mem h')
        simp only [decide_eq_true_eq] at this
        rcases this with e | e
        · exact absurd e h2
        · obtain ⟨e, he, hk⟩ := List.mem_map.1 e
          rw [← h']
          exact found e he hk

end Fitsrs

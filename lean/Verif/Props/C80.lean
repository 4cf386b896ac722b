import Verif.Props.C57
import Verif.Props.C71_C72
/-
C80: written files, read from an asynchronous source.
-/

namespace Fitsrs
open Spec Fut

/-! ### Specification -/

/-- What a caller of the asynchronous streams sees. -/
inductive Spec.ASeen where
  | hdu (r : StreamPoll AHdu)
  | item (r : StreamPoll Pixel)
  deriving DecidableEq

/-- The results of `k` calls of `poll_next` on a stream of values. -/
def St.seen (p : Profile) : Nat → St → List (StreamPoll Pixel)
  | 0, _ => []
  | k + 1, s => (s.pollNext p).1 :: St.seen p k (s.pollNext p).2

/-- A caller that asks for an HDU and for `k` of its values, for the successive `k` of a list, and then for one more HDU.
It stops at the first result that is not an HDU. -/
def AFits.visit (p : Profile) : List Nat → AFits → List ASeen
  | [], f => [.hdu (f.pollNext p).1]
  | k :: ks, f =>
    match f.pollNext p with
    | (.ready (some (.ok h)), f) =>
      .hdu (.ready (some (.ok h))) :: ((f.dataOf h).seen p k).map .item ++ visit p ks (f.giveBack ((f.dataOf h).takeN p k))
    | (r, _) => [.hdu r]

/-- What the `i`-th call of `poll_next` on the stream of a data unit should give: the pixels of an image, the bytes of a
table of any kind. -/
def Spec.Body.streamed (i : Nat) : Body → Option Pixel
  | .image _ _ ps => ps[i]?
  | b => b.data[i]?.map fun x => .u8 x.toNat

/-- What the caller should see. -/
def Spec.seenStream : List Nat → List WrittenHdu → List HDU → List ASeen
  | k :: ks, u :: us, h :: hs =>
    .hdu (.ready (some (.ok h.forget))) ::
      (List.range k).map (fun i => .item (.ready ((u.body.streamed i).map .ok))) ++ seenStream ks us hs
  | _, _, _ => [.hdu (.ready none)]

/-- No bytes after the last block. -/
def Spec.NothingAfter (us : List WrittenHdu) : Prop :=
  ∀ u ∈ us, u.body.data.length + u.dataFill.length ≤ roundUp2880 u.body.data.length

/-! ### The values of a data unit -/

/-- The `i`-th value of type `ty` of `rem` bytes at `pos`. -/
def itemAt (ty : Bitpix) (data : List UInt8) (pos rem i : Nat) : Option Pixel :=
  if (i + 1) * pixelSize ty ≤ rem then some (Pixel.ofBytes ty ((data.drop (pos + i * pixelSize ty)).take (pixelSize ty)))
  else none

theorem St.seen_items {p : Profile} {data : List UInt8} (k : Nat) :
    ∀ (s : St) (pos : Nat), Spec.Ready s.rd.events → s.rd.bytes = data.drop pos → pixelSize s.ty ∣ s.remaining →
      pos + s.remaining ≤ data.length →
      s.seen p k = (List.range k).map fun i => .ready ((itemAt s.ty data pos s.remaining i).map .ok) := by
  induction k with
  | zero => intro s pos _ _ _ _; rfl
  | succ k ih =>
    intro s pos h1 h2 h3 h4
    have hpos := pixelSize_pos s.ty
    rw [List.range_succ_eq_map, List.map_cons, List.map_map]
    unfold St.seen
    by_cases hz : s.remaining = 0
    · rw [St.pollNext_end hz, ih s pos h1 h2 h3 h4]
      have hnone : ∀ i, itemAt s.ty data pos s.remaining i = none := by
        intro i
        unfold itemAt
        rw [if_neg]
        rw [hz]
        have := Nat.mul_le_mul (Nat.le_add_left 1 i) hpos
        omega
      congr 1
      · rw [hnone]; rfl
      · apply List.map_congr_left
        intro i _
        simp only [Function.comp_apply]
        rw [hnone, hnone]
    · have hle : pixelSize s.ty ≤ s.remaining := Nat.le_of_dvd (by omega) h3
      have hsees : Sees s.rd (pixelSize s.ty) (data.drop pos) := by
        have := Sees.of_ready h1 (pixelSize s.ty)
        rw [h2] at this
        exact this
      obtain ⟨r', g1, g2⟩ := St.pollNext_ok (p := p) hsees hle (by rw [List.length_drop]; omega) (Nat.le_refl _)
      have k1 := St.pollNext_keeps (p := p) (s := s) (P := fun r => Spec.Ready r.events) (fun _ _ _ h => poll_ready_events h) h1
      rw [g1] at k1 ⊢
      dsimp only at k1 ⊢
      rw [ih ⟨s.ty, r', s.remaining - pixelSize s.ty⟩ (pos + pixelSize s.ty) k1
        (by rw [g2.bytes, List.drop_drop]) (Nat.dvd_sub h3 (Nat.dvd_refl _)) (by dsimp only; omega)]
      congr 1
      · unfold itemAt
        rw [if_pos (by omega), Nat.zero_mul, Nat.add_zero]
        rfl
      · apply List.map_congr_left
        intro i _
        simp only [Function.comp_apply]
        congr 2
        unfold itemAt
        have e : (i + 1) * pixelSize s.ty = i * pixelSize s.ty + pixelSize s.ty := Nat.succ_mul _ _
        have e2 : (i.succ + 1) * pixelSize s.ty = i * pixelSize s.ty + pixelSize s.ty + pixelSize s.ty := by
          rw [Nat.succ_mul, Nat.succ_mul]
        rw [e2, e]
        generalize i * pixelSize s.ty = m
        by_cases hm : m + pixelSize s.ty + pixelSize s.ty ≤ s.remaining
        · rw [if_pos hm, if_pos (by omega), show pos + pixelSize s.ty + m = pos + (m + pixelSize s.ty) by omega]
        · rw [if_neg hm, if_neg (by omega)]

/-- The values of an array of pixels. -/
theorem itemAt_array {b : Bitpix} {ps : List Pixel} (h : ∀ v ∈ ps, PixelOk b v) (A C : List UInt8) (i : Nat) :
    itemAt b (A ++ (arrayBytes ps ++ C)) A.length (arrayBytes ps).length i = ps[i]? := by
  have hl := arrayBytes_length h
  have hpos := pixelSize_pos b
  unfold itemAt
  by_cases hi : i < ps.length
  · have h1 : (i + 1) * pixelSize b ≤ (arrayBytes ps).length := by
      rw [hl]; exact Nat.mul_le_mul_right _ hi
    rw [if_pos h1, List.getElem?_eq_getElem hi]
    congr 1
    rw [← List.drop_drop, List.drop_left]
    have h2 : (i + 1) * pixelSize b = i * pixelSize b + pixelSize b := Nat.succ_mul _ _
    rw [List.drop_append_of_le_length (by omega), List.take_append_of_le_length (by rw [List.length_drop]; omega),
      arrayBytes_get h i hi]
    exact ofBytes_pixelBytes (h _ (List.getElem_mem hi))
  · rw [if_neg, List.getElem?_eq_none (by omega)]
    rw [hl]
    intro h1
    have := Nat.le_of_mul_le_mul_right h1 hpos
    omega

theorem bytes_array (bs : List UInt8) : arrayBytes (bs.map fun x => .u8 x.toNat) = bs := by
  induction bs with
  | nil => rfl
  | cons x xs ih =>
    rw [List.map_cons, show arrayBytes (.u8 x.toNat :: xs.map fun x => .u8 x.toNat) =
      pixelBytes (.u8 x.toNat) ++ arrayBytes (xs.map fun x => .u8 x.toNat) from rfl, ih]
    show UInt8.ofNat _ :: xs = _
    congr 1
    have := x.toNat_lt
    simp

theorem itemAt_bytes (bs A C : List UInt8) (i : Nat) :
    itemAt .u8 (A ++ (bs ++ C)) A.length bs.length i = bs[i]?.map fun x => .u8 x.toNat := by
  have h : ∀ v ∈ bs.map (fun x => Pixel.u8 x.toNat), PixelOk .u8 v := by
    intro v hv
    obtain ⟨x, -, rfl⟩ := List.mem_map.1 hv
    exact x.toNat_lt
  have := itemAt_array h A C i
  rw [bytes_array] at this
  rw [this, List.getElem?_map]

/-- The values of a data unit, from its bytes. -/
theorem streamed_eq {u : WrittenHdu} {h : HDU} (hd : u.body.Described u.heading) (hsh : u.body.Shown u.heading h)
    (f : AFits) (A C : List UInt8) (i : Nat) :
    itemAt (f.dataOf h.forget).ty (A ++ (u.body.data ++ C)) A.length u.body.data.length i = u.body.streamed i := by
  cases hb : u.body with
  | image b axes ps =>
    rw [hb] at hd hsh
    have hok : ∀ v ∈ ps, PixelOk b v := hd.2.2.2.1
    have hty : (f.dataOf h.forget).ty = b := by
      cases h with
      | primary x => show x.header.xtension.bitpix = b; rw [show x.header.xtension = _ from hsh]
      | image x => show x.header.xtension.bitpix = b; rw [show x.header.xtension = _ from hsh]
      | binTable x => exact hsh.elim
      | asciiTable x => exact hsh.elim
    rw [hty]
    exact itemAt_array hok A C i
  | ascii a b c t =>
    rw [hb] at hsh
    have hty : (f.dataOf h.forget).ty = .u8 := by
      cases h with
      | primary x => exact hsh.elim
      | image x => exact hsh.elim
      | binTable x => rfl
      | asciiTable x => rfl
    rw [hty]
    exact itemAt_bytes _ A C i
  | table t =>
    rw [hb] at hsh
    have hty : (f.dataOf h.forget).ty = .u8 := by
      cases h with
      | primary x => exact hsh.elim
      | image x => exact hsh.elim
      | binTable x => rfl
      | asciiTable x => rfl
    rw [hty]
    exact itemAt_bytes _ A C i
  | tiles w =>
    rw [hb] at hsh
    have hty : (f.dataOf h.forget).ty = .u8 := by
      cases h with
      | primary x => exact hsh.elim
      | image x => exact hsh.elim
      | binTable x => rfl
      | asciiTable x => rfl
    rw [hty]
    exact itemAt_bytes _ A C i

/-! ### Walking the file -/

theorem Spec.File.described {primary : Bool} {us : List WrittenHdu} (hf : File primary us) :
    ∀ u ∈ us, u.body.Described u.heading := by
  induction hf with
  | last hl _ =>
    intro v hv
    rw [List.mem_singleton.1 hv]
    exact hl.described
  | cons hl _ _ ih =>
    intro v hv
    rcases List.mem_cons.1 hv with rfl | hv
    · exact hl.described
    · exact ih v hv

theorem visit_ok {p : Profile} {a a' : AFits} {h : AHdu} {k : Nat} {ks : List Nat}
    (hp : a.pollNext p = (.ready (some (.ok h)), a')) :
    AFits.visit p (k :: ks) a = .hdu (.ready (some (.ok h))) :: ((a'.dataOf h).seen p k).map .item ++
      AFits.visit p ks (a'.giveBack ((a'.dataOf h).takeN p k)) := by
  conv => lhs; unfold AFits.visit
  rw [hp]

theorem visit_end {p : Profile} {data : List UInt8} {pos : Nat} {a : AFits} (hst : a.start = false)
    (her : a.errored = false) (hr : Spec.Ready a.rd.events) (hb : a.rd.bytes = data.drop pos)
    (h1 : a.remaining ≤ data.length - pos)
    (h2 : data.length ≤ pos + (a.remaining + (roundUp2880 a.numBytes - a.numBytes))) :
    AFits.visit p [] a = [.hdu (.ready none)] := by
  have hsees : Sees a.rd (data.length + 1) (data.drop pos) := by
    have := Sees.of_ready hr (data.length + 1)
    rw [hb] at this
    exact this
  obtain ⟨a', ha⟩ := pollNext_none (p := p) hst her hsees h1 h2 (by omega)
  unfold AFits.visit
  rw [ha]

/-- The values seen of an HDU. -/
theorem seen_of {p : Profile} {u : WrittenHdu} {h : HDU} (hd : u.body.Described u.heading)
    (hsh : u.body.Shown u.heading h) (hsz : h.dataSize p = .ok u.segment.data.length) {A C : List UInt8}
    (hoff : h.dataOffset = A.length) {r' : AReader} (hr : Spec.Ready r'.events)
    (hb : r'.bytes = (A ++ (u.segment.data ++ C)).drop h.dataOffset) (k : Nat) (a' : AFits)
    (ha : a' = { start := false, remaining := u.segment.data.length, numBytes := u.segment.data.length, errored := false, rd := r' }) :
    ((a'.dataOf h.forget).seen p k).map ASeen.item =
      (List.range k).map (fun i => .item (.ready ((u.body.streamed i).map .ok))) := by
  have hrd : (a'.dataOf h.forget).rd = r' := by rw [ha]; cases h <;> rfl
  have hrem : (a'.dataOf h.forget).remaining = u.segment.data.length := by rw [ha]; cases h <;> rfl
  rw [St.seen_items (p := p) (data := A ++ (u.segment.data ++ C)) k (a'.dataOf h.forget) h.dataOffset (by rw [hrd]; exact hr)
    (by rw [hrd]; exact hb) (by rw [hrem]; exact dataOf_dvd hsz a')
    (by rw [hrem, hoff]; simp only [List.length_append]; omega), List.map_map]
  apply List.map_congr_left
  intro i _
  simp only [Function.comp_apply]
  rw [hrem, hoff]
  exact congrArg (fun x => ASeen.item (.ready (Option.map Res.ok x))) (streamed_eq hd hsh a' A C i)

/-- The HDUs after the current one. -/
theorem visit_stream {p : Profile} {segs : List Segment} {hs : List HDU} {first : Bool} {o : Nat}
    (hf : FileOf p first o segs hs) (hfirst : first = false) (us : List WrittenHdu) (hus : segs = us.map WrittenHdu.segment)
    (hd : ∀ u ∈ us, u.body.Described u.heading) (hsh : ShownAll first o us hs) (A : List UInt8) (hA : A.length = o)
    (hns : NothingAfter us) (data : List UInt8)
    (hdat : data = A ++ (segs.map Segment.bytes).flatten) (pos : Nat)
    (a : AFits) (hst : a.start = false) (her : a.errored = false) (hr : Spec.Ready a.rd.events)
    (hb : a.rd.bytes = data.drop pos) (hT : pos + (a.remaining + (roundUp2880 a.numBytes - a.numBytes)) = o)
    (ks : List Nat) (hk : ks.length = us.length) :
    AFits.visit p ks a = seenStream ks us hs := by
  have hsees : ∀ k, Sees a.rd k (data.drop pos) := by
    intro k
    have := Sees.of_ready hr k
    rw [hb] at this
    exact this
  induction hf generalizing A pos a ks us with
  | @last first o s h hh hdsc hfill =>
    subst hfirst
    obtain ⟨u, rfl, rfl⟩ : ∃ u, us = [u] ∧ s = u.segment := by
      match us, hus with
      | [u], hus => exact ⟨u, rfl, by cases hus; rfl⟩
    have hoff := hdsc.offset
    have hsz := hdsc.size
    have hns : u.segment.data.length + u.segment.dataFill.length ≤ roundUp2880 u.segment.data.length :=
      hns u (List.mem_singleton.2 rfl)
    subst hA
    obtain ⟨k, rfl⟩ : ∃ k, ks = [k] := by
      match ks, hk with
      | [k], _ => exact ⟨k, rfl⟩
    have hdata : data = A ++ u.segment.header ++ (u.segment.data ++ u.segment.dataFill) := by
      rw [hdat]; simp [Segment.bytes]
    have hlen : data.length = A.length + u.segment.header.length + u.segment.data.length + u.segment.dataFill.length := by
      rw [hdata]; simp only [List.length_append]; omega
    have hext := extensionAt_segment (C := u.segment.data ++ u.segment.dataFill) hh hdsc
    rw [← hdata, ← hT] at hext
    obtain ⟨r', g1, g2⟩ := pollNext_ok (p := p) hst her (hsees (h.dataOffset - pos)) hext hsz (Nat.le_refl _)
    have k1 := pollNext_keeps (p := p) (a := a) (P := fun r => Spec.Ready r.events) (fun _ _ _ h => poll_ready_events h) hr
    rw [g1] at k1
    dsimp only at k1
    obtain ⟨hu, hsh⟩ : ShownAs false A.length u h ∧ ShownAll false (A.length + u.segment.bytes.length) [] [] := by
      cases hsh with
      | cons x y => exact ⟨x, y⟩
    rw [visit_ok g1, seen_of (A := A ++ u.segment.header) (C := u.segment.dataFill) (hd u (by simp)) hu.body hsz
      (by rw [hoff, List.length_append]) k1 (by rw [g2.bytes, hdata]) k _ rfl]
    generalize hg : AFits.giveBack _ _ = g
    obtain ⟨j, j1, j2, j3, j4, j5, j6, j7⟩ := taken hsz k1 g2.bytes (by omega) k g _ rfl hg.symm
    rw [visit_end (pos := h.dataOffset + j) (data := data) j2 j3 j6 j7 (by rw [j5]; omega) (by
      rw [j4, j5]; have := roundUp2880_ge u.segment.data.length; omega)]
    rfl
  | @cons first o s h ss hs hh hdsc hdok hrest ih =>
    subst hfirst
    obtain ⟨u, us, rfl, rfl, rfl⟩ : ∃ u us', us = u :: us' ∧ s = u.segment ∧ ss = us'.map WrittenHdu.segment := by
      match us, hus with
      | u :: us, hus => exact ⟨u, us, rfl, by cases hus; rfl, by cases hus; rfl⟩
    have hoff := hdsc.offset
    have hsz := hdsc.size
    subst hA
    obtain ⟨k, ks, rfl⟩ : ∃ k ks', ks = k :: ks' := by
      cases ks with
      | nil => simp at hk
      | cons a b => exact ⟨a, b, rfl⟩
    generalize hrst : ((us.map WrittenHdu.segment).map Segment.bytes).flatten = rst at *
    have hdat' : data = A ++ (u.segment.bytes ++ rst) := by
      rw [hdat, List.map_cons, List.flatten_cons, hrst]
    have hdata : data = A ++ u.segment.header ++ (u.segment.data ++ u.segment.dataFill ++ rst) := by
      rw [hdat']; simp [Segment.bytes]
    have hbl : u.segment.bytes.length = u.segment.header.length + u.segment.data.length + u.segment.dataFill.length := by
      simp only [Segment.bytes, List.length_append]
    have hlen : data.length = A.length + u.segment.bytes.length + rst.length := by
      rw [hdat']; simp only [List.length_append]; omega
    have hge := roundUp2880_ge u.segment.data.length
    unfold Segment.DataOk at hdok
    have hext := extensionAt_segment (C := u.segment.data ++ u.segment.dataFill ++ rst) hh hdsc
    rw [← hdata, ← hT] at hext
    obtain ⟨r', g1, g2⟩ := pollNext_ok (p := p) hst her (hsees (h.dataOffset - pos)) hext hsz (Nat.le_refl _)
    have k1 := pollNext_keeps (p := p) (a := a) (P := fun r => Spec.Ready r.events) (fun _ _ _ h => poll_ready_events h) hr
    rw [g1] at k1
    dsimp only at k1
    obtain ⟨hu, hsh⟩ : ShownAs false A.length u h ∧ ShownAll false (A.length + u.segment.bytes.length) us hs := by
      cases hsh with
      | cons x y => exact ⟨x, y⟩
    rw [visit_ok g1, seen_of (A := A ++ u.segment.header) (C := u.segment.dataFill ++ rst) (hd u (by simp)) hu.body hsz
      (by rw [hoff, List.length_append]) k1 (by rw [g2.bytes, hdata, List.append_assoc u.segment.data]) k _ rfl]
    generalize hg : AFits.giveBack _ _ = g
    obtain ⟨j, j1, j2, j3, j4, j5, j6, j7⟩ := taken hsz k1 g2.bytes (by omega) k g _ rfl hg.symm
    rw [ih rfl us rfl (fun v hv => hd v (by simp [hv])) hsh (A ++ u.segment.bytes) (by simp)
      (fun v hv => hns v (List.mem_cons_of_mem _ hv)) (by rw [hdat']; simp)
      (h.dataOffset + j) g j2 j3 j6 j7 (by rw [j4, j5]; omega) ks (by simpa using hk) (by
        intro k
        have := Sees.of_ready j6 k
        rw [j7] at this
        exact this)]
    rfl

/-- **C80.**  A written file of images, ASCII tables, binary tables and tile-compressed images, delivered by an asynchronous
source that is always ready, in buffers of any sizes, is read back as written: a caller that takes any number of values
of each HDU before it asks for the next sees the HDUs as written, with the pixels of the images and the bytes of the
tables, and then the end of the file. -/
theorem C80_stream (p : Profile) (us : List WrittenHdu) (hf : File true us) (hw : ∀ u ∈ us, u.body.Whole)
    (hn : NothingAfter us) (hsize : (fileBytes us).length < 2 ^ 63) :
    ∃ hs, ShownAll true 0 us hs ∧ ∀ (r : AReader), Spec.Ready r.events → r.bytes = fileBytes us → ∀ (ks : List Nat),
      ks.length = us.length → AFits.visit p ks (AFits.fromReader r) = seenStream ks us hs := by
  obtain ⟨hs, h1, h2⟩ := hf.fileOf (p := p) hw hsize 0
  refine ⟨hs, h2, fun r hr hb ks hk => ?_⟩
  have hd := hf.described
  rw [show fileBytes us = ((us.map WrittenHdu.segment).map Segment.bytes).flatten by rw [List.map_map]; rfl] at hb
  generalize hdd : r.bytes = data at hb
  have hsees : ∀ k, Sees r k data := by
    intro k
    have := Sees.of_ready hr k
    rw [hdd] at this
    exact this
  generalize hss : us.map WrittenHdu.segment = segs at h1 hb
  cases h1 with
  | @last _ _ s h hh hdsc hfill =>
    obtain ⟨u, rfl, rfl⟩ : ∃ u, us = [u] ∧ s = u.segment := by
      match us, hss with
      | [u], hus => exact ⟨u, rfl, by cases hus; rfl⟩
    have hoff := hdsc.offset
    have hsz := hdsc.size
    have hns : u.segment.data.length + u.segment.dataFill.length ≤ roundUp2880 u.segment.data.length :=
      hn u (List.mem_singleton.2 rfl)
    obtain ⟨k, rfl⟩ : ∃ k, ks = [k] := by
      match ks, hk with
      | [k], _ => exact ⟨k, rfl⟩
    have hdata : data = u.segment.header ++ (u.segment.data ++ u.segment.dataFill) := by
      rw [hb]; simp [Segment.bytes]
    have hlen : data.length = u.segment.header.length + u.segment.data.length + u.segment.dataFill.length := by
      rw [hdata]; simp only [List.length_append]; omega
    have hnext := newPrimary_segment (C := u.segment.data ++ u.segment.dataFill) hh hdsc
    rw [← hdata] at hnext
    obtain ⟨r', g1, g2⟩ := pollNext_first (p := p) (a := AFits.fromReader r) rfl rfl (hsees h.dataOffset) hnext hsz
      (Nat.le_refl _)
    have k1 := pollNext_keeps (p := p) (a := AFits.fromReader r) (P := fun r => Spec.Ready r.events)
      (fun _ _ _ h => poll_ready_events h) hr
    rw [g1] at k1
    dsimp only at k1
    have hu : ShownAs true 0 u h := by
      cases h2 with
      | cons x y => exact x
    rw [visit_ok g1, seen_of (A := u.segment.header) (C := u.segment.dataFill) (hd u (by simp)) hu.body hsz
      (by rw [hoff, Nat.zero_add]) k1 (by rw [g2.bytes, hdata]) k _ rfl]
    generalize hg : AFits.giveBack _ _ = g
    obtain ⟨j, j1, j2, j3, j4, j5, j6, j7⟩ := taken hsz k1 g2.bytes (by omega) k g _ rfl hg.symm
    rw [visit_end (pos := h.dataOffset + j) (data := data) j2 j3 j6 j7 (by rw [j5]; omega) (by
      rw [j4, j5]; have := roundUp2880_ge u.segment.data.length; omega)]
    rfl
  | @cons _ _ s h ss hs hh hdsc hdok hrest =>
    obtain ⟨u, us, rfl, rfl, rfl⟩ : ∃ u us', us = u :: us' ∧ s = u.segment ∧ ss = us'.map WrittenHdu.segment := by
      match us, hss with
      | u :: us, hus => exact ⟨u, us, rfl, by cases hus; rfl, by cases hus; rfl⟩
    have hoff := hdsc.offset
    have hsz := hdsc.size
    obtain ⟨k, ks, rfl⟩ : ∃ k ks', ks = k :: ks' := by
      cases ks with
      | nil => simp at hk
      | cons a b => exact ⟨a, b, rfl⟩
    rw [List.map_cons, List.flatten_cons] at hb
    have hdata : data = u.segment.header ++ (u.segment.data ++ u.segment.dataFill ++
        ((us.map WrittenHdu.segment).map Segment.bytes).flatten) := by
      rw [hb]; simp [Segment.bytes]
    have hbl : u.segment.bytes.length = u.segment.header.length + u.segment.data.length + u.segment.dataFill.length := by
      simp only [Segment.bytes, List.length_append]
    have hlen : data.length = u.segment.bytes.length +
        (((us.map WrittenHdu.segment).map Segment.bytes).flatten).length := by
      rw [hb]; simp only [List.length_append]
    have hge := roundUp2880_ge u.segment.data.length
    unfold Segment.DataOk at hdok
    have hnext := newPrimary_segment (C := u.segment.data ++ u.segment.dataFill ++
      ((us.map WrittenHdu.segment).map Segment.bytes).flatten) hh hdsc
    rw [← hdata] at hnext
    obtain ⟨r', g1, g2⟩ := pollNext_first (p := p) (a := AFits.fromReader r) rfl rfl (hsees h.dataOffset) hnext hsz
      (Nat.le_refl _)
    have k1 := pollNext_keeps (p := p) (a := AFits.fromReader r) (P := fun r => Spec.Ready r.events)
      (fun _ _ _ h => poll_ready_events h) hr
    rw [g1] at k1
    dsimp only at k1
    obtain ⟨hu, h2⟩ : ShownAs true 0 u h ∧ ShownAll false (0 + u.segment.bytes.length) us hs := by
      cases h2 with
      | cons x y => exact ⟨x, y⟩
    rw [visit_ok g1, seen_of (A := u.segment.header) (C := u.segment.dataFill ++
      ((us.map WrittenHdu.segment).map Segment.bytes).flatten) (hd u (by simp)) hu.body hsz
      (by rw [hoff, Nat.zero_add]) k1 (by rw [g2.bytes, hdata, List.append_assoc u.segment.data]) k _ rfl]
    generalize hg : AFits.giveBack _ _ = g
    obtain ⟨j, j1, j2, j3, j4, j5, j6, j7⟩ := taken hsz k1 g2.bytes (by omega) k g _ rfl hg.symm
    rw [visit_stream hrest rfl us rfl (fun v hv => hd v (by simp [hv])) h2 u.segment.bytes (by omega)
      (fun v hv => hn v (List.mem_cons_of_mem _ hv)) data hb (h.dataOffset + j) g j2 j3 j6 j7 (by rw [j4, j5]; omega) ks
      (by simpa using hk)]
    rfl

theorem arrays_whole : writtenArrays.body.Whole := by
  intro r hr
  simp only [WrittenTable.forms, List.map_cons, List.map_nil, WrittenColumn.form, List.mem_cons, List.not_mem_nil,
    or_false] at hr
  rcases hr with hr | hr
  · cases hr
  · cases hr

/-- A file with an image, an ASCII table and a binary table with arrays, for instance. -/
example : ∃ us, File true us ∧ (∀ u ∈ us, u.body.Whole) ∧ NothingAfter us ∧
    us.map (fun u => u.body.streamed 1) = [some (.i16 (-2)), some (.u8 32), some (.u8 0)] :=
  ⟨[writtenPrimary, writtenAscii, writtenArrays],
    .cons writtenPrimary_legal (by decide +kernel) (.cons writtenAscii_legal (by decide +kernel)
      (.last writtenArrays_legal (by decide +kernel))), by
      intro u hu
      simp only [List.mem_cons, List.not_mem_nil, or_false] at hu
      rcases hu with rfl | rfl | rfl
      · trivial
      · trivial
      · exact arrays_whole, by
      unfold NothingAfter
      decide +kernel, by decide +kernel⟩

end Fitsrs

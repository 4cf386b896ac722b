import Verif.Lemmas.WrittenCut
import Verif.Props.C76
/-
C76, exactly: what is read of files with compressed images whose tiles are cut at the edge, in builds without overflow checks.
-/

namespace Fitsrs
open Spec

theorem legibleBy_of {b : Body} (ht : ∀ w, b ≠ .tiles w) {p : Profile} {gz : Gunzip} {fuel : Nat} (h : b.CutBy gz fuel) :
    b.LegibleBy p gz fuel := by
  cases b with
  | tiles w => exact absurd rfl (ht w)
  | image => exact h
  | ascii => exact h
  | table t => exact h

/-- Opening the data unit of an HDU. -/
theorem Spec.ShownAs.opens_cut {gz : Gunzip} {fuel : Nat} {f f' : Fits} {primary : Bool} {o : Nat} {u : WrittenHdu} {h : HDU}
    (hs : ShownAs primary o u h) (hd : u.body.Described u.heading) (hr : u.body.CutBy gz fuel)
    (hg : Extends gz) (hn : f.next .wrapping = (some (.ok h), f'))
    (hz : h.dataSize .wrapping = .ok u.body.data.length) {before after : List UInt8}
    (hf : f.rd.data = before ++ u.body.data ++ after) (hb : before.length = h.dataOffset)
    (hl : f.rd.data.length < 2 ^ 60) :
    ∃ op out R, f'.getData .wrapping h = .ok op ∧ u.body.Gives out ∧ R 0 op ∧
      ReadingTo .wrapping gz fuel f.rd.data out R := by
  have hlen : before.length + u.body.data.length ≤ f.rd.data.length := by
    rw [hf]
    simp only [List.length_append]
    omega
  by_cases ht : ∀ w, u.body ≠ .tiles w
  · obtain ⟨op, R, h1, h2, h3⟩ := hs.opens (p := .wrapping) hd (legibleBy_of ht hr) (.inr ht) hn hz hf hb hl
    exact ⟨op, _, R, h1, .other ht, h2, h3.to (by omega)⟩
  obtain ⟨w, hw⟩ : ∃ w, u.body = .tiles w := Classical.byContradiction fun h => ht fun w e => h ⟨w, e⟩
  have hdrop : f.rd.data.drop h.dataOffset = u.body.data ++ after := by
    rw [hf, ← hb, List.append_assoc, List.drop_left']
    rfl
  have hbody := hs.body
  have hval := hs.values
  rw [hw] at hd hr hz hlen hdrop hbody
  rw [hw]
  obtain ⟨x, rfl⟩ : ∃ x, h = .binTable x := by
    cases h with
    | binTable x => exact ⟨x, rfl⟩
    | _ => exact hbody.elim
  have hbody' := hbody
  obtain ⟨⟨g1, -, g2, g3, g4, g6, -⟩, -⟩ : _ ∧ _ := hbody
  have hd' := hd
  obtain ⟨⟨k1, k2, k3, k4, -, k7⟩, -⟩ : _ ∧ _ := hd
  have hmain : w.table.main.length = x.header.xtension.naxis1 * x.header.xtension.naxis2 := by
    rw [main_length k7, g2, g3, Nat.mul_comm]
  have hdl : (Body.tiles w).data.length =
      x.header.xtension.naxis1 * x.header.xtension.naxis2 + w.table.gap.length + w.table.heap.length := by
    show (w.table.main ++ w.table.gap ++ w.table.heap).length = _
    rw [List.length_append, List.length_append, hmain]
  have hoff : HDU.dataOffset (.binTable x) = x.dataOffset := rfl
  have hlegal : Legal x.header.xtension f.rd.data x.dataOffset :=
    ⟨by
      rw [g1]
      unfold WrittenTable.forms
      intro h0
      exact k2 (List.map_eq_nil_iff.1 h0), by rw [g1]; exact g2, by rw [g2]; exact k3, by omega, hl⟩
  obtain ⟨it, z, out, R, hzi, hget, h1, h2, h3⟩ := tiles_open_cut hn hbody' hval hd' hr hg hlegal
    (after := after) (by rw [← hoff, hdrop]; rfl) (by unfold Complete; omega) (by omega)
  refine ⟨.tiles it, out, R, ?_, h1, h2, h3⟩
  unfold Fits.getData
  dsimp only
  rw [hzi]
  dsimp only
  rw [hget]
  rfl

/-- The iterator is about to return the HDU at offset `o`, the reader being anywhere. -/
def Spec.Anywhere (primary : Bool) (o : Nat) (data : List UInt8) (f : Fits) : Prop :=
  f.rd.data = data ∧ f.errored = false ∧
  if primary then f.start = true ∧ f.rd.pos = o
  else f.start = false ∧ f.rd.pos < 2 ^ 63 ∧ f.posStart + roundUp2880 f.numBytes = o

theorem next_from_anywhere {primary : Bool} {A C data : List UInt8} {s : Segment} {h : HDU} {f : Fits}
    (hf : Anywhere primary A.length data f) (hd : data = A ++ s.bytes ++ C) (hs : s.HeaderOk)
    (hdsc : Describes .wrapping A.length s primary h) (hl : data.length < 2 ^ 60) :
    ∃ f', f.next .wrapping = (some (.ok h), f') ∧ f'.rd = ⟨data, h.dataOffset⟩ ∧ f'.start = false ∧ f'.errored = false ∧
      f'.posStart = h.dataOffset ∧ f'.numBytes = s.data.length := by
  cases primary with
  | true => exact next_about (p := .wrapping) (primary := true) hf hd hs hdsc hl
  | false =>
    obtain ⟨h1, h2, g1, g2, g3⟩ : _ ∧ _ ∧ _ ∧ _ ∧ _ := hf
    have hlen : A.length ≤ data.length := by rw [hd]; simp only [List.length_append]; omega
    have hge := roundUp2880_ge f.numBytes
    -- the same as from the beginning of the last data unit
    have e : f.next .wrapping = Fits.next .wrapping { f with rd := ⟨data, f.posStart⟩ } := by
      have hc := Fits.consumeUntilNextHdu_wrapping (f := f) g2 (by omega)
      have hc' := Fits.consumeUntilNextHdu_wrapping (f := { f with rd := ⟨data, f.posStart⟩ }) (by dsimp only; omega)
        (by dsimp only; omega)
      rw [Fits.next_of_skip g1 h2 hc, Fits.next_of_skip (f := { f with rd := ⟨data, f.posStart⟩ }) g1 h2 hc']
      dsimp only
      rw [h1]
    rw [e]
    exact next_about (p := .wrapping) (primary := false) (f := { f with rd := ⟨data, f.posStart⟩ })
      ⟨rfl, h2, g1, Nat.le_refl _, Nat.le_add_right _ _, g3⟩ hd hs hdsc hl

/-- One HDU. -/
theorem visit_one_cut {primary : Bool} {A C data : List UInt8} {u : WrittenHdu} {h : HDU}
    (hd : data = A ++ u.segment.bytes ++ C) (hl : u.Legal primary) (hb : data.length < 2 ^ 60)
    (hdsc : Describes .wrapping A.length u.segment primary h) (hsh : ShownAs primary A.length u h) (gz : Gunzip)
    (fuel : Nat) (hr : u.body.CutBy gz fuel) (hg : Extends gz) :
    ∃ out, u.body.Gives out ∧ ∀ s : Session, Anywhere primary A.length data s.close.fits → ∀ k, (∀ j ≤ k, out.limit j) →
    ∃ s' : Session, (∀ cs, s.run .wrapping gz fuel (.hdu :: .getData 0 :: (List.replicate k .next ++ cs)) =
        some (.ok (.hdu (some h))) :: some (.ok .unit) ::
          ((List.range k).map (fun i => some (.ok (out.item i))) ++ s'.run .wrapping gz fuel cs)) ∧
      s'.close.fits.rd.data = data ∧ s'.close.fits.errored = false ∧ s'.close.fits.start = false ∧
      s'.close.fits.rd.pos < 2 ^ 63 ∧
      s'.close.fits.posStart = A.length + u.segment.header.length ∧ s'.close.fits.numBytes = u.body.data.length := by
  have hoff := hdsc.offset
  obtain ⟨f0, ha0⟩ : ∃ f0, Anywhere primary A.length data f0 := by
    cases primary with
    | true => exact ⟨⟨true, 0, 0, false, ⟨data, A.length⟩⟩, rfl, rfl, rfl, rfl⟩
    | false =>
      have hlen : A.length ≤ data.length := by rw [hd]; simp only [List.length_append]; omega
      exact ⟨⟨false, A.length, 0, false, ⟨data, A.length⟩⟩, rfl, rfl, rfl, by show A.length < _; omega,
        by show A.length + roundUp2880 0 = _; unfold roundUp2880; omega⟩
  obtain ⟨f', e0, g1, g2, g3, g4, g5⟩ := next_from_anywhere ha0 hd hl.headerOk hdsc hb
  have hfd := ha0.1
  obtain ⟨op, out, R, ho, hgo, h0, hR⟩ := hsh.opens_cut hl.described hr hg e0 hdsc.size
    (before := A ++ u.segment.header) (after := u.dataFill ++ C)
    (by
      rw [hfd, hd]
      show A ++ (u.segment.header ++ u.body.data ++ u.dataFill) ++ C = _
      simp only [List.append_assoc])
    (by rw [hoff, List.length_append]) (by rw [hfd]; exact hb)
  refine ⟨out, hgo, fun s hs k hk => ?_⟩
  obtain ⟨f'', e, l1, l2, l3, l4, l5⟩ := next_from_anywhere hs hd hl.headerOk hdsc hb
  obtain rfl : f' = f'' := by
    cases f'
    cases f''
    dsimp only at *
    subst g1 g2 g3 g4 g5 l1 l2 l3 l4 l5
    rfl
  obtain ⟨s', o', k1, k2, k3, -, k5⟩ := session_nexts_to (gz := gz) (fuel := fuel) hR k 0
    (s := ⟨f', h :: s.close.hdus, some op⟩) rfl h0 (by rw [Nat.zero_add]; exact hk)
  obtain ⟨m1, m2⟩ := hR.place _ _ k2
  have hcl := Session.close_opened k1
  rw [k3] at hcl
  dsimp only at hcl
  refine ⟨s', fun cs => ?_, ?_⟩
  · rw [session_hdu e, session_open ho, k5]
    simp only [Nat.zero_add]
  · rw [hcl]
    dsimp only
    rw [g4, g5, ← hoff]
    exact ⟨m1.trans hfd, g3, g2, m2, rfl, rfl⟩

/-- Reading the rest of a file. -/
theorem visit_cut {primary : Bool} {us : List WrittenHdu} (hf : File primary us)
    (hw : ∀ u ∈ us, u.body.Whole) (A : List UInt8) (hb : (A ++ fileBytes us).length < 2 ^ 60) :
    ∃ hs, ShownAll primary A.length us hs ∧
      ∀ (gz : Gunzip) (fuel : Nat), (∀ u ∈ us, u.body.CutBy gz fuel) → Extends gz →
        ∃ gs, GivesAll us gs ∧ ∀ s : Session, Anywhere primary A.length (A ++ fileBytes us) s.close.fits →
        ∀ ks : List Nat, ks.length = us.length → WithinLimits ks gs →
          s.run .wrapping gz fuel (visits ks) = seenOutcomes ks gs hs := by
  have hsize : ∀ (u : WrittenHdu) (vs : List WrittenHdu) (A : List UInt8), (A ++ fileBytes (u :: vs)).length < 2 ^ 60 →
      u.body.data.length < 2 ^ 63 := by
    intro u vs A h
    have : (fileBytes (u :: vs)).length = u.segment.bytes.length + (fileBytes vs).length := by
      unfold fileBytes
      rw [List.map_cons, List.flatten_cons, List.length_append]
    rw [List.length_append, this] at h
    have : u.segment.bytes.length = u.segment.header.length + u.body.data.length + u.dataFill.length := by
      unfold Segment.bytes
      rw [List.length_append, List.length_append]
      rfl
    omega
  induction hf generalizing A with
  | @last primary u hl hfill =>
    obtain ⟨h, hdsc, hsh⟩ := hl.describes (p := .wrapping) (hw u (by simp)) (hsize u [] A hb) A.length
    refine ⟨[h], .cons hsh .nil, fun gz fuel hr hg => ?_⟩
    have hd : A ++ fileBytes [u] = A ++ u.segment.bytes ++ [] := by simp [fileBytes]
    obtain ⟨out, ho, hone⟩ := visit_one_cut hd hl hb hdsc hsh gz fuel (hr u (by simp)) hg
    refine ⟨[out], .cons ho .nil, fun s hs ks hk hlim => ?_⟩
    obtain ⟨k, rfl⟩ : ∃ k, ks = [k] := List.length_eq_one_iff.1 hk
    obtain ⟨s', h1, h2, h3, h4, h5, h7, h8⟩ := hone s hs k hlim.1
    unfold visits
    rw [h1]
    unfold seenOutcomes visits
    have hlen : (A ++ fileBytes [u]).length =
        A.length + u.segment.header.length + u.body.data.length + u.dataFill.length := by
      rw [hd]
      simp only [Segment.bytes, List.length_append, List.length_nil]
      rw [show u.segment.data = u.body.data from rfl, show u.segment.dataFill = u.dataFill from rfl]
      omega
    have hru := roundUp2880_lt u.body.data.length
    have hc := Fits.consumeUntilNextHdu_wrapping (f := s'.close.fits) h5 (by rw [h7, h8]; omega)
    have hend := Fits.next_of_skip h4 h3 hc
    rw [Fits.extensionAt_eof (by rw [h2, h7, h8]; omega)] at hend
    have hc : ∃ s'', s'.call .wrapping gz fuel .hdu = some (.ok (.hdu none), s'') := by
      unfold Session.call Session.nextHdu
      dsimp only
      rw [hend]
      exact ⟨_, rfl⟩
    obtain ⟨s'', hc⟩ := hc
    rw [Session.run, hc]
    rfl
  | @cons primary u us hl hfill hrest ih =>
    obtain ⟨h, hdsc, hsh⟩ := hl.describes (p := .wrapping) (hw u (by simp)) (hsize u us A hb) A.length
    have hbytes : A ++ fileBytes (u :: us) = A ++ u.segment.bytes ++ fileBytes us := by simp [fileBytes]
    obtain ⟨hs, hall, hrun⟩ := ih (fun v hv => hw v (by simp [hv])) (A ++ u.segment.bytes) (by rw [← hbytes]; exact hb)
    refine ⟨h :: hs, .cons hsh (by rw [← List.length_append]; exact hall), fun gz fuel hr hg => ?_⟩
    obtain ⟨out, ho, hone⟩ := visit_one_cut hbytes hl hb hdsc hsh gz fuel (hr u (by simp)) hg
    obtain ⟨gs, hgs, hrun⟩ := hrun gz fuel (fun v hv => hr v (by simp [hv])) hg
    refine ⟨out :: gs, .cons ho hgs, fun s hs ks hk hlim => ?_⟩
    cases ks with
    | nil => simp at hk
    | cons k ks =>
      obtain ⟨s', h1, h2, h3, h4, h5, h7, h8⟩ := hone s hs k hlim.1
      unfold visits
      rw [h1]
      unfold seenOutcomes
      rw [hrun s' ?_ ks (by simpa using hk) hlim.2]
      refine ⟨by rw [h2, hbytes], h3, h4, h5, ?_⟩
      rw [h7, h8, List.length_append]
      simp only [Segment.bytes, List.length_append]
      rw [show u.segment.data = u.body.data from rfl, show u.segment.dataFill = u.dataFill from rfl]
      omega

/-- **C76, exactly**, in builds without overflow checks, tiles cut at the edge of the image included: a program that opens every data
unit and asks for items of it gets those that are written, but from a compressed image those of its tiles read as whole ones: the pixels
of a cut tile are followed by others.  If a cut tile is refused, as those compressed by gzip are, the pixels end there (the program may ask once more,
and gets none).  The HDUs that follow are found all the same. -/
theorem C76_exact (us : List WrittenHdu) (hf : File true us) (hw : ∀ u ∈ us, u.body.Whole)
    (hs : (fileBytes us).length < 2 ^ 60) :
    ∃ hs, ShownAll true 0 us hs ∧ ∀ (gz : Gunzip) (fuel : Nat), (∀ u ∈ us, u.body.CutBy gz fuel) → Extends gz →
      ∃ gs, GivesAll us gs ∧ ∀ ks : List Nat, ks.length = us.length → WithinLimits ks gs →
        (Session.new ⟨fileBytes us, 0⟩).run .wrapping gz fuel (visits ks) = seenOutcomes ks gs hs := by
  obtain ⟨hs, h1, h2⟩ := visit_cut hf hw [] hs
  refine ⟨hs, h1, fun gz fuel hr hg => ?_⟩
  obtain ⟨gs, h3, h4⟩ := h2 gz fuel hr hg
  exact ⟨gs, h3, fun ks hk hl => h4 _ ⟨rfl, rfl, rfl, rfl⟩ ks hk hl⟩

/-! ### Sample -/

theorem writtenEdge_cut (gz : Gunzip) : writtenEdge.body.CutBy gz 9 := by
  obtain ⟨h1, h2, h3, h4, h5⟩ : _ ∧ _ := writtenEdge_held gz
  refine ⟨h1, ?_, ?_, h2, h3, h4, (by intro h; cases h), h5, fun h => by rcases h with h | h <;> cases h⟩
  · intro c ty rep hc
    match c, hc with
    | 0, hc => cases hc
  · show ∀ r < 2, _
    decide

theorem edge_file : File true [writtenPrimary, writtenEdge] :=
  .cons writtenPrimary_legal (by decide +kernel) (.last writtenEdge_legal (by decide +kernel))

/-- In the image of three pixels, 7, 7 and 5, in tiles of two: the first pixels are given. -/
example : ∃ hs g rest, ShownAll true 0 [writtenPrimary, writtenEdge] hs ∧
    (Session.new ⟨fileBytes [writtenPrimary, writtenEdge], 0⟩).run .wrapping (.of fun _ => []) 9 (visits [0, 3]) =
      seenOutcomes [0, 3] [g, ⟨fun i => .tilePixel ([.int 7, .int 7] ++ rest)[i]?, fun _ => True⟩] hs := by
  obtain ⟨hs, h1, h2⟩ := C76_exact [writtenPrimary, writtenEdge] edge_file
    (by
      intro u hu
      simp only [List.mem_cons, List.not_mem_nil, or_false] at hu
      rcases hu with rfl | rfl
      · trivial
      · intro r h
        simp [edgeTiles, WrittenTable.forms, WrittenColumn.form] at h) (by decide +kernel)
  obtain ⟨gs, h3, h4⟩ := h2 (.of fun _ => []) 9
    (by
      intro u hu
      simp only [List.mem_cons, List.not_mem_nil, or_false] at hu
      rcases hu with rfl | rfl
      · trivial
      · exact writtenEdge_cut _) (fun _ _ => List.prefix_refl _)
  cases h3 with
  | @cons _ _ g gs h5 h3 =>
    cases h3 with
    | cons h6 h3 =>
      cases h3
      cases h5 with
      | other =>
        cases h6 with
        | other h => exact absurd rfl (h edgeTiles)
        | @tiles _ m raw hfill =>
          have hm : 0 < m := by
            rcases Nat.eq_zero_or_pos m with rfl | h
            · exact absurd (hfill.stop (by decide)) (by decide)
            · exact h
          obtain ⟨w1, w2⟩ := hfill.whole 0 hm
          have w3 : raw 0 = [7, 7] := (w2.eq_of_length (by rw [w1]; decide)).symm
          obtain ⟨n, rfl⟩ : ∃ n, m = n + 1 := ⟨m - 1, by omega⟩
          have h7 := h4 [0, 3] rfl ⟨fun _ _ => trivial, fun j hj _ => (by
            have : product edgeTiles.tileAxes = 2 := by decide
            rw [this]
            omega), trivial⟩
          refine ⟨hs, ⟨fun i => writtenPrimary.body.given i, fun _ => True⟩, ((List.range n).map Nat.succ).flatMap fun r => (raw r).map (pixelOf .i32 (edgeTiles.scaling r)), h1, h7.trans ?_⟩
          rw [List.range_succ_eq_map, List.flatMap_cons, w3]
          rcases hs with _ | ⟨a, _ | ⟨b, t⟩⟩ <;> rfl

end Fitsrs

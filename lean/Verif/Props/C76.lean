import Verif.Props.C71_C72
/-
C76: files with tile-compressed images are read back as written, from end to end.
-/

namespace Fitsrs
open Spec

/-- **C76**, in full: every file of images, tables and tile-compressed images is read back as written, when the
compressed data hold the tiles. -/
def C76_statement : Prop :=
  ∀ (p : Profile) (us : List WrittenHdu) (gz : Gunzip) (fuel : Nat), File true us →
    (fileBytes us).length < 2 ^ 60 → Extends gz → (∀ u ∈ us, u.body.Held gz fuel) →
    ∃ hs, ShownAll true 0 us hs ∧ ∀ ks : List Nat, ks.length = us.length →
      (Session.new ⟨fileBytes us, 0⟩).run p gz fuel (visits ks) = seenVisits ks us hs

/-- **C76**, partial: for compressed images whose tiles are not cut at the edge, in tables with columns of one value, without
empty arrays of compressed data, without 8-bit pixels compressed by GZIP_2; in checked builds, without large differences of
pixels with RICE.  The HDUs shown depend neither on what gzip gives nor on the bound on the steps. -/
theorem C76_partial (p : Profile) (us : List WrittenHdu) (hf : File true us) (hw : ∀ u ∈ us, u.body.Whole)
    (hs : (fileBytes us).length < 2 ^ 60) :
    ∃ hs, ShownAll true 0 us hs ∧ ∀ (gz : Gunzip) (fuel : Nat), Extends gz →
      (∀ u ∈ us, u.body.ReadableBy p gz fuel) → ∀ ks : List Nat, ks.length = us.length →
      (Session.new ⟨fileBytes us, 0⟩).run p gz fuel (visits ks) = seenVisits ks us hs := by
  obtain ⟨hs, h1, h2⟩ := visit_rest (p := p) hf hw [] hs
  exact ⟨hs, h1, fun gz fuel hg hr ks hk => h2 gz fuel hr (.inl hg) _ ⟨rfl, rfl, rfl, rfl⟩ ks hk⟩

/-! ### Samples -/

/-- The keyword of a text of a header is that of one of its lines. -/
theorem saysText_unique {h : Heading} {k s kw : Str}
    (hu : ((h.first.entry :: h.lines.filterMap Line.entry).all fun e =>
      match e.2 with | .string t _ => t ≠ s ∨ e.1 = kw | _ => true) = true) (hk : h.SaysText k s) : k = kw := by
  obtain ⟨c, hc⟩ := hk
  unfold Heading.lookup lastValue at hc
  rw [Option.map_eq_some_iff] at hc
  obtain ⟨⟨k', v⟩, he, rfl⟩ := hc
  obtain ⟨hm, hk'⟩ := List.mem_filter.1 (List.mem_of_getLast? he)
  have := List.all_eq_true.1 hu _ hm
  have hk' : k' = k := by simpa using hk'
  simp at this
  rw [← hk', this]

theorem writtenTiles_lines : ∀ l ∈ writtenTiles.heading.lines, l.Legal := by
  intro l hl
  simp only [writtenTiles, riceLines, List.mem_append, List.mem_cons, List.not_mem_nil, or_false] at hl
  rcases hl with (hl | rfl | rfl | rfl | rfl | rfl | rfl) | rfl | rfl | rfl | rfl | rfl | rfl | rfl | rfl | rfl | rfl
  · exact tableLines_legal (by decide +kernel) (by decide +kernel) (by decide +kernel) (by decide +kernel) l hl
  · exact strLine_legal (name_of _ (by decide +kernel)) (by unfold Printable; decide +kernel) (by decide +kernel)
  · exact strLine_legal (name_of _ (by decide +kernel)) (by unfold Printable; decide +kernel) (by decide +kernel)
  · exact strLine_legal (name_of _ (by decide +kernel)) (by unfold Printable; decide +kernel) (by decide +kernel)
  · exact ⟨by decide +kernel, name_of _ (by decide +kernel),
      show -(2 ^ 63) ≤ signed (some true) 32 ∧ signed (some true) 32 < 2 ^ 63 by decide, by intro t h; cases h⟩
  · exact strLine_legal (name_of _ (by decide +kernel)) (by unfold Printable; decide +kernel) (by decide +kernel)
  · exact intLine_legal (name_of _ (by decide +kernel)) (by decide +kernel) (by decide)
  · exact strLine_legal (name_of _ (by decide +kernel)) (by unfold Printable; decide +kernel) (by decide +kernel)
  · exact strLine_legal (name_of _ (by decide +kernel)) (by unfold Printable; decide +kernel) (by decide +kernel)
  · exact strLine_legal (name_of _ (by decide +kernel)) (by unfold Printable; decide +kernel) (by decide +kernel)
  · exact strLine_legal (name_of _ (by decide +kernel)) (by unfold Printable; decide +kernel) (by decide +kernel)
  · exact strLine_legal (name_of _ (by decide +kernel)) (by unfold Printable; decide +kernel) (by decide +kernel)
  · exact strLine_legal (name_of _ (by decide +kernel)) (by unfold Printable; decide +kernel) (by decide +kernel)
  · exact intLine_legal (name_of _ (by decide +kernel)) (by decide +kernel) (by decide)
  · exact intLine_legal (name_of _ (by decide +kernel)) (by decide +kernel) (by decide)
  · exact intLine_legal (name_of _ (by decide +kernel)) (by decide +kernel) (by decide)
  · exact intLine_legal (name_of _ (by decide +kernel)) (by decide +kernel) (by decide)

theorem ubytes_ok {vs : List Cell} (h : vs.all (Spec.Cell.okFor .B) = true) : ∀ v ∈ vs, CellOk .B v := Spec.Cell.okFor_ok h

theorem writtenTiles_table : Body.TableDescribed writtenTiles.heading floatTiles.table := by
  refine ⟨⟨⟨none, by decide +kernel⟩, ⟨none, by decide +kernel⟩, ⟨none, by decide +kernel⟩, ⟨none, by decide +kernel⟩,
    ⟨none, by decide +kernel⟩, ⟨none, by decide +kernel⟩, ⟨none, by decide +kernel⟩⟩, by simp [floatTiles], by decide +kernel, ?_,
    .inl ⟨by decide +kernel, rfl⟩, ?_⟩
  · intro i hi
    match i, hi with
    | 0, _ => exact ⟨"1PB".toList, ⟨none, by decide +kernel⟩, by decide, ['1'], 'B', [], by decide +kernel,
        by unfold Digits; decide, show ('B', ElemTy.B) ∈ letters by decide⟩
    | 1, _ => exact ⟨"1D".toList, ⟨none, by decide +kernel⟩, ['1'], 'D', [], by decide +kernel, by unfold Digits; decide,
        show ('D', ElemTy.D) ∈ letters by decide, by decide +kernel, show 1 = countOf ['1'] by decide +kernel⟩
    | 2, _ => exact ⟨"1D".toList, ⟨none, by decide +kernel⟩, ['1'], 'D', [], by decide +kernel, by unfold Digits; decide,
        show ('D', ElemTy.D) ∈ letters by decide, by decide +kernel, show 1 = countOf ['1'] by decide +kernel⟩
    | 3, _ => exact ⟨"1J".toList, ⟨none, by decide +kernel⟩, ['1'], 'J', [], by decide +kernel, by unfold Digits; decide,
        show ('J', ElemTy.J) ∈ letters by decide, by decide +kernel, show 1 = countOf ['1'] by decide +kernel⟩
  · intro row hrow
    simp only [floatTiles, List.mem_cons, List.not_mem_nil, or_false] at hrow
    have one : ∀ (v : Cell) ty, CellOk ty v → ∀ v' ∈ [v], CellOk ty v' := by
      intro v ty h v' h'
      rw [List.mem_singleton] at h'
      rw [h']
      exact h
    rcases hrow with rfl | rfl
    · refine ⟨rfl, fun c h1 h2 => ?_⟩
      match c, h1 with
      | 0, _ => exact ⟨rfl, Spec.Cell.okFor_ok (by decide), by decide, by decide, by decide +kernel⟩
      | 1, _ => exact ⟨rfl, one _ _ (by decide : (0x3FF0000000000000 : Nat) < 2 ^ 64)⟩
      | 2, _ => exact ⟨rfl, one _ _ (by decide : (0 : Nat) < 2 ^ 64)⟩
      | 3, _ => exact ⟨rfl, one _ _ (by decide : -(2 ^ 31) ≤ (3 : Int) ∧ (3 : Int) < 2 ^ 31)⟩
    · refine ⟨rfl, fun c h1 h2 => ?_⟩
      match c, h1 with
      | 0, _ => exact ⟨rfl, Spec.Cell.okFor_ok (by decide), by decide, by decide, by decide +kernel⟩
      | 1, _ => exact ⟨rfl, one _ _ (by decide : (0x4000000000000000 : Nat) < 2 ^ 64)⟩
      | 2, _ => exact ⟨rfl, one _ _ (by decide : (0x3FF0000000000000 : Nat) < 2 ^ 64)⟩
      | 3, _ => exact ⟨rfl, one _ _ (by decide : -(2 ^ 31) ≤ (3 : Int) ∧ (3 : Int) < 2 ^ 31)⟩

theorem writtenTiles_names : writtenTiles.heading.names 4 =
    [some "COMPRESSED_DATA".toList, some "ZSCALE".toList, some "ZZERO".toList, some "ZBLANK".toList] := by
  decide +kernel

theorem writtenTiles_blocksize : ∀ t, writtenTiles.heading.SaysText ("ZNAME".toList ++ t) "BLOCKSIZE".toList → t = natStr 1 := by
  intro t h
  have := saysText_unique (kw := "ZNAME".toList ++ natStr 1) (by decide +kernel) h
  exact List.append_cancel_left this

theorem writtenTiles_scaled (r : Nat) (hr : r < 2) : floatTiles.Scaled writtenTiles.heading r (floatTiles.scaling r) := by
  have hr : r = 0 ∨ r = 1 := by omega
  have hn : writtenTiles.heading.names floatTiles.table.columns.length = _ := writtenTiles_names
  have holds : ∀ (name : Str) (v : Cell) (c : Nat),
      ((writtenTiles.heading.names 4)[c]? = some (some name) ∧
      (∀ d < c, (writtenTiles.heading.names 4)[d]? ≠ some (some name))) →
      (∃ row, floatTiles.table.rows[r]? = some row ∧ row[c]? = some (WrittenField.values [v])) →
      floatTiles.Holds writtenTiles.heading name r v := fun name v c h1 h2 => ⟨c, h1.1, h1.2, h2⟩
  have s : ∀ v, _ → floatTiles.Holds writtenTiles.heading "ZSCALE".toList r v :=
    fun v h => holds _ v 1 (by rw [writtenTiles_names]; decide +kernel) h
  have z : ∀ v, _ → floatTiles.Holds writtenTiles.heading "ZZERO".toList r v :=
    fun v h => holds _ v 2 (by rw [writtenTiles_names]; decide +kernel) h
  have b : ∀ v, _ → floatTiles.Holds writtenTiles.heading "ZBLANK".toList r v :=
    fun v h => holds _ v 3 (by rw [writtenTiles_names]; decide +kernel) h
  have hk : some "ZBLANK".toList ∉ writtenTiles.heading.names floatTiles.table.columns.length → False := by
    rw [hn]
    intro h
    exact h (by decide +kernel)
  rcases hr with rfl | rfl
  · exact ⟨⟨_, s _ ⟨_, rfl, rfl⟩, rfl⟩, ⟨_, z _ ⟨_, rfl, rfl⟩, rfl⟩, fun _ => ⟨_, 3, b _ ⟨_, rfl, rfl⟩, rfl, rfl⟩,
      fun h => (hk h).elim⟩
  · exact ⟨⟨_, s _ ⟨_, rfl, rfl⟩, rfl⟩, ⟨_, z _ ⟨_, rfl, rfl⟩, rfl⟩, fun _ => ⟨_, 3, b _ ⟨_, rfl, rfl⟩, rfl, rfl⟩,
      fun h => (hk h).elim⟩

theorem writtenTiles_described : floatTiles.Described writtenTiles.heading := by
  have hn : writtenTiles.heading.names floatTiles.table.columns.length = _ := writtenTiles_names
  have hr2 : ∀ r, r < floatTiles.table.rows.length → r = 0 ∨ r = 1 := fun r hr => by change r < 2 at hr; omega
  refine ⟨⟨.inl ⟨none, by decide +kernel⟩, .inl ⟨1, ⟨none, by decide +kernel⟩, by decide, ⟨none, by decide +kernel⟩,
    writtenTiles_blocksize⟩⟩, ⟨none, by decide +kernel⟩, by decide, ⟨⟨none, by decide +kernel⟩, by decide⟩, ?_, rfl, ?_,
    by decide, ?_, ⟨false, rfl⟩, by decide, ?_, ?_, ?_, fun _ r hr => writtenTiles_scaled r hr⟩
  · intro i hi
    match i, hi with
    | 0, _ => exact ⟨none, show _ = some (Value.integer 4 none) by decide +kernel⟩
    | 1, _ => exact ⟨none, show _ = some (Value.integer 1 none) by decide +kernel⟩
  · intro i hi _
    match i, hi with
    | 0, _ => exact .inl ⟨none, show _ = some (Value.integer 2 none) by decide +kernel⟩
    | 1, _ => exact .inr ⟨by decide +kernel, rfl⟩
  · rw [hn]
    unfold CompressedColumn
    decide +kernel
  · intro r hr
    rcases hr2 r hr with rfl | rfl <;> decide
  · intro r hr v hv
    show InI32 v
    unfold InI32
    rcases hr2 r hr with rfl | rfl <;> simp [floatTiles, WrittenTiles.tile] at hv <;> omega
  · intro _
    rw [hn]
    decide +kernel

theorem writtenTiles_legal : writtenTiles.Legal false :=
  ⟨trivial, ⟨xtensionLine_legal _, writtenTiles_lines⟩, ⟨writtenTiles_table, writtenTiles_described⟩, by decide +kernel⟩

theorem writtenTiles_readable (p : Profile) (gz : Gunzip) : writtenTiles.body.ReadableBy p gz 29 := by
  have hr2 : ∀ r, r < floatTiles.table.rows.length → r = 0 ∨ r = 1 := fun r hr => by change r < 2 at hr; omega
  refine ⟨?_, ?_, ?_, by decide, by decide, by decide, ?_, (by intro h; cases h), ?_⟩
  · intro r hr
    rcases hr2 r hr with rfl | rfl
    · exact rice_pair 7 (.inl rfl)
    · exact rice_float
  · intro c ty rep h
    replace h := List.mem_of_getElem? h
    simp only [floatTiles, List.mem_cons, List.not_mem_nil, or_false] at h
    rcases h with h | h | h | h <;> cases h <;> exact ⟨by decide, by decide, fun _ => rfl⟩
  · intro r hr
    rcases hr2 r hr with rfl | rfl <;> decide
  · intro r hr
    rcases hr2 r hr with rfl | rfl <;> decide
  · intro n h
    cases h
    refine ⟨by decide, .inr fun r hr => ?_⟩
    rcases hr2 r hr with rfl | rfl <;> simp [Smooth, floatTiles, WrittenTiles.tile]

/-- A file with an image, a compressed image of floats and a table, for instance. -/
example : ∃ us, File true us ∧ (∀ p gz, ∀ u ∈ us, u.body.ReadableBy p gz 29) ∧ us.map (fun u => u.body.item 2) =
    [.pixel none, .tilePixel (some (.linear 8 (.double 0x4000000000000000) (.double 0x3FF0000000000000))),
     .value (some (.cell 1 0 (.ubyte 9)))] :=
  ⟨[writtenPrimary, writtenTiles, writtenArrays],
    .cons writtenPrimary_legal (by decide +kernel) (.cons writtenTiles_legal (by decide +kernel)
      (.last writtenArrays_legal (by decide +kernel))), by
      intro p gz u hu
      simp only [List.mem_cons, List.not_mem_nil, or_false] at hu
      rcases hu with rfl | rfl | rfl
      · trivial
      · exact writtenTiles_readable p gz
      · refine ⟨?_, ?_, by decide +kernel⟩
        · intro ty rep hc
          simp only [List.mem_cons, List.not_mem_nil, or_false] at hc
          rcases hc with hc | hc <;> cases hc
          exact ⟨by decide, by decide⟩
        · intro row hrow w o hm
          simp only [List.mem_cons, List.not_mem_nil, or_false] at hrow
          rcases hrow with rfl | rfl <;> simp at hm, rfl⟩

theorem writtenEdge_lines : ∀ l ∈ writtenEdge.heading.lines, l.Legal := by
  intro l hl
  simp only [writtenEdge, riceLines, List.mem_append, List.mem_cons, List.not_mem_nil, or_false] at hl
  rcases hl with (hl | rfl | rfl | rfl | rfl | rfl | rfl) | rfl | rfl | rfl
  · exact tableLines_legal (by decide +kernel) (by decide +kernel) (by decide +kernel) (by decide +kernel) l hl
  · exact strLine_legal (name_of _ (by decide +kernel)) (by unfold Printable; decide +kernel) (by decide +kernel)
  · exact strLine_legal (name_of _ (by decide +kernel)) (by unfold Printable; decide +kernel) (by decide +kernel)
  · exact strLine_legal (name_of _ (by decide +kernel)) (by unfold Printable; decide +kernel) (by decide +kernel)
  · exact intLine_legal (name_of _ (by decide +kernel)) (by decide +kernel) (by decide)
  · exact strLine_legal (name_of _ (by decide +kernel)) (by unfold Printable; decide +kernel) (by decide +kernel)
  · exact intLine_legal (name_of _ (by decide +kernel)) (by decide +kernel) (by decide)
  · exact intLine_legal (name_of _ (by decide +kernel)) (by decide +kernel) (by decide)
  · exact intLine_legal (name_of _ (by decide +kernel)) (by decide +kernel) (by decide)
  · exact intLine_legal (name_of _ (by decide +kernel)) (by decide +kernel) (by decide)

theorem writtenEdge_table : Body.TableDescribed writtenEdge.heading edgeTiles.table := by
  refine ⟨⟨⟨none, by decide +kernel⟩, ⟨none, by decide +kernel⟩, ⟨none, by decide +kernel⟩, ⟨none, by decide +kernel⟩,
    ⟨none, by decide +kernel⟩, ⟨none, by decide +kernel⟩, ⟨none, by decide +kernel⟩⟩, by simp [edgeTiles], by decide +kernel, ?_,
    .inl ⟨by decide +kernel, rfl⟩, ?_⟩
  · intro i hi
    match i, hi with
    | 0, _ => exact ⟨"1PB".toList, ⟨none, by decide +kernel⟩, by decide, ['1'], 'B', [], by decide +kernel,
        by unfold Digits; decide, show ('B', ElemTy.B) ∈ letters by decide⟩
  · intro row hrow
    simp only [edgeTiles, List.mem_cons, List.not_mem_nil, or_false] at hrow
    rcases hrow with rfl | rfl
    · refine ⟨rfl, fun c h1 h2 => ?_⟩
      match c, h1 with
      | 0, _ => exact ⟨rfl, Spec.Cell.okFor_ok (by decide), by decide, by decide, by decide +kernel⟩
    · refine ⟨rfl, fun c h1 h2 => ?_⟩
      match c, h1 with
      | 0, _ => exact ⟨rfl, Spec.Cell.okFor_ok (by decide), by decide, by decide, by decide +kernel⟩

theorem writtenEdge_described : edgeTiles.Described writtenEdge.heading := by
  have hn : writtenEdge.heading.names edgeTiles.table.columns.length = [some "COMPRESSED_DATA".toList] := by decide +kernel
  have hr2 : ∀ r, r < edgeTiles.table.rows.length → r = 0 ∨ r = 1 := fun r hr => by change r < 2 at hr; omega
  refine ⟨⟨.inl ⟨none, by decide +kernel⟩, .inl ⟨1, ⟨none, by decide +kernel⟩, by decide, ⟨none, by decide +kernel⟩, ?_⟩⟩,
    ⟨none, by decide +kernel⟩, by decide, ⟨⟨none, by decide +kernel⟩, by decide⟩, ?_, rfl, ?_,
    by decide, ?_, ⟨false, rfl⟩, by decide, ?_, ?_, fun h => ?_, fun h => ?_⟩
  · intro t h
    exact List.append_cancel_left (saysText_unique (kw := "ZNAME".toList ++ natStr 1) (by decide +kernel) h)
  · intro i hi
    match i, hi with
    | 0, _ => exact ⟨none, show _ = some (Value.integer 3 none) by decide +kernel⟩
  · intro i hi _
    match i, hi with
    | 0, _ => exact .inl ⟨none, show _ = some (Value.integer 2 none) by decide +kernel⟩
  · rw [hn]
    unfold CompressedColumn
    decide +kernel
  · intro r hr
    rcases hr2 r hr with rfl | rfl <;> decide
  · intro r hr v hv
    show InI32 v
    unfold InI32
    rcases hr2 r hr with rfl | rfl <;> simp [edgeTiles, WrittenTiles.tile] at hv <;> omega
  · rcases h with h | h <;> cases h
  · rcases h with h | h <;> cases h

theorem writtenEdge_legal : writtenEdge.Legal false :=
  ⟨trivial, ⟨xtensionLine_legal _, writtenEdge_lines⟩, ⟨writtenEdge_table, writtenEdge_described⟩, by decide +kernel⟩

theorem writtenEdge_held (gz : Gunzip) : writtenEdge.body.Held gz 9 := by
  have hr2 : ∀ r, r < edgeTiles.table.rows.length → r = 0 ∨ r = 1 := fun r hr => by change r < 2 at hr; omega
  refine ⟨?_, by decide, by decide, by decide, fun n h => by cases h; decide⟩
  intro r hr
  rcases hr2 r hr with rfl | rfl
  · exact rice_pair 7 (.inl rfl)
  · refine ⟨5, blockBits .low [0] ++ [], [false, false, false], rfl, ?_, by decide +kernel⟩
    refine Blocks.block (block := [5]) (rest := []) .low (by simp) (Or.inr ⟨by decide, rfl⟩) ?_ .nil
    show ∀ d ∈ diffs 5 [5], d = 0
    decide

/-- A pixel is seen. -/
def seesPixel : Option (Option (Res Seen)) → Bool
  | some (some (.ok (.tilePixel (some _)))) => true
  | _ => false

set_option maxRecDepth 20000 in
theorem edge_seen : seesPixel ((Session.new ⟨fileBytes [writtenPrimary, writtenEdge], 0⟩).run .wrapping (.of fun _ => []) 9
    (visits [0, 4]))[7]? = true := by
  decide +kernel

/-- **C76** fails: the last tile of an image of three pixels in tiles of two gives two pixels. -/
theorem C76_fails : ¬ C76_statement := by
  intro h
  obtain ⟨hs, h1, h2⟩ := h .wrapping [writtenPrimary, writtenEdge] (.of fun _ => []) 9
    (.cons writtenPrimary_legal (by decide +kernel) (.last writtenEdge_legal (by decide +kernel))) (by decide +kernel)
    (fun _ _ => List.prefix_refl _) (by
      intro u hu
      simp only [List.mem_cons, List.not_mem_nil, or_false] at hu
      rcases hu with rfl | rfl
      · trivial
      · exact writtenEdge_held _)
  have h3 := edge_seen
  rw [h2 [0, 4] rfl] at h3
  cases h1 with
  | cons _ h1 =>
    cases h1 with
    | cons _ h1 =>
      cases h1
      have h4 : false = true := h3
      cases h4

end Fitsrs

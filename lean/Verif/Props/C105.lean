import Verif.Lemmas.RiceEnds
import Verif.Lemmas.Session
import Verif.Props.C104
import Verif.Props.C44
import Verif.Spec.TilesEnd
import Verif.Spec.TileSamples
/-
C105 decoding a RICE tile ends, and iterating over the pixels of a compressed image ends.
-/

namespace Fitsrs
open Spec

/-- **C105, the full statement.** Iterating over the pixels of any compressed image just opened ends, and so does each of the calls. -/
def C105_statement (p : Profile) : Prop :=
  ∀ (gz : Gunzip) (f : Fits) (x : Hdu BinTable) (z : TileCompressedImage) (it : TileIt), x.header.xtension.zImage = some z →
    f.getTiles p x z = .ok it → it.Ends p gz

/-- **C105, tiles.** Decoding a tile of less than `2^31` pixels ends, whatever its bytes.
Missing: tiles of `2^31 - nblock` pixels or more, for which it may not (`C105_tile_fails`). -/
theorem C105_tile_partial (p : Profile) {nblock n : Nat} (h : RiceFits nblock n) (bytes : List UInt8) : RiceEnds p nblock n bytes :=
  ⟨_, fun _ hf => Rice.tile_ends h.1 (fun _ => h.2) hf⟩

namespace Rice

/-- A block that ends before it begins. -/
theorem low_forever {p : Profile} {q : Params} {room : Nat} (hr : 1 ≤ room) {s : Bits} {i imax last : Int} (h : imax < i) (fuel : Nat) :
    read p q fuel room (.low s i imax last) = none := by
  induction fuel with
  | zero => rfl
  | succ fuel ih =>
    have hz : min room (imax - i).toNat = 0 := by omega
    have hs : step p q room (.low s i imax last) = .ok ([], .low s i imax last, true) := by
      show Res.ok (List.replicate (min room (imax - i).toNat) last, afterBlock _ s (i + (min room (imax - i).toNat : Nat)) imax last, true) = _
      rw [hz]
      unfold afterBlock
      rw [if_neg (by omega)]
      rfl
    rw [read, hs]
    dsimp only
    rw [if_neg (by intro h; have := h.2; rw [List.length_nil] at this; omega)]
    show (read p q fuel (room - 0) _).map _ = none
    rw [Nat.sub_zero, ih]
    rfl

/-- A tile of `2^31` pixels, all equal to 0. -/
theorem large_forever (p : Profile) (fuel : Nat) : tile p fuel 32 (2 ^ 31) [0, 0, 0, 0, 0, 0] = none := by
  unfold tile
  rw [if_neg (by decide)]
  have hx : toSigned 32 (2 ^ 31 % 2 ^ 32) = -2 ^ 31 := by decide
  rw [hx]
  suffices h : read p { nblock := (32 : Nat), nx := -2 ^ 31 } fuel (2 ^ 31) (.start [0, 0, 0, 0, 0, 0]) = none by rw [h]; rfl
  have next : ∀ {fuel : Nat} {st st' : State}, step p { nblock := (32 : Nat), nx := -2 ^ 31 } (2 ^ 31) st = .ok ([], st', false) →
      read p { nblock := (32 : Nat), nx := -2 ^ 31 } fuel (2 ^ 31) st' = none →
      read p { nblock := (32 : Nat), nx := -2 ^ 31 } (fuel + 1) (2 ^ 31) st = none := by
    intro fuel st st' hs hn
    rw [read, hs]
    dsimp only
    rw [if_neg (by intro h; cases h.1)]
    show (read p _ fuel (2 ^ 31 - 0) st').map _ = none
    rw [Nat.sub_zero, hn]
    rfl
  match fuel with
  | 0 => rfl
  | 1 => exact next (st' := .fs { b := 0, nbits := 8, inp := [0] } 0 0) (by cases p <;> rfl) rfl
  | fuel + 2 =>
    refine next (st' := .fs { b := 0, nbits := 8, inp := [0] } 0 0) (by cases p <;> rfl) ?_
    refine next (st' := .low { b := 0, nbits := 3, inp := [0] } 0 (-2 ^ 31) 0) (by cases p <;> rfl) ?_
    exact low_forever (by decide) (by decide) fuel

end Rice

/-- **C105, tiles: it fails** for a tile of `2^31` pixels, the size of the blocks being a byte: the decoder turns for ever (D54). -/
theorem C105_tile_fails : ¬ ∀ (p : Profile) (nblock n : Nat) (bytes : List UInt8), nblock < 256 → RiceEnds p nblock n bytes := by
  intro h
  obtain ⟨k, hk⟩ := h .wrapping 32 (2 ^ 31) [0, 0, 0, 0, 0, 0] (by decide)
  exact hk k (Nat.le_refl _) (Rice.large_forever _ _)

/-! ### The pixels of an image -/

/-- At most `k` values of the table are left. -/
def TableRows.In (p : Profile) (k : Nat) (r : TableRows) : Prop := TableData.EndsIn p k r.data ∧ r.data.Going ∧ r.row ≤ r.data.row

/-- The next row uses a value, or catches up with the table. -/
theorem TableRows.In.next {p : Profile} {k fuel : Nat} {r : TableRows} (h : r.In p k) (hf : k + 2 ≤ fuel) :
    ∃ a r', r.next p fuel = some (a, r') ∧ ((∀ vs, a ≠ .ok (some vs)) ∨
      ∃ j, r'.In p j ∧ (j < k ∨ j = k ∧ r'.data.row - r'.row < r.data.row - r.row)) := by
  obtain ⟨he, hg, hle⟩ := h
  by_cases hd : r.data.row = r.row
  · obtain ⟨a, t', h1, h2⟩ := TableRows.collect_endsIn (row := r.row) he hg fuel hf []
    by_cases hv : ∃ vs, a = .ok (some vs)
    · obtain ⟨vs, rfl⟩ := hv
      refine ⟨.ok (some vs), { data := t', row := r.row + 1 }, by unfold TableRows.next; rw [h1], .inr ?_⟩
      rcases h2 with h2 | ⟨h2, h3, h4, j, h5, h6, -⟩
      · exact absurd rfl (h2 vs)
      · exact ⟨j, ⟨h5, h2, by show r.row + 1 ≤ t'.row; omega⟩, .inl (h6 hd)⟩
    · refine ⟨a, { r with data := t' }, ?_, .inl fun vs e => hv ⟨vs, e⟩⟩
      unfold TableRows.next
      rw [h1]
      cases a with
      | ok o =>
        cases o with
        | none => rfl
        | some vs => exact absurd ⟨vs, rfl⟩ hv
      | err e => rfl
      | panic => rfl
  · refine ⟨.ok (some []), { data := r.data, row := r.row + 1 }, ?_, .inr ⟨k, ⟨he, hg, by show r.row + 1 ≤ r.data.row; omega⟩, .inr ⟨rfl, ?_⟩⟩⟩
    · obtain ⟨m, rfl⟩ : ∃ m, fuel = m + 1 := ⟨fuel - 1, by omega⟩
      unfold TableRows.next TableRows.collect
      rw [if_neg hd]
    · show r.data.row - (r.row + 1) < r.data.row - r.row
      omega

namespace TileIt

/-- The fuel is enough for any tile, whose number of pixels is `n`. -/
structure Enough (p : Profile) (fuel : Nat) (it : TileIt) : Prop where
  rice : ∀ b n, it.cmp = .rice b → product p it.zTile 1 = .ok n → RiceFits b n ∧ Rice.turns n it.rows.data.rd.data.length ≤ fuel
  empty : product p it.zTile 1 = .ok 0 → it.buf = []

theorem fill_enough {p : Profile} {gz : Gunzip} {fuel : Nat} {off : Int} {it : TileIt} (h : it.Enough p fuel)
    (hn : product p it.zTile 1 = .ok it.nPixels) :
    ∃ r it', it.fill p gz fuel off = some (r, it') ∧ (r = .ok true → it'.rows = it.rows ∧ it'.nPixels = it.nPixels ∧
      it'.remaining = it.remaining ∧ it'.zTile = it.zTile ∧ it'.Enough p fuel) := by
  unfold fill
  dsimp only
  have hd := Reader.seekRelative_data (r := it.rows.data.rd) (o := off)
  cases hs : it.rows.data.rd.seekRelative off with
  | mk a rd =>
  rw [hs] at hd
  cases a with
  | err e => exact ⟨_, _, rfl, fun e => by cases e⟩
  | panic => exact ⟨_, _, rfl, fun e => by cases e⟩
  | ok u =>
    dsimp only at hd ⊢
    have hne : decompress p gz fuel it.cmp it.nPixels it.buf.length (rd.data.drop rd.pos) ≠ none := by
      unfold decompress
      split
      · split <;> · intro e; cases e
      · split <;> · intro e; cases e
      · rename_i b hc
        obtain ⟨h1, h2⟩ := h.rice b _ hc hn
        have := Rice.tile_ends (p := p) (fuel := fuel) (bytes := rd.data.drop rd.pos) h1.1 (fun _ => h1.2)
          (by unfold Rice.turns at h2 ⊢; rw [List.length_drop, hd]; omega)
        intro e
        cases ht : Rice.tile p fuel b it.nPixels (rd.data.drop rd.pos) with
        | none => exact this ht
        | some x => rw [ht] at e; cases e
      · intro e; cases e
      · intro e; cases e
    cases hdc : decompress p gz fuel it.cmp it.nPixels it.buf.length (rd.data.drop rd.pos) with
    | none => exact absurd hdc hne
    | some x =>
      cases x with
      | err e => exact ⟨_, _, rfl, fun e => by cases e⟩
      | panic => exact ⟨_, _, rfl, fun e => by cases e⟩
      | ok buf =>
        refine ⟨_, _, rfl, fun _ => ⟨rfl, rfl, rfl, rfl, h.rice, fun h0 => ?_⟩⟩
        have h0 : product p it.zTile 1 = .ok 0 := h0
        have hz : it.nPixels = 0 := by rw [hn] at h0; exact Res.ok.inj h0
        have hb := h.empty h0
        rw [hb, hz] at hdc
        show buf = []
        unfold decompress at hdc
        split at hdc
        · split at hdc <;> cases hdc
          rfl
        · split at hdc <;> cases hdc
          rfl
        · unfold Rice.tile at hdc
          rw [if_pos rfl] at hdc
          cases hdc
          rfl
        · cases hdc
        · cases hdc

theorem openTile_enough {p : Profile} {gz : Gunzip} {fuel : Nat} {vs : List DataValue} {it : TileIt} (h : it.Enough p fuel) :
    ∃ r it', it.openTile p gz fuel vs = some (r, it') ∧ (r = .ok true → it'.rows = it.rows ∧
      it'.remaining = it'.nPixels ∧ product p it'.zTile 1 = .ok it'.nPixels ∧ it'.Enough p fuel) := by
  unfold openTile
  cases ho : arrayOffset vs it.dataIdx with
  | err e => exact ⟨_, _, rfl, fun e => by cases e⟩
  | panic => exact ⟨_, _, rfl, fun e => by cases e⟩
  | ok offset =>
  cases hp : product p it.zTile 1 with
  | err e => exact ⟨_, _, rfl, fun e => by cases e⟩
  | panic => exact ⟨_, _, rfl, fun e => by cases e⟩
  | ok n =>
  dsimp only
  cases hk : tileKw p it.rows.row vs it.kw with
  | err e => exact ⟨_, _, rfl, fun e => by cases e⟩
  | panic => exact ⟨_, _, rfl, fun e => by cases e⟩
  | ok kw =>
  dsimp only
  cases hf : tileOffset p it.rows.row it.rows.data.ctx.naxis1 it.rows.data.ctx.theap offset with
  | err e => exact ⟨_, _, rfl, fun e => by cases e⟩
  | panic => exact ⟨_, _, rfl, fun e => by cases e⟩
  | ok off =>
  dsimp only
  obtain ⟨r, it', h1, h2⟩ := fill_enough (gz := gz) (off := off) (it := { it with nPixels := n, remaining := n, kw })
    ⟨h.rice, h.empty⟩ hp
  refine ⟨r, it', h1, fun hr => ?_⟩
  obtain ⟨g1, g2, g3, g4, g5⟩ := h2 hr
  exact ⟨g1, by rw [g2, g3], by rw [g4, g2]; exact hp, g5⟩

/-- A pixel of the buffer. -/
theorem pixel_moves {p : Profile} {it it' : TileIt} {x : TilePixel} (h : it.pixel p = (.ok (some x), it')) (hr : it.remaining ≠ 0) :
    it'.rows = it.rows ∧ it'.remaining < it.remaining ∧ it'.zTile = it.zTile ∧ it'.cmp = it.cmp ∧ it'.buf = it.buf := by
  unfold pixel at h
  split at h
  · split at h
    · rename_i r hu
      cases h
      refine ⟨rfl, ?_, rfl, rfl, rfl⟩
      show r < it.remaining
      unfold usub at hu
      rw [if_pos (by omega)] at hu
      cases hu
      omega
    · cases h
  · cases h

theorem bytesNat_nil {is : List Nat} (h : is ≠ []) (acc : Nat) : bytesNat [] is acc = .panic := by
  cases is with
  | nil => exact absurd rfl h
  | cons i is => rfl

/-- No pixel comes from an empty buffer. -/
theorem pixel_empty {p : Profile} {it : TileIt} (h : it.buf = []) : (it.pixel p).1 = .panic := by
  have hr : ∀ i, rawValue it.ty it.cmp it.buf i = .panic := by
    intro i
    unfold rawValue
    rw [h]
    have hi : indices it.ty it.cmp ([] : List UInt8).length i ≠ [] := by
      unfold indices
      split <;> exact List.cons_ne_nil _ _
    split
    · rfl
    · rfl
    · rw [bytesNat_nil hi]; rfl
  unfold pixel
  cases hu : usub p it.nPixels it.remaining with
  | ok i => rw [Res.bind_ok, hr]; rfl
  | err e => rfl
  | panic => rfl

theorem Enough.moved {p : Profile} {fuel : Nat} {it it' : TileIt} (h : it.Enough p fuel) (h1 : it'.rows.data.rd.data = it.rows.data.rd.data)
    (h2 : it'.zTile = it.zTile) (h3 : it'.cmp = it.cmp) (h4 : it'.buf = it.buf) : it'.Enough p fuel :=
  ⟨fun b n hc hn => by rw [h1]; exact h.rice b n (h3 ▸ hc) (h2 ▸ hn), fun h0 => by rw [h4]; exact h.empty (h2 ▸ h0)⟩

/-- A call gives no pixel, or uses something. -/
theorem next_uses {p : Profile} {gz : Gunzip} {fuel k : Nat} {it : TileIt} (h : it.Enough p fuel) (hi : it.rows.In p k) (hf : k + 2 ≤ fuel) :
    ∃ r it', it.next p gz fuel = some (r, it') ∧ ((∀ x, r ≠ .ok (some x)) ∨ it'.Enough p fuel ∧ ∃ j, it'.rows.In p j ∧
      (j < k ∨ j = k ∧ (it'.rows.data.row - it'.rows.row < it.rows.data.row - it.rows.row ∨
        it'.rows.data.row - it'.rows.row = it.rows.data.row - it.rows.row ∧ it'.remaining < it.remaining))) := by
  unfold TileIt.next
  by_cases h0 : it.remaining = 0
  · rw [if_pos h0]
    obtain ⟨a, rows, h1, h2⟩ := hi.next hf
    unfold load
    rw [h1]
    rcases a with (_ | vs) | e | _
    · exact ⟨_, _, rfl, .inl fun x e => by cases e⟩
    · rcases h2 with h2 | ⟨j, hj, hlt⟩
      · exact absurd rfl (h2 vs)
      · have hd := TableRows.next_data _ _ _ h1
        obtain ⟨r, it', g1, g2⟩ := openTile_enough (p := p) (gz := gz) (vs := vs) (it := { it with rows })
          (h.moved (by exact hd) rfl rfl rfl)
        dsimp only
        rw [g1]
        rcases r with (_ | _) | e | _
        · exact ⟨_, _, rfl, .inl fun x e => by cases e⟩
        · obtain ⟨g3, g4, g5, g6⟩ := g2 rfl
          refine ⟨(it'.pixel p).1, (it'.pixel p).2, rfl, ?_⟩
          by_cases hz : it'.remaining = 0
          · refine .inl fun x => ?_
            rw [pixel_empty (g6.empty (by rw [g5, ← g4, hz]))]
            intro e; cases e
          · by_cases hv : ∃ x, (it'.pixel p).1 = .ok (some x)
            · obtain ⟨x, hx⟩ := hv
              obtain ⟨m1, -, m3, m4, m5⟩ := pixel_moves (p := p) (it := it') (it' := (it'.pixel p).2) (x := x) (by rw [← hx]) hz
              refine .inr ⟨g6.moved (by rw [m1]) m3 m4 m5, j, by rw [m1, g3]; exact hj, ?_⟩
              rw [m1, g3]
              rcases hlt with hlt | hlt
              · exact .inl hlt
              · exact .inr ⟨hlt.1, .inl hlt.2⟩
            · exact .inl fun x e => hv ⟨x, e⟩
        · exact ⟨_, _, rfl, .inl fun x e => by cases e⟩
        · exact ⟨_, _, rfl, .inl fun x e => by cases e⟩
    · exact ⟨_, _, rfl, .inl fun x e => by cases e⟩
    · exact ⟨_, _, rfl, .inl fun x e => by cases e⟩
  · rw [if_neg h0]
    refine ⟨(it.pixel p).1, (it.pixel p).2, rfl, ?_⟩
    by_cases hv : ∃ x, (it.pixel p).1 = .ok (some x)
    · obtain ⟨x, hx⟩ := hv
      obtain ⟨m1, m2, m3, m4, m5⟩ := pixel_moves (p := p) (it := it) (it' := (it.pixel p).2) (x := x) (by rw [← hx]) h0
      exact .inr ⟨h.moved (by rw [m1]) m3 m4 m5, k, by rw [m1]; exact hi, .inr ⟨rfl, .inr ⟨by rw [m1], m2⟩⟩⟩
    · exact .inl fun x e => hv ⟨x, e⟩

theorem ends_of {p : Profile} {gz : Gunzip} {fuel : Nat} (k : Nat) : ∀ (it : TileIt), it.Enough p fuel → it.rows.In p k → k + 2 ≤ fuel →
    ∃ n r, some r ∈ it.run p gz fuel n ∧ none ∉ it.run p gz fuel n ∧ ∀ x, r ≠ .ok (some x) := by
  induction k using Nat.strongRecOn with
  | _ k ihk =>
  have key : ∀ (d m : Nat) (it : TileIt), it.rows.data.row - it.rows.row = d → it.remaining = m → it.Enough p fuel → it.rows.In p k →
      k + 2 ≤ fuel → ∃ n r, some r ∈ it.run p gz fuel n ∧ none ∉ it.run p gz fuel n ∧ ∀ x, r ≠ .ok (some x) := by
    intro d
    induction d using Nat.strongRecOn with
    | _ d ihd =>
    intro m
    induction m using Nat.strongRecOn with
    | _ m ihm =>
    intro it hd hm he hi hf
    obtain ⟨r, it', hn, hs⟩ := next_uses (gz := gz) he hi hf
    have hrun : ∀ n, it.run p gz fuel (n + 1) = some r :: it'.run p gz fuel n := by
      intro n
      rw [TileIt.run, hn]
    rcases hs with hs | ⟨he', j, hj, hlt⟩
    · refine ⟨1, r, by rw [hrun]; exact List.mem_cons_self .., ?_, hs⟩
      rw [hrun]
      intro hm
      rcases List.mem_cons.1 hm with hm | hm
      · cases hm
      · cases hm
    · have rest : ∃ n r, some r ∈ it'.run p gz fuel n ∧ none ∉ it'.run p gz fuel n ∧ ∀ x, r ≠ .ok (some x) := by
        rcases hlt with hlt | ⟨rfl, hlt | ⟨h1, h2⟩⟩
        · exact ihk j hlt it' he' hj (by omega)
        · exact ihd _ (by omega) _ it' rfl rfl he' hj hf
        · exact ihm _ (by omega) it' (by omega) rfl he' hj hf
      obtain ⟨n, o, g1, g2, g3⟩ := rest
      refine ⟨n + 1, o, by rw [hrun]; exact List.mem_cons_of_mem _ g1, ?_, g3⟩
      rw [hrun]
      intro hm
      rcases List.mem_cons.1 hm with hm | hm
      · cases hm
      · exact g2 hm
  intro it
  exact key _ _ it rfl rfl

end TileIt

/-- A compressed image just opened. -/
theorem tiles_begun {p : Profile} {f : Fits} {x : Hdu BinTable} {z : TileCompressedImage} {it : TileIt} (h : f.getTiles p x z = .ok it) :
    it.rows.data.Begun ∧ it.rows.row = 0 ∧ it.rows.data.row = 0 ∧ it.zTile = z.zTilen ∧ it.cmp = z.zCmpType ∧
    (TileIt.product p it.zTile 1 = .ok 0 → it.buf = []) := by
  unfold Fits.getTiles at h
  cases hn : TableData.new p f.rd x.header.xtension f.posStart with
  | err e => rw [hn] at h; cases h
  | panic => rw [hn] at h; cases h
  | ok u =>
    rw [hn, Res.bind_ok] at h
    have hu : u.Begun ∧ u.row = 0 := by
      have hg : f.getTable p x = .ok (if x.header.xtension.zImage.isSome then u.readTheHeap false else u) := by
        unfold Fits.getTable
        rw [hn]
        rfl
      have := opened_begun hg
      split at this
      · exact this
      · exact this
    unfold TileIt.new at h
    cases hp : TileIt.product p z.zTilen 1 with
    | err e => rw [hp] at h; cases h
    | panic => rw [hp] at h; cases h
    | ok n =>
      rw [hp, Res.bind_ok] at h
      cases hm : umul p n 4 with
      | err e => rw [hm] at h; cases h
      | panic => rw [hm] at h; cases h
      | ok size =>
        rw [hm, Res.bind_ok] at h
        split at h
        · cases h
        · have last : ∀ kw : Res (Option FloatKw), (kw >>= fun kw => Res.ok ({
                ty := z.zBitpix, rows := TableRows.new (u.readTheHeap false),
                buf := List.replicate size 0, nPixels := 0, remaining := 0, kw, zTile := z.zTilen, cmp := z.zCmpType,
                dataIdx := z.dataCompressedIdx } : TileIt)) = .ok it →
              it.rows.data.Begun ∧ it.rows.row = 0 ∧ it.rows.data.row = 0 ∧ it.zTile = z.zTilen ∧ it.cmp = z.zCmpType ∧
              (TileIt.product p it.zTile 1 = .ok 0 → it.buf = []) := by
            intro kw h
            cases kw with
            | err e => cases h
            | panic => cases h
            | ok kw =>
              cases h
              refine ⟨hu.1, rfl, hu.2, rfl, rfl, fun h0 => ?_⟩
              have h0 : TileIt.product p z.zTilen 1 = .ok 0 := h0
              rw [hp] at h0
              have hz := Res.ok.inj h0
              rw [hz] at hm
              have : size = 0 := by
                unfold umul at hm
                rw [if_pos (by decide)] at hm
                exact (Res.ok.inj hm).symm
              show List.replicate size (0 : UInt8) = []
              rw [this]
              rfl
          exact last _ h

/-- **C105, pixels.** Iterating over the pixels of a compressed image just opened ends, and so does each of the calls: whatever the
table, the bytes of the tiles and the gzip decoder, for all the compressions.
Missing: the tiles compressed by RICE that have `2^31 - nblock` pixels or more (`C105_fails`). -/
theorem C105_pixels_partial {p : Profile} (gz : Gunzip) {f : Fits} {x : Hdu BinTable} {z : TileCompressedImage} {it : TileIt}
    (h : f.getTiles p x z = .ok it) (hr : ∀ b n, z.zCmpType = .rice b → TileIt.product p z.zTilen 1 = .ok n → RiceFits b n) :
    it.Ends p gz := by
  obtain ⟨h1, h2, h3, h4, h5, h6⟩ := tiles_begun h
  have hg : it.rows.data.Going := .inl h1
  obtain ⟨k, hk⟩ := hg.endsIn (p := p)
  have hm : ∃ m, ∀ n, TileIt.product p z.zTilen 1 = .ok n → n = m := by
    cases hp : TileIt.product p z.zTilen 1 with
    | ok m => exact ⟨m, fun n e => (Res.ok.inj e).symm⟩
    | err e => exact ⟨0, fun n e => by cases e⟩
    | panic => exact ⟨0, fun n e => by cases e⟩
  obtain ⟨m, hm⟩ := hm
  have he : it.Enough p (k + 2 + Rice.turns m it.rows.data.rd.data.length) := by
    refine ⟨fun b n hc hn => ?_, h6⟩
    rw [h4] at hn
    rw [h5] at hc
    exact ⟨hr b n hc hn, by rw [hm n hn]; omega⟩
  obtain ⟨n, r, g1, g2, g3⟩ := TileIt.ends_of (gz := gz) k it he ⟨hk, hg, by rw [h2]; exact Nat.zero_le _⟩ (by omega)
  exact ⟨_, n, r, g1, g2, g3⟩

/-- Any bytes for a tile: it is decoded, it is cut, or its blocks are empty. -/
example (p : Profile) : RiceFits 2 6 ∧ RiceFits 0 6 ∧ RiceFits 32 (2 ^ 31 - 32) ∧
    Rice.tile p 13 2 6 riceBytes = some (.ok ricePixels) ∧
    Rice.tile p 13 2 6 (riceBytes.take 7) = some (.err (.io .unexpectedEof)) ∧
    Rice.tile p 200 0 6 riceBytes = some (.err (.io .unexpectedEof)) := by
  refine ⟨by unfold RiceFits; omega, by unfold RiceFits; omega, by unfold RiceFits; omega, ?_⟩
  cases p <;> decide +kernel

/-- The hypotheses are met by the image of a file, compressed by RICE. -/
example (gz : Gunzip) : ∃ f' h it, TilesOpened .wrapping (afterPrimary edgeFile) f' h edgeImage it ∧ it.Ends .wrapping gz := by
  obtain ⟨f', h, it, ho, -⟩ := tiles_opened sample_edge rfl
  refine ⟨f', h, it, ho, C105_pixels_partial gz ho.tiles fun b n hb hn => ?_⟩
  cases hb
  have e : TileIt.product .wrapping edgeImage.zTilen 1 = .ok 2 := by decide
  rw [e] at hn
  cases hn
  unfold RiceFits
  omega

end Fitsrs

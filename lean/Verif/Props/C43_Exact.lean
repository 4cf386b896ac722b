import Verif.Props.C43
/-
C43: what is read in a GZIP_2 tile of bytes.
-/

namespace Fitsrs
open Spec

/-- The same iterator, as if the image were compressed with GZIP_2. -/
def TileIt.asGzip2 (it : TileIt) : TileIt := { it with cmp := .gzip2 }

/-- A state of an iterator over a GZIP_1 image of bytes. -/
def TileIt.IsByteGzip (it : TileIt) : Prop := it.cmp = .gzip1 ∧ it.ty = .u8

/-- The results of a call on the two iterators: the same, with the same state unless the
result is `stop`. -/
inductive SameBytes {α : Type} (stop : α) : Option (α × TileIt) → Option (α × TileIt) → Prop
  | none : SameBytes stop none none
  | go (a : α) {it : TileIt} : it.IsByteGzip → SameBytes stop (some (a, it.asGzip2)) (some (a, it))
  | stop (it it' : TileIt) : SameBytes stop (some (stop, it')) (some (stop, it))

theorem fill_bytes {p : Profile} {gz : Gunzip} {fuel : Nat} {off : Int} {it : TileIt}
    (hi : it.IsByteGzip) :
    SameBytes (.ok false) (it.asGzip2.fill p gz fuel off) (it.fill p gz fuel off) := by
  obtain ⟨h1, h2⟩ := hi
  unfold TileIt.fill
  dsimp only
  have er : it.asGzip2.rows = it.rows := rfl
  have en : it.asGzip2.nPixels = it.nPixels := rfl
  have ec : it.asGzip2.cmp = .gzip2 := rfl
  rw [er]
  cases hs : it.rows.data.rd.seekRelative off with
  | mk r rd =>
    cases r with
    | err e => exact .stop _ _
    | panic => exact .go _ (it := { it with rows := { it.rows with data := { it.rows.data with rd } } }) ⟨h1, h2⟩
    | ok u =>
      dsimp only
      rw [show it.asGzip2.buf = it.buf from rfl, en, ec, h1]
      unfold TileIt.decompress
      dsimp only
      by_cases hsz : it.buf.length ≤ (gz (rd.data.drop rd.pos)).length
      · rw [if_pos hsz]
        exact .go _ (it := { it with cmp := .gzip1, buf := (gz (rd.data.drop rd.pos)).take it.buf.length }) ⟨rfl, h2⟩
      · rw [if_neg hsz]
        exact .stop _ _

theorem openTile_bytes {p : Profile} {gz : Gunzip} {fuel : Nat} {vs : List DataValue}
    {it : TileIt} (hi : it.IsByteGzip) :
    SameBytes (.ok false) (it.asGzip2.openTile p gz fuel vs) (it.openTile p gz fuel vs) := by
  unfold TileIt.openTile
  have e1 : it.asGzip2.dataIdx = it.dataIdx := rfl
  have e2 : it.asGzip2.zTile = it.zTile := rfl
  have e3 : it.asGzip2.rows = it.rows := rfl
  have e4 : it.asGzip2.kw = it.kw := rfl
  rw [e1, e2]
  dsimp only
  rw [e3, e4]
  split
  · rename_i n _ _
    split
    · rename_i kw _
      split
      · rename_i off _
        exact fill_bytes (it := { it with nPixels := n, remaining := n, kw := kw }) hi
      · exact .go _ (it := { it with nPixels := n, remaining := n, kw := kw }) hi
    · exact .go _ (it := { it with nPixels := n, remaining := n }) hi
  · exact .go _ hi

theorem load_bytes {p : Profile} {gz : Gunzip} {fuel : Nat} {it : TileIt}
    (hi : it.IsByteGzip) :
    SameBytes (.ok false) (it.asGzip2.load p gz fuel) (it.load p gz fuel) := by
  unfold TileIt.load
  have e3 : it.asGzip2.rows = it.rows := rfl
  rw [e3]
  split
  · exact .none
  · rename_i vs rows _
    exact openTile_bytes (it := { it with rows }) hi
  · exact .stop _ _
  · exact .stop _ _
  · rename_i rows _
    exact .go _ (it := { it with rows }) hi

theorem pixel_bytes {p : Profile} {it : TileIt} (hi : it.IsByteGzip) :
    it.asGzip2.pixel p = ((it.pixel p).1, (it.pixel p).2.asGzip2) ∧ (it.pixel p).2.IsByteGzip := by
  obtain ⟨h1, h2⟩ := hi
  unfold TileIt.pixel
  have e1 : it.asGzip2.nPixels = it.nPixels := rfl
  have e2 : it.asGzip2.remaining = it.remaining := rfl
  have e3 : it.asGzip2.kw = it.kw := rfl
  have e4 : ∀ i, TileIt.rawValue it.asGzip2.ty it.asGzip2.cmp it.asGzip2.buf i = TileIt.rawValue it.ty it.cmp it.buf i := by
    intro i
    rw [h1]
    show TileIt.rawValue it.ty .gzip2 it.buf i = TileIt.rawValue it.ty .gzip1 it.buf i
    rw [h2]
    rfl
  rw [e1, e2, e3]
  simp only [e4]
  split
  · split
    · exact ⟨rfl, h1, h2⟩
    · exact ⟨rfl, h1, h2⟩
  · exact ⟨rfl, h1, h2⟩

theorem next_bytes {p : Profile} {gz : Gunzip} {fuel : Nat} {it : TileIt}
    (hi : it.IsByteGzip) :
    SameBytes (.ok none) (it.asGzip2.next p gz fuel) (it.next p gz fuel) := by
  have pix : ∀ {it : TileIt}, it.IsByteGzip → SameBytes (.ok none) (some (it.asGzip2.pixel p)) (some (it.pixel p)) := by
    intro it hi
    obtain ⟨h1, h2⟩ := pixel_bytes (p := p) hi
    rw [h1]
    exact .go _ h2
  unfold TileIt.next
  have e2 : it.asGzip2.remaining = it.remaining := rfl
  rw [e2]
  by_cases h0 : it.remaining = 0
  · rw [if_pos h0, if_pos h0]
    have hl := load_bytes (p := p) (gz := gz) (fuel := fuel) hi
    generalize it.asGzip2.load p gz fuel = x at hl ⊢
    generalize it.load p gz fuel = y at hl ⊢
    cases hl with
    | none => exact .none
    | stop it it' => exact .stop _ _
    | go a hi =>
      cases a with
      | err e => exact .stop _ _
      | panic => exact .go _ hi
      | ok b =>
        cases b with
        | false => exact .stop _ _
        | true => exact pix hi
  · rw [if_neg h0, if_neg h0]
    exact pix hi

theorem run_bytes {p : Profile} {gz : Gunzip} {fuel : Nat} (n : Nat) {it : TileIt} (hi : it.IsByteGzip) : untilNone (it.asGzip2.run p gz fuel n) = untilNone (it.run p gz fuel n) := by
  induction n generalizing it with
  | zero => rfl
  | succ n ih =>
    have hn := next_bytes (p := p) (gz := gz) (fuel := fuel) hi
    rw [TileIt.run, TileIt.run]
    generalize it.asGzip2.next p gz fuel = x at hn ⊢
    generalize it.next p gz fuel = y at hn ⊢
    cases hn with
    | none => rfl
    | stop it it' => rfl
    | go a hi =>
      dsimp only
      rcases a with (_ | v) | e | _
      · rfl
      all_goals
        show _ :: untilNone _ = _ :: untilNone _
        rw [ih hi]

/-- **C43, exactly, for bytes**: the iterator over a GZIP_2 image of 8-bit pixels gives what the iterator over the GZIP_1
image with the same tiles gives, in any number of calls up to the first `None`: the bytes are taken as they come out of
the decompressor. -/
theorem C43_exact_bytes {p : Profile} {t : TableData} {h : Header BinTable} {z : TileCompressedImage} {it it' : TileIt}
    (hz : z.zBitpix = .u8) (hc : z.zCmpType = .gzip1) (h1 : TileIt.new p t h z = .ok it)
    (h2 : TileIt.new p t h { z with zCmpType := .gzip2 } = .ok it') (gz : Gunzip) (fuel n : Nat) :
    untilNone (it'.run p gz fuel n) = untilNone (it.run p gz fuel n) := by
  unfold TileIt.new at h1 h2
  obtain ⟨a, ha, h1⟩ := Res.bind_eq_ok.1 h1
  obtain ⟨b, hb, h1⟩ := Res.bind_eq_ok.1 h1
  obtain ⟨a', ha', h2⟩ := Res.bind_eq_ok.1 h2
  obtain ⟨b', hb', h2⟩ := Res.bind_eq_ok.1 h2
  dsimp only at ha'
  rw [ha, Res.ok.injEq] at ha'
  subst ha'
  rw [hb, Res.ok.injEq] at hb'
  subst hb'
  by_cases hbig : 2 ^ 63 ≤ b
  · rw [if_pos hbig] at h1; cases h1
  · rw [if_neg hbig] at h1 h2
    dsimp only at h1 h2
    rw [hz] at h1 h2
    simp only [Res.bind_ok, Res.ok.injEq] at h1 h2
    rw [← run_bytes n (it := it) (by rw [← h1]; exact ⟨hc, rfl⟩)]
    congr 2
    rw [← h1, ← h2]
    rfl

/-- The bytes of the pixels 1 and 2, shuffled, are read as they are: pixels 0 and 2 are given. -/
example (p : Profile) : untilNone ((gzipIt .u8 .gzip2).run p (.of fun _ => shuffle [0, 0, 0, 1, 0, 0, 0, 2]) 5 3) =
    [some (.ok (some (.int 0))), some (.ok (some (.int 2))), some (.ok none)] := by
  rw [C43_exact_bytes (t := gzipState) (h := ⟨[], [], gzipTable⟩) (z := gzipImage .u8) (it := gzipIt .u8 .gzip1)
    rfl rfl (by cases p <;> rfl) (by cases p <;> rfl)]
  cases p <;> decide +kernel

end Fitsrs

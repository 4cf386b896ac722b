import Verif.Model.Cli
import Verif.Spec.Cli
import Verif.Props.C71_C72
import Verif.Props.C73
/-
C74: the command `fits struct`.
-/

namespace Fitsrs
open Spec

theorem joinWith_cons (sep : Str) (t : Str) (ts : List Str) :
    joinWith sep (t :: ts) = t ++ ts.flatMap (sep ++ ·) := by
  induction ts generalizing t with
  | nil => simp [joinWith]
  | cons u us ih =>
    show t ++ sep ++ joinWith sep (u :: us) = _
    rw [ih]
    simp

theorem dimensions_eq (axes : List Nat) :
    Cli.dimensions axes = if axes = [] then ['0'] else joinWith ['x'] (axes.map decimal) := by
  cases axes with
  | nil => rfl
  | cons d ds =>
    rw [if_neg (by simp), List.map_cons, joinWith_cons]
    have : ∀ (l : List Str) (a : Str), l.foldl (fun s d => (s ++ ['x']) ++ d) a = a ++ l.flatMap (['x'] ++ ·) := by
      intro l
      induction l with
      | nil => intro a; simp
      | cons e l ih => intro a; rw [List.foldl_cons, ih]; simp
    exact this (ds.map natStr) (natStr d)

theorem debugSlice_eq (axes : List Nat) :
    Cli.debugSlice axes = '[' :: (joinWith ", ".toList (axes.map decimal) ++ [']']) := by
  cases axes with
  | nil => rfl
  | cons d ds =>
    rw [List.map_cons, joinWith_cons]
    have : ∀ l : List Nat, Cli.debugTail l = (l.map decimal).flatMap (", ".toList ++ ·) := by
      intro l
      induction l with
      | nil => rfl
      | cons e l ih => rw [Cli.debugTail, ih]; rfl
    rw [Cli.debugSlice, this]
    rfl

theorem imageLine_eq (b : Bitpix) (axes : List Nat) :
    Cli.imageLine ⟨b, axes⟩ =
      " * HEAD naxis: [".toList ++ joinWith ", ".toList (axes.map decimal) ++ "]; bitpix : ".toList ++ (pixelName b).toList ++
        "; dimensions: ".toList ++ (if axes = [] then ['0'] else joinWith ['x'] (axes.map decimal)) ++ ['.'] := by
  have e1 : " * HEAD naxis: [".toList = " * HEAD naxis: ".toList ++ ['['] := by decide +kernel
  have e2 : "]; bitpix : ".toList = ']' :: "; bitpix : ".toList := by decide +kernel
  have e3 : Cli.debugBitpix b = (pixelName b).toList := by cases b <;> rfl
  show " * HEAD naxis: ".toList ++ Cli.debugSlice axes ++ "; bitpix : ".toList ++ Cli.debugBitpix b ++
    "; dimensions: ".toList ++ Cli.dimensions axes ++ ['.'] = _
  rw [debugSlice_eq, dimensions_eq, e1, e2, e3]
  generalize " * HEAD naxis: ".toList = a1
  generalize "; bitpix : ".toList = a2
  generalize "; dimensions: ".toList = a3
  generalize ", ".toList = a4
  generalize (pixelName b).toList = a5
  simp only [List.append_assoc, List.cons_append, List.nil_append]

theorem headLines_image {x : Image} {b : Bitpix} {axes : List Nat} (hx : x = ⟨b, axes⟩) (ps : List Pixel) (primary : Bool) :
    [Cli.typeLine (if primary then "PRIMARY" else "IMAGE"), Cli.imageLine x] = (Body.image b axes ps).report primary := by
  subst hx
  have e : Cli.typeLine (if primary then "PRIMARY" else "IMAGE") =
      (if primary then " * HDU type: PRIMARY" else " * HDU type: IMAGE").toList := by
    cases primary <;> decide +kernel
  rw [e, imageLine_eq, Body.report]

theorem headLines_table (t : WrittenTable) (primary : Bool) :
    [Cli.typeLine "BINTABLE", Cli.tableLine t.columns.length t.rows.length] = (Body.table t).report primary := by
  have e : Cli.typeLine "BINTABLE" = " * HDU type: BINTABLE".toList := by decide +kernel
  rw [e, Body.report]
  rfl

theorem headLines_ascii (w r f : Nat) (text : List UInt8) (primary : Bool) :
    [Cli.typeLine "ASCIITABLE", Cli.tableLine f r] = (Body.ascii w r f text).report primary := by
  have e : Cli.typeLine "ASCIITABLE" = " * HDU type: ASCIITABLE".toList := by decide +kernel
  rw [e, Body.report]
  rfl

theorem headLines_shown {primary : Bool} {o : Nat} {u : WrittenHdu} {h : HDU} (hs : ShownAs primary o u h) :
    Cli.headLines h = u.body.report primary := by
  have hb := hs.body
  have hk := hs.kind
  generalize u.body = body at hb ⊢
  cases body with
  | image b axes ps =>
    cases h with
    | primary x =>
      obtain rfl := hk.1 ⟨x, rfl⟩
      exact headLines_image hb ps true
    | image x =>
      cases primary with
      | true =>
        obtain ⟨y, hy⟩ := hk.2 rfl
        cases hy
      | false => exact headLines_image hb ps false
    | binTable x => exact hb.elim
    | asciiTable x => exact hb.elim
  | ascii w r f text =>
    cases h with
    | asciiTable x =>
      obtain ⟨-, h2, h3⟩ : _ ∧ _ ∧ _ := hb
      refine Eq.trans ?_ (headLines_ascii w r f text primary)
      rw [Cli.headLines, h2, h3]
    | primary x => exact hb.elim
    | image x => exact hb.elim
    | binTable x => exact hb.elim
  | table t =>
    cases h with
    | binTable x =>
      obtain ⟨⟨-, -, -, h3, -, -, h6⟩, -⟩ : _ ∧ _ := hb
      refine Eq.trans ?_ (headLines_table t primary)
      rw [Cli.headLines, h3, h6]
    | primary x => exact hb.elim
    | image x => exact hb.elim
    | asciiTable x => exact hb.elim
  | tiles w =>
    cases h with
    | binTable x =>
      obtain ⟨⟨-, -, -, h3, -, -, h6⟩, -⟩ : _ ∧ _ := hb
      refine Eq.trans ?_ (headLines_table w.table primary)
      rw [Cli.headLines, h3, h6]
    | primary x => exact hb.elim
    | image x => exact hb.elim
    | asciiTable x => exact hb.elim

theorem printHdu_shown {p : Profile} {primary : Bool} {i o : Nat} {u : WrittenHdu} {h : HDU}
    (hs : ShownAs primary o u h) (hsz : h.dataSize p = .ok u.body.data.length) :
    Cli.printHdu p i h = (u.report primary i o, .ok ()) := by
  unfold Cli.printHdu
  rw [hsz]
  dsimp only
  rw [headLines_shown hs, hs.offset]
  rfl

/-- The lines printed for the items of the iteration. -/
def itemLines (p : Profile) : Nat → List (Res HDU) → List Str × Res Unit
  | _, [] => ([], .ok ())
  | i, .ok h :: l =>
    match Cli.printHdu p i h with
    | (ls, .ok _) => (ls ++ (itemLines p (i + 1) l).1, (itemLines p (i + 1) l).2)
    | (ls, .err e) => (ls, .err e)
    | (ls, .panic) => (ls, .panic)
  | _, .err e :: _ => ([], .err e)
  | _, .panic :: _ => ([], .panic)

theorem next_ok_start {p : Profile} {f f' : Fits} {h : HDU} (e : f.next p = (some (.ok h), f')) : readData 0 f' = f' := by
  obtain ⟨h1, h2, h3, -⟩ := next_ok_state e
  cases f' with
  | mk st ps nb er rd =>
    dsimp only at h2 h3
    unfold readData
    dsimp only
    rw [Nat.zero_min, Nat.add_zero, h3, ← h2]

theorem exec_items {p : Profile} (k i : Nat) (f : Fits)
    (hl : (collectReading p (List.replicate k 0) f).length < k) :
    Cli.exec p k i f = ((itemLines p i (collectReading p (List.replicate k 0) f)).1,
      some (itemLines p i (collectReading p (List.replicate k 0) f)).2) := by
  induction k generalizing i f with
  | zero => simp at hl
  | succ k ih =>
    rw [List.replicate_succ, collectReading] at hl ⊢
    rw [Cli.exec]
    cases hn : f.next p with
    | mk r f' =>
      rw [hn] at hl
      cases r with
      | none => rfl
      | some r =>
        cases r with
        | ok h =>
          dsimp only at hl ⊢
          rw [next_ok_start hn] at hl ⊢
          have := ih (i + 1) f' (by simpa using hl)
          rw [this]
          rw [itemLines]
          cases hp : Cli.printHdu p i h with
          | mk ls r => cases r <;> rfl
        | err e => rfl
        | panic => rfl

theorem fileOf_size {p : Profile} {first : Bool} {o : Nat} {s : Segment} {ss : List Segment} {h : HDU} {hs : List HDU}
    (hf : FileOf p first o (s :: ss) (h :: hs)) : h.dataSize p = .ok s.data.length := by
  cases hf with
  | last _ hd _ => exact hd.size
  | cons _ hd _ _ => exact hd.size

theorem fileOf_rest {p : Profile} {first : Bool} {o : Nat} {s : Segment} {ss : List Segment} {h : HDU} {hs : List HDU}
    (hf : FileOf p first o (s :: ss) (h :: hs)) (hss : ss ≠ []) : FileOf p false (o + s.bytes.length) ss hs := by
  cases hf with
  | last _ _ _ => exact absurd rfl hss
  | cons _ _ _ hr => exact hr

theorem itemLines_cut {p : Profile} {primary : Bool} {i o n : Nat} {us : List WrittenHdu} {hs : List HDU}
    (hf : FileOf p primary o (us.map WrittenHdu.segment) hs) (hs' : ShownAll primary o us hs) :
    itemLines p i (cutItems n primary o (us.map WrittenHdu.segment) hs) = cutReport n primary i o us := by
  induction hs' generalizing i with
  | nil => rfl
  | @cons primary o u us h hs hsh hrest ih =>
    rw [List.map_cons] at hf ⊢
    have hd : h.dataSize p = .ok u.body.data.length := fileOf_size hf
    unfold cutItems cutReport
    by_cases h1 : o + u.segment.header.length ≤ n
    · rw [if_pos h1, if_pos h1, itemLines, printHdu_shown hsh hd]
      dsimp only
      cases us with
      | nil =>
        cases hrest
        rfl
      | cons v vs =>
        rw [ih (fileOf_rest hf (by simp))]
    · rw [if_neg h1, if_neg h1]
      by_cases h2 : primary = false ∧ n < o + 80
      · rw [if_pos h2, if_pos h2]
        rfl
      · rw [if_neg h2, if_neg h2]
        rfl

theorem cutItems_length {n : Nat} {first : Bool} {o : Nat} {ss : List Segment} {hs : List HDU} :
    (cutItems n first o ss hs).length ≤ hs.length := by
  induction hs generalizing first o ss with
  | nil => cases ss <;> simp [cutItems]
  | cons h hs ih =>
    cases ss with
    | nil => simp [cutItems]
    | cons s ss =>
      unfold cutItems
      split
      · simpa using ih
      · split <;> simp

theorem Spec.ShownAll.length {primary : Bool} {o : Nat} {us : List WrittenHdu} {hs : List HDU} (h : ShownAll primary o us hs) :
    hs.length = us.length := by
  induction h with
  | nil => rfl
  | cons _ _ ih => simp [ih]

/-- **C74.** The command `fits struct`, on a written file cut after any number `n` of bytes, prints the kind, the
dimensions, the place and the size of the data of the HDUs whose headers are complete, in order, and ends with an error
exactly if a part of a header is left.  (`k`: a bound on the number of steps, more than the number of HDUs.) -/
theorem C74_cut (p : Profile) (us : List WrittenHdu) (hf : File true us) (hw : ∀ u ∈ us, u.body.Whole)
    (hs : (fileBytes us).length + 2960 < 2 ^ 63) (n k : Nat) (hk : us.length < k) :
    Cli.exec p k 0 (Fits.fromReader ⟨(fileBytes us).take n, 0⟩) =
      ((cutReport n true 0 0 us).1, some (cutReport n true 0 0 us).2) := by
  obtain ⟨hs', h1, h2⟩ := hf.fileOf (p := p) hw (by omega) 0
  have hlen := h2.length
  have hbytes : fileBytes us = ((us.map WrittenHdu.segment).map Segment.bytes).flatten := by
    unfold fileBytes
    rw [List.map_map]
    rfl
  have hitems := C73_cut h1 (by rw [← hbytes]; exact hs) n (List.replicate k 0) (by rw [List.length_replicate]; omega)
  rw [← hbytes] at hitems
  rw [exec_items k 0 _ (by
    rw [hitems]
    exact Nat.lt_of_le_of_lt cutItems_length (by omega)), hitems, itemLines_cut h1 h2]

theorem cutReport_full {n : Nat} {primary : Bool} {i o : Nat} {us : List WrittenHdu}
    (hn : o + (fileBytes us).length ≤ n) : cutReport n primary i o us = (fullReport primary i o us, .ok ()) := by
  induction us generalizing primary i o with
  | nil => rfl
  | cons u us ih =>
    have hl : (fileBytes (u :: us)).length = u.segment.bytes.length + (fileBytes us).length := by
      unfold fileBytes
      rw [List.map_cons, List.flatten_cons, List.length_append]
    have hb : u.segment.header.length ≤ u.segment.bytes.length := by
      unfold Segment.bytes
      simp only [List.length_append]
      omega
    unfold cutReport fullReport
    rw [if_pos (by omega), ih (by omega)]

/-- **C74.** On a whole written file, `fits struct` prints the structure of the file and succeeds. -/
theorem C74_struct (p : Profile) (us : List WrittenHdu) (hf : File true us) (hw : ∀ u ∈ us, u.body.Whole)
    (hs : (fileBytes us).length + 2960 < 2 ^ 63) (k : Nat) (hk : us.length < k) :
    Cli.exec p k 0 (Fits.fromReader ⟨fileBytes us, 0⟩) = (fullReport true 0 0 us, some (.ok ())) := by
  have h := C74_cut p us hf hw hs (fileBytes us).length k hk
  rw [List.take_length, cutReport_full (by omega)] at h
  exact h

/-- The report on a file with an image, an ASCII table and a binary table. -/
example (p : Profile) : (Cli.exec p 4 0 (Fits.fromReader ⟨fileBytes [writtenPrimary, writtenAscii, writtenTable], 0⟩)).1 =
    ["HDU[0]:".toList, " * HDU type: PRIMARY".toList,
     " * HEAD naxis: [2]; bitpix : I16; dimensions: 2.".toList, " * DATA starting byte: 2880; byte size: 4.".toList,
     "HDU[1]:".toList, " * HDU type: ASCIITABLE".toList,
     " * HEAD n_cols: 1; n_rows: 2.".toList, " * DATA starting byte: 8640; byte size: 8.".toList,
     "HDU[2]:".toList, " * HDU type: BINTABLE".toList,
     " * HEAD n_cols: 2; n_rows: 2.".toList, " * DATA starting byte: 14400; byte size: 14.".toList] := by
  rw [C74_struct p _ (.cons writtenPrimary_legal (by decide +kernel) (.cons writtenAscii_legal (by decide +kernel)
      (.last writtenTable_legal (by decide +kernel)))) (by
      intro u hu
      simp only [List.mem_cons, List.not_mem_nil, or_false] at hu
      rcases hu with rfl | rfl | rfl
      · trivial
      · trivial
      · intro r hr
        simp [WrittenTable.forms, WrittenColumn.form] at hr) (by decide +kernel) 4 (by decide)]
  decide +kernel

end Fitsrs

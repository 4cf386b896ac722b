import Verif.Model.Wcs
import Verif.Props.C65
/-
C87: the world coordinate system found in a header depends only on its own keywords.
-/

namespace Fitsrs
open Spec

/-- The two headers have the same last value for each of the keywords. -/
def Spec.SameValues (keys : List Str) (cards cards' : List Card) : Prop :=
  ∀ k ∈ keys, lastValue (entries cards) k = lastValue (entries cards') k

/-- **C87.** A world coordinate system is found in the header of an image or of a binary table exactly if its fields can be read,
each from the last record with its keyword, and the crate `wcs` accepts them; it is the one that this crate then builds. -/
theorem C87_fields {X W : Type} (fs : List SField) (build : Struct fs → Res W) (parse : ValueMap → Res X) (cards : List Card)
    (h : Header X) (hn : (fs.map SField.name).Nodup) (hp : Header.parse parse cards = .ok h) (w : W) :
    h.wcs fs build = .ok w ↔
      ∃ params, Each (fun f => fieldValue f (lastValue (entries cards) f.name)) fs params ∧ build params = .ok w := by
  unfold Header.wcs
  rw [Res.bind_eq_ok]
  exact exists_congr fun t => and_congr_left fun _ => C65_fields fs parse cards h t hn hp

/-- **C87, consequence.** Two headers, of images or tables, with the same values for the keywords of the world coordinate system
give the same one or none, whatever the other records and the order of the records are. -/
theorem C87_same {X Y W : Type} (fs : List SField) (build : Struct fs → Res W) (parse : ValueMap → Res X)
    (parse' : ValueMap → Res Y) (cards cards' : List Card) (h : Header X) (h' : Header Y)
    (hn : (fs.map SField.name).Nodup) (hp : Header.parse parse cards = .ok h) (hp' : Header.parse parse' cards' = .ok h')
    (hs : SameValues (fs.map SField.name) cards cards') (w : W) :
    h.wcs fs build = .ok w ↔ h'.wcs fs build = .ok w := by
  rw [C87_fields fs build parse cards h hn hp, C87_fields fs build parse' cards' h' hn hp']
  exact exists_congr fun t => and_congr_left fun _ =>
    Each.congr (fun f hf x => by rw [hs f.name (List.mem_map_of_mem hf)])

/-- Some of the fields. -/
def wcsFields : List SField :=
  [.plain "CTYPE1".toList (deserializeAny stringVisitor), .option "CRVAL1".toList (deserializeAny f64Visitor)]

/-- The headers of an image and of a table, with the same coordinates given in another order. -/
def wcsCards : List Card :=
  [.value "CTYPE1".toList (.string "RA---TAN".toList none), .value "CRVAL1".toList (.integer 3 none), .end_]

def wcsCards' : List Card :=
  [.value "CRVAL1".toList (.integer 5 none), .value "TFIELDS".toList (.integer 1 none),
    .value "CTYPE1".toList (.string "RA---TAN".toList none), .value "CRVAL1".toList (.integer 3 none), .end_]

example : ∃ (h : Header Unit) (h' : Header Nat), Header.parse (fun _ => .ok ()) wcsCards = .ok h ∧
    Header.parse (fun _ => .ok 1) wcsCards' = .ok h' ∧ SameValues (wcsFields.map SField.name) wcsCards wcsCards' ∧
    h.wcs wcsFields (fun t => .ok t) = .ok ("RA---TAN".toList, some (Dec.fin false 3 0), ()) ∧
    h'.wcs wcsFields (fun t => .ok t) = .ok ("RA---TAN".toList, some (Dec.fin false 3 0), ()) := by
  refine ⟨_, _, rfl, rfl, ?_, rfl, rfl⟩
  intro k hk
  rcases List.mem_cons.1 hk with rfl | hk
  · decide
  · obtain rfl := List.mem_singleton.1 hk
    decide

end Fitsrs

import Verif.Spec.Script
import Verif.Spec.Bi
/-! C114: consumers on the walks over the associations of one key of a two-sided collection.  The contents with the place
of the walk in them are the ideal collection: the iterator the walk uses is in it. -/
namespace Verif.ScriptSpec
open Verif Verif.Bi Verif.BiSpec

/-- The next association of the iterator; what it shows is handed out. -/
def pairsMove (d : Dir) (k : Kind) (i : Ideal) : Option (Option Int × Ideal) :=
  match (i.cursor d k).rest with
  | some (e :: l) => (i.assocs.find? fun a => a.entry = e).map fun a =>
      (some (a.show d k), i.setCursor d k ⟨(i.cursor d k).key, some l⟩)
  | _ => none

/-- The calls that may be made: they respect `Guard`, do not take away the association that is next, and leave the key
of the walk in reach (`Covered`). -/
def pairsMay (d : Dir) (k : Kind) (o : Op) (i : Ideal) : Prop :=
  Guard o i ∧ ∀ r, Ok o r i →
    ((after o r i).cursor d k).rest ≠ none ∧ (after o r i).Covered d ((after o r i).cursor d k).key

/-- The answers an ideal collection may give, and what it is afterwards. -/
def pairsCan (o : Op) (i : Ideal) (r : Except Err Out) (j : Ideal) : Prop := Ok o r i ∧ j = after o r i

/-- The walk over the key the mapping is set to begins: its iterator is set to the associations of the key, most recent
first. -/
def pairsBegin (d : Dir) (k : Kind) (i : Ideal) : Ideal := i.setCursor d k ⟨i.key d, some (i.entriesOf d (i.key d))⟩

/-! ### all entries: the entries still to come and the ideal collection -/

/-- Entry by entry; an entry that is gone is passed over. -/
def entriesMove : List Int × Ideal → Option (Option Int × List Int × Ideal)
  | ([], _) => none
  | (e :: rest, i) => some (if e ∈ i.live then some e else none, rest, i)

/-- The calls that may be made: they respect `Guard`, add no association, and do not take away the first entry to come
that is still there. -/
def entriesMay (o : Op) (a : List Int × Ideal) : Prop :=
  Guard o a.2 ∧ (∀ l r, o = .put l r → (a.2.find l r).isSome) ∧
    ∀ r, Ok o r a.2 → ∀ e, (a.1.find? fun e => e ∈ a.2.live) = some e → e ∈ (after o r a.2).live

/-- The answers an ideal collection may give, and what it is afterwards. -/
def entriesCan (o : Op) (a : List Int × Ideal) (r : Except Err Out) (b : List Int × Ideal) : Prop :=
  Ok o r a.2 ∧ b = (a.1, after o r a.2)

end Verif.ScriptSpec

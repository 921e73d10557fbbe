import Verif.Spec.Index
import Verif.Model.Iterator
import Verif.Trace
/-! The ideal iterator: a cursor over a list of entries. -/
namespace Verif.IndexSpec
open Verif.Iterating

/-- Where an iterator stands. -/
inductive Pos
  | start | at (e : Int) | removed (e : Int) | done

/-- The ideal iterator: where it stands, the entries to come, and the map it iterates over. -/
structure Cursor (K V : Type) where
  pos : Pos
  todo : List Int
  map : Abs K V

variable {K V : Type} [Inhabited K] [Inhabited V]

/-- Removal of an entry through the iterator. -/
def Abs.dropFree (a : Abs K V) (e : Int) : Abs K V := { a.drop e with free := e :: a.free }

/-- One call on the ideal iterator. `next` moves to the next entry, or to the end. `remove` removes
the current entry, once; before the first `next` it also moves to the first entry; with no current
entry it fails. -/
def Cursor.step : ItOp → Cursor K V → Except Err (Option Int) × Cursor K V
  | .next, c =>
    match c.todo with
    | [] => (.ok none, ⟨.done, [], c.map⟩)
    | e :: l => (.ok (some e), ⟨.at e, l, c.map⟩)
  | .remove, c =>
    match c.pos with
    | .start =>
      match c.todo with
      | [] => (.error .indexOutOfBounds, ⟨.done, [], c.map⟩)
      | e :: l => (.ok none, ⟨.removed e, l, c.map.dropFree e⟩)
    | .at e => (.ok none, ⟨.removed e, c.todo, c.map.dropFree e⟩)
    | .removed _ => (.error .illegalState, c)
    | .done => (.error .indexOutOfBounds, c)

end Verif.IndexSpec

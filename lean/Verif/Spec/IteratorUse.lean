import Verif.Model.IteratorUse
import Verif.Spec.IndexReach
/-!
The ideal iterator of a collection that is used at the same time: a cursor as long as nothing but the iterator
itself changed the number of entries, and useless afterwards.
-/
namespace Verif.IndexSpec
open Verif.Index Verif.Iterating
variable {K V : Type} [Inhabited K] [Inhabited V]

/-- What an iterator is good for. -/
inductive Mode
  /-- it works -/
  | valid
  /-- the number of entries changed behind its back: it must complain -/
  | stale
  /-- not created yet, or the collection was cleared: nothing is promised until `iterator` is called -/
  | void
  deriving DecidableEq

/-- The contents (in `cursor.map`), the place of the iterator and what it is good for. -/
structure Use (K V : Type) where
  cursor : Cursor K V
  mode : Mode

/-- The calls a program may make. -/
def UseGuard : UseOp K V → Use K V → Prop
  | .call o, u => Guard o u.cursor.map
  | .iterator, _ => True
  | .next, u | .remove, u => u.mode ≠ .void

/-- Which result of a call is right. -/
def UseOk : UseOp K V → Except Err (Out K V) → Use K V → Prop
  | .call o, out, u => Ok o out u.cursor.map
  | .iterator, out, _ => out = .ok .unit
  | .next, out, u =>
    if u.mode = .stale then out = .error .concurrentModification
    else out = .ok (match u.cursor.todo with | e :: _ => .int e | [] => .bool false)
  | .remove, out, u =>
    if u.mode = .stale then out = .error .concurrentModification
    else out = (Cursor.step .remove u.cursor).1.map fun _ => .unit

/-- The call is `clear()`. -/
def isClear : Op K V → Bool
  | .clear => true
  | _ => false

/-- The ideal state after a call with the result `out`; `l` is what `forEachEntry` listed before. -/
def useAfter (l : List Int) : UseOp K V → Except Err (Out K V) → Use K V → Use K V
  | .call o, out, u =>
    let a := after o out u.cursor.map
    { cursor := { u.cursor with map := a },
      mode := if isClear o then .void
        else if u.mode = .valid ∧ a.rows.length ≠ u.cursor.map.rows.length then .stale else u.mode }
  | .iterator, _, u => { cursor := ⟨.start, l, u.cursor.map⟩, mode := .valid }
  | .next, _, u => if u.mode = .stale then u else { u with cursor := (Cursor.step .next u.cursor).2 }
  | .remove, _, u => if u.mode = .stale then u else { u with cursor := (Cursor.step .remove u.cursor).2 }

/-- What `forEachEntry` lists. -/
def entriesOf (s : Index K V) : List Int :=
  match result .forEachEntry s with
  | .ok (.ints l) => l
  | _ => []

/-- All results of the program are right, as long as it makes only the calls it may make. -/
def UseLegal : Use K V → Iterating K V → List (UseOp K V) → Prop
  | _, _, [] => True
  | u, s, o :: os => UseGuard o u →
    UseOk o (useStep o s).out u ∧
      UseLegal (useAfter (entriesOf s.map) o (useStep o s).out u) (useStep o s).state os

/-- What a call of `forEachEntry` listed. -/
def listed : Except Err (Out K V) → List Int
  | .ok (.ints l) => l
  | _ => []

/-- The same for a class `st` whose calls `O` are named by `op`, and whose `forEachEntry` is `each`: all results of
the program are right, as long as it makes only the calls it may make. -/
def UseLegalBy {O : Type} (op : O → UseOp K V) (st : O → JM (Iterating K V) (Out K V)) (each : O) :
    Use K V → Iterating K V → List O → Prop
  | _, _, [] => True
  | u, s, o :: os => UseGuard (op o) u →
    UseOk (op o) (st o s).out u ∧
      UseLegalBy op st each (useAfter (listed (st each s).out) (op o) (st o s).out u) (st o s).state os

end Verif.IndexSpec

import Verif.Model.Callbacks
import Verif.Spec.Deque
import Verif.Spec.Vector
import Verif.Spec.Hydra
/-!
What `forEach` should do when its consumer changes the collection: the walk keeps its place, values
put in behind it are not handed out, values put in ahead of it are, and values taken out ahead of it are not.
-/
namespace Verif

namespace DequeSpec
open Verif.Deque
variable {α : Type}

/-- A deque in the middle of a walk: the values handed out (or put in front of those) that are still
there, and the values ahead. -/
structure Walk (α : Type) where
  behind : List α
  ahead : List α

/-- The contents. -/
def Walk.all (w : Walk α) : List α := w.behind ++ w.ahead

/-- What a call of the consumer does to the walk; `none` if the walk does not survive it: it has to stay
below `limit` values, it may take out from the front only what is behind and from the back only what is
ahead, and it must not clear. -/
def Walk.call (limit : Nat) : Op α → Walk α → Option (Walk α)
  | .addFirst v, w => if w.all.length + 1 < limit then some { w with behind := v :: w.behind } else none
  | .addLast v, w => if w.all.length + 1 < limit then some { w with ahead := w.ahead ++ [v] } else none
  | .removeFirst, w =>
    match w.behind with
    | _ :: b => some { w with behind := b }
    | [] => if w.ahead = [] then some w else none
  | .removeLast, w =>
    if w.ahead = [] then (if w.behind = [] then some w else none)
    else some { w with ahead := w.ahead.dropLast }
  | .clear, _ => none
  | _, w => some w

/-- A list of calls. -/
def Walk.calls (limit : Nat) : List (Op α) → Walk α → Option (Walk α)
  | [], w => some w
  | o :: os, w => (Walk.call limit o w).bind (Walk.calls limit os)

/-- The whole walk: with `w` left of the deque and `seen` handed out, the consumer is handed `out` in
total and the deque has the contents `fin` at the end. -/
inductive Walks (limit : Nat) (f : Consumer α (Op α)) : List α → Walk α → List α → List α → Prop
  | done {seen b : List α} : Walks limit f seen ⟨b, []⟩ seen b
  | step {seen b a out fin : List α} {v : α} {w : Walk α} :
      Walk.calls limit (f (seen ++ [v])) ⟨b ++ [v], a⟩ = some w →
      Walks limit f (seen ++ [v]) w out fin → Walks limit f seen ⟨b, v :: a⟩ out fin

/-- The largest number of values held during a history. -/
def peak : List α → List (Op α) → Nat
  | l, [] => l.length
  | l, o :: os => max l.length (peak (step o l).2 os)

end DequeSpec

namespace VecSpec
open Verif.Vec
variable {α : Type}

/-- The walk over a vector: index by index, over whatever the vector holds when the index is reached. -/
inductive Walks (f : Consumer α (Op α)) : List α → Nat → List α → List α → List α → Prop
  | done {seen l : List α} {i : Nat} : l.length ≤ i → Walks f seen i l seen l
  | step {seen l out fin : List α} {i : Nat} {v : α} : l[i]? = some v →
      Allowed step Legal l (f (seen ++ [v])) →
      Walks f (seen ++ [v]) (i + 1) (runS step l (f (seen ++ [v]))).2 out fin → Walks f seen i l out fin

end VecSpec

namespace HydraSpec
open Verif.Hydra Verif.HydraIt
variable {α : Type}

/-- The place of an iterator in its list: at the end, or before a value (`v` is handed out next; `front` and
`back` are the values on either side of it in the list), or unknown because the value it was to hand out next
was removed. -/
inductive Place (α : Type)
  | ended
  | at (front : List α) (v : α) (back : List α)
  | lost

/-- A new iterator, from the front or (reverse) from the back. -/
def Place.start (fwd : Bool) (l : List α) : Place α :=
  if fwd then match l with
    | [] => .ended
    | v :: back => .at [] v back
  else match l.reverse with
    | [] => .ended
    | v :: front => .at front.reverse v []

/-- The place after handing out a value. -/
def Place.advance (fwd : Bool) : Place α → Place α
  | .at front v back =>
    if fwd then match back with
      | [] => .ended
      | w :: back => .at (front ++ [v]) w back
    else match front.reverse with
      | [] => .ended
      | w :: front => .at front.reverse w (v :: back)
  | p => p

/-- What a call on the deque does to an iterator of the list `id`.  An iterator at the end stays there. -/
def Place.after (id : Int) : Op α → Place α → Place α
  | .addFirst i x, .at front v back => if i = id then .at (x :: front) v back else .at front v back
  | .addLast i x, .at front v back => if i = id then .at front v (back ++ [x]) else .at front v back
  | .removeFirst i, .at front v back =>
    if i = id then match front with
      | [] => .lost
      | _ :: front => .at front v back
    else .at front v back
  | .removeLast i, .at front v back =>
    if i = id then (if back = [] then .lost else .at front v back.dropLast) else .at front v back
  | .clear, .at _ _ _ => .lost
  | _, p => p

/-- The ideal family and the place of an iterator of list `id`. -/
def itStep (fwd : Bool) (id : Int) : IOp α → Family α × Place α → Except Err (Out α) × (Family α × Place α)
  | .call o, (a, p) => ((step o a).1, ((step o a).2, p.after id o))
  | .hasNext, (a, p) => (.ok (.bool (match p with | .ended => false | _ => true)), (a, p))
  | .next, (a, p) =>
    match p with
    | .at _ v _ => (.ok (.val v), (a, p.advance fwd))
    | _ => (.error .invalidEntry, (a, p))

/-- An iterator is not asked any more after the value it was about to hand out was removed. -/
def Known : IOp α → Family α × Place α → Prop
  | .call _, _ => True
  | _, (_, p) => match p with | .lost => False | _ => True

/-- The calls on the deque. -/
def calls : List (IOp α) → List (Op α)
  | [] => []
  | .call o :: l => o :: calls l
  | _ :: l => calls l

end HydraSpec
end Verif

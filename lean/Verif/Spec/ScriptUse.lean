import Verif.Spec.Script
import Verif.Model.Index
/-! Consumers that occur in practice, and what working off a queue is. -/
namespace Verif
open ScriptSpec

section Queue
variable {α : Type}

/-- The consumer puts the values `l` at the back, one by one. -/
def addsAll {σ : Type} : List α → σ → Script (Deque.Op α) (Deque.Out α) σ
  | [], u => .done u
  | x :: l, u => .call (.addLast x) fun r => match r with
    | .ok _ => addsAll l u
    | .error e => .fail e u

/-- The consumer: whatever it is handed, it takes the first value out, notes that value `w`, and puts the values `f w` at
the back. -/
def worker (f : α → List α) (_ : α) (seen : List α) : Script (Deque.Op α) (Deque.Out α) (List α) :=
  .call .removeFirst fun r => match r with
    | .ok (.val w) => addsAll (f w) (seen ++ [w])
    | .ok _ => .fail .illegalState seen
    | .error e => .fail e seen

namespace DequeSpec

/-- Working off the queue `q` with fewer than `limit` values in it at any time takes the values `out` in this order: the
first one, then those of the rest with what it has brought in at the back. -/
inductive WorkedOff (limit : Nat) (f : α → List α) : List α → List α → Prop
  | done : WorkedOff limit f [] []
  | step {v : α} {q out : List α} : (q ++ f v).length < limit → WorkedOff limit f (q ++ f v) out →
      WorkedOff limit f (v :: q) (v :: out)

end DequeSpec

/-- The consumer appends the values `l`, one by one. -/
def appendsAll {σ : Type} : List α → σ → Script (Vec.Op α) (Vec.Out α) σ
  | [], u => .done u
  | x :: l, u => .call (.append x) fun r => match r with
    | .ok _ => appendsAll l u
    | .error e => .fail e u

/-- The consumer: it notes the value it is handed and appends what that value brings in. -/
def explorer (f : α → List α) (v : α) (seen : List α) : Script (Vec.Op α) (Vec.Out α) (List α) :=
  appendsAll (f v) (seen ++ [v])

end Queue

section Heap
open Verif.Heap
variable {K V : Type}

/-- The consumer: it removes the entry it is handed and notes it. -/
def dropsEntry (e : Int) (seen : List Int) : Script (Op K V) (Out K V) (List Int) :=
  .call (.removeAt e) fun r => match r with
    | .ok _ => .done (seen ++ [e])
    | .error x => .fail x seen

end Heap

section Index
open Verif.Index

/-- The consumer: it asks for the key and the value of the entry it is handed, removes the entry if `p` says so of them,
and counts what it removes. -/
def removesRowsIf {K V : Type} (p : K → V → Bool) (b : Out K V) (u : Nat) : Script (Op K V) (Out K V) Nat :=
  match b with
  | .int e => .call (.getKeyAt e) fun k => .call (.getValueAt e) fun v =>
    match k, v with
    | .ok (.key k), .ok (.val v) =>
      if p k v then .call (.removeAt e) fun x => match x with
        | .ok _ => .done (u + 1)
        | .error z => .fail z u
      else .done u
    | _, _ => .fail .illegalState u
  | _ => .fail .illegalState u

/-- The consumer: it asks for the key and the value of the entry it is handed, puts `f` of them there as the new value,
and counts. -/
def replacesRows {K V : Type} (f : K → V → V) (b : Out K V) (u : Nat) : Script (Op K V) (Out K V) Nat :=
  match b with
  | .int e => .call (.getKeyAt e) fun k => .call (.getValueAt e) fun v =>
    match k, v with
    | .ok (.key k), .ok (.val v) => .call (.putValueAt e (f k v)) fun x => match x with
        | .ok _ => .done (u + 1)
        | .error z => .fail z u
    | _, _ => .fail .illegalState u
  | _ => .fail .illegalState u

end Index
end Verif

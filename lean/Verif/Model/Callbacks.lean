import Verif.Model.Deque
import Verif.Model.Vector
import Verif.Model.Hydra
import Verif.Trace
/-!
Models the `forEach` loops of `queue/KeyDeque.ftl` and `vector/KeyVector.ftl` with a consumer that calls
back into the collection it is being handed the values of, and the iterators of `queue/KeyHydraDeque.ftl`
in a program that goes on using the collection.

A consumer is given by the calls it makes when it is handed a value: a function of all values it has
been handed so far, the current one last.  (In one run of a program these determine everything a
deterministic consumer does, so every consumer is covered.)  The consumer ignores what its calls
return and catches what they throw.
-/
namespace Verif

/-- What a consumer calls, given the values handed to it so far. -/
abbrev Consumer (α op : Type) := List α → List op

/-- The calls of a consumer, one after the other. -/
def callAll {σ op β : Type} (step : op → JM σ β) (ops : List op) : JM σ Unit :=
  ⟨fun s => .ok () (runM step s ops).2⟩

namespace Deque
variable {α : Type}

/-- KeyDeque.ftl:38-41, the loop of `forEach` from position `pos` for at most `fuel` iterations, with a
consumer that calls back.  `seen` is what was handed out before; the result is all that was handed out. -/
def forEachDoFrom (ref : Bool) (d : α) (f : Consumer α (Op α)) :
    Nat → Int → List α → JM (Deque α) (List α)
  | 0, _, _ => JM.throw .diverge
  | fuel + 1, pos, seen => do
    let s ← get
    if pos = s.tail then pure seen
    else do
      let v ← rd Deque.values pos
      callAll (step ref d) (f (seen ++ [v]))
      let s ← get
      forEachDoFrom ref d f fuel (inc pos s.values.len) (seen ++ [v])

/-- KeyDeque.ftl:36-42 `forEach` with a consumer that calls back. -/
def forEachDo (ref : Bool) (d : α) (f : Consumer α (Op α)) (fuel : Nat) : JM (Deque α) (List α) := do
  let s ← get
  forEachDoFrom ref d f fuel s.head []

end Deque

namespace Vec
variable {α : Type}

/-- KeyVector.ftl:54-56, the loop of `forEach` from index `i`, with a consumer that calls back. -/
def forEachDoFrom (ref : Bool) (d : α) (f : Consumer α (Op α)) :
    Nat → Int → List α → JM (Vec α) (List α)
  | 0, _, _ => JM.throw .diverge
  | fuel + 1, i, seen => do
    let s ← get
    if i < s.size then do
      let v ← rd Vec.values i
      callAll (step ref d) (f (seen ++ [v]))
      forEachDoFrom ref d f fuel (i + 1) (seen ++ [v])
    else pure seen

/-- KeyVector.ftl:53-57 `forEach` with a consumer that calls back. -/
def forEachDo (ref : Bool) (d : α) (f : Consumer α (Op α)) (fuel : Nat) : JM (Vec α) (List α) :=
  forEachDoFrom ref d f fuel 0 []

end Vec

/-- A multi-headed deque and one of its iterators (KeyHydraDeque.ftl:243-283): `entry` is the field of
the iterator. -/
structure HydraIt (α : Type) where
  deque : Hydra α
  entry : Int

namespace HydraIt
variable {α : Type}

/-- A call on the deque. -/
def onDeque {β : Type} (m : JM (Hydra α) β) : JM (HydraIt α) β := ⟨fun s =>
  match m s.deque with
  | .ok a t => .ok a { s with deque := t }
  | .err e t => .err e { s with deque := t }⟩

/-- What a program can do: call the deque, or the iterator. -/
inductive IOp (α : Type)
  | call (o : Hydra.Op α) | hasNext | next

/-- KeyHydraDeque.ftl:198-211 `iterator(listId)` (`fwd`) and 214-227 `reverseIterator(listId)`, with their
`reset` (245-247, 266-268). -/
def start (fwd : Bool) (listId : Int) (s : Hydra α) : Res (HydraIt α) Unit :=
  match Hydra.iterReset (if fwd then Hydra.heads else Hydra.tails) listId s with
  | .ok e t => .ok () ⟨t, e⟩
  | .err x t => .err x ⟨t, -1⟩

/-- One call; KeyHydraDeque.ftl:249-261 (`fwd`) and 270-282 for the iterator. -/
def step (fwd : Bool) (d : α) : IOp α → JM (HydraIt α) (Hydra.Out α)
  | .call o => onDeque (Hydra.step d o)
  | .hasNext => do return .bool (Hydra.iterHasNext (← get).entry)
  | .next => do
    let s ← get
    let r ← onDeque (Hydra.iterNext (if fwd then Hydra.nexts else Hydra.prevs) s.entry)
    modify fun t => { t with entry := r.2 }
    return .val r.1

end HydraIt
end Verif

import Verif.Model.Heap
import Verif.Model.Compare
/-!
Models `TimeoutManager` of `examples/src/main/java/com/bytefacets/collections/heap/TimeoutExample.java`, a client of
the heap (`LongIntHeap`).

Every method runs inside `synchronized (heap)`, so a schedule of the three threads is a sequence of whole calls.
The clock (`System.currentTimeMillis()`) is an arbitrary stream of readings per call of `process`.  Waiting
(`latch.await(delayMs)`) has no effect on the state and is not modelled; the text printed is represented by
its arguments.
-/
namespace Verif.Timeout
open Verif.Cmp (i64 asc64)

/-- TimeoutExample.java:110-111, the fields. -/
structure Manager where
  heap : Heap Int Int
  latch : Nat

/-- `LongType.Asc`, the comparator of a new `LongIntHeap`. -/
def longAsc : Comparator Int := ⟨0, asc64⟩

/-- TimeoutExample.java:110, 113-115, the constructor: `new LongIntHeap(16)` and a latch with the given count. -/
def new (count : Nat) : Except Err Manager :=
  match Heap.new longAsc 0 0 16 with
  | .ok h => .ok ⟨h, count⟩
  | .error e => .error e

/-- A call of a heap method. -/
def onHeap {α : Type} (m : JM (Heap Int Int) α) : JM Manager α := ⟨fun s =>
  match m s.heap with
  | .ok a h => .ok a { s with heap := h }
  | .err e h => .err e { s with heap := h }⟩

/-- TimeoutExample.java:118-122 `acknowledge`. -/
def acknowledge (entry : Int) : JM Manager Unit := onHeap (Heap.removeAt entry)

/-- TimeoutExample.java:126-130 `addNewItem`. -/
def addNewItem (value expireEpochMs : Int) : JM Manager Int := onHeap (Heap.insertKV expireEpochMs value)

/-- The arguments of the message of TimeoutExample.java:170-171. -/
structure Report where
  now : Int
  value : Int
  pastDue : Int
  deriving DecidableEq, Repr

/-- TimeoutExample.java:168-174 `reportTimeout`. -/
def reportTimeout (firstEntry now next : Int) : JM Manager Report := do
  let value ← onHeap (Heap.getValueAt firstEntry)
  onHeap (Heap.removeAt firstEntry)
  modify fun s => { s with latch := s.latch - 1 }
  pure ⟨now, value, i64 (now - next)⟩

/-- TimeoutExample.java:146-155, the loop of `process` with the clock readings from number `i` on.  Every round
takes an entry out, so `size` rounds and the last test suffice. -/
def processLoop (clock : Nat → Int) : Nat → Nat → JM Manager (List Report × Int)
  | 0, _ => JM.throw .diverge
  | fuel + 1, i => do
    let empty ← onHeap Heap.isEmpty
    if empty then pure ([], 100)
    else do
      let now := clock i
      let firstEntry ← onHeap Heap.peek
      let next ← onHeap (Heap.getKeyAt firstEntry)
      if next < now then do
        let r ← reportTimeout firstEntry now next
        let (rs, delay) ← processLoop clock fuel (i + 1)
        pure (r :: rs, delay)
      else pure ([], i64 (next - now))

/-- TimeoutExample.java:145-157 `process`; the reports printed and the delay returned. -/
def process (clock : Nat → Int) : JM Manager (List Report × Int) := do
  let s ← get
  processLoop clock (s.heap.size.toNat + 1) 0

/-- What other threads can do with the manager: register an item, acknowledge an entry, or let the
manager's thread make one round of `run` (TimeoutExample.java:133-141). -/
inductive Event
  | add (value expire : Int)
  | acknowledge (entry : Int)
  | poll (clock : Nat → Int)

/-- What the calls return. -/
inductive Result
  | entry (e : Int)
  | done
  | polled (reports : List Report) (delay : Int)
  /-- the thread has ended -/
  | stopped
  | error (e : Err)
  deriving DecidableEq

/-- One event. -/
def step (s : Manager) : Event → Result × Manager
  | .add v d => match addNewItem v d s with
    | .ok e s' => (.entry e, s')
    | .err x s' => (.error x, s')
  | .acknowledge e => match acknowledge e s with
    | .ok _ s' => (.done, s')
    | .err x s' => (.error x, s')
  | .poll clock =>
    -- TimeoutExample.java:134
    if s.latch ≠ 0 then match process clock s with
      | .ok (rs, d) s' => (.polled rs d, s')
      | .err x s' => (.error x, s')
    else (.stopped, s)

/-- A schedule: every event with its result. -/
def run (s : Manager) : List Event → List (Event × Result)
  | [] => []
  | e :: es => (e, (step s e).1) :: run (step s e).2 es

end Verif.Timeout

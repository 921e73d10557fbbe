import Verif.Model.Iterator
/-! A program that uses an indexed collection and one of its iterators together. -/
namespace Verif.Iterating
open Verif.Index
variable {K V : Type} [Inhabited K] [Inhabited V]

/-- A call on the collection, the iterator's `next()` (followed by `currentEntry()` if it returned true),
its `remove()`, or `collection.iterator(it)`. -/
inductive UseOp (K V : Type)
  | call (o : Op K V) | next | remove | iterator

/-- One call (BaseHash.java:127-139, 194-203 `iterator`; 211-232 `next`; 206-208 `currentEntry`; 235-266
`remove`).  `next` reports the entry moved to, or `false`. -/
def useStep : UseOp K V → JM (Iterating K V) (Out K V)
  | .call o => onMap (step o)
  | .next => do
    let more ← next
    if more then do return .int (← currentEntry) else return .bool false
  | .remove => do remove; return .unit
  | .iterator => do reset; return .unit

end Verif.Iterating

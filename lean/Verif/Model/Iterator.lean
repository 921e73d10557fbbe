import Verif.Model.Index
/-!
Models the `EntryIterator` of `collections/src/main/java/com/bytefacets/collections/hash/BaseHash.java`
(163-267).  Its object state is the iterator's fields together with the collection it reads.
-/
namespace Verif

/-- BaseHash.java:164-171, the fields of `IteratorImpl`. -/
structure Iter where
  initialized : Bool
  isRemoved : Bool
  internalModCount : Int
  head : Int
  entry : Int
  prev : Int
  next : Int

/-- A collection and an iterator over it. -/
structure Iterating (K V : Type) where
  map : Index K V
  it : Iter

namespace Iterating
variable {K V : Type} [Inhabited K] [Inhabited V]

/-- A call on the collection while the iterator exists. -/
def onMap {α : Type} (m : JM (Index K V) α) : JM (Iterating K V) α := ⟨fun s =>
  match m s.map with
  | .ok a t => .ok a { s with map := t }
  | .err e t => .err e { s with map := t }⟩

/-- Assignment to the iterator's fields. -/
def setIt (f : Iter → Iter) : JM (Iterating K V) Unit := modify fun s => { s with it := f s.it }

/-- BaseHash.java:194-203 `reset` (and 127-139 `iterator`, which resets a new or a given one). -/
def reset : JM (Iterating K V) Unit := do
  let s ← get
  setIt fun _ => { initialized := false, isRemoved := false,
                   internalModCount := s.map.modificationCount,
                   head := -1, entry := -1, prev := -1, next := -1 }

/-- BaseHash.java:181-188, the loop of `nextHead`. -/
def nextHeadLoop : Nat → JM (Iterating K V) Unit
  | 0 => JM.throw .diverge
  | fuel + 1 => do
    let s ← get
    if s.it.head < s.map.heads.len then do
      let e ← onMap (rd Index.heads s.it.head)
      setIt fun it => { it with entry := e }
      if e ≥ 0 then do
        setIt fun it => { it with prev := -1 }
        let n ← onMap (rd Index.nexts e)
        setIt fun it => { it with next := n }
      else do
        setIt fun it => { it with head := i32 (it.head + 1) }
        nextHeadLoop fuel
    else pure ()

/-- BaseHash.java:180-191 `nextHead`.  The fuel is what the loop needs at most. -/
def nextHead : JM (Iterating K V) Unit := do
  setIt fun it => { it with head := i32 (it.head + 1), entry := -1 }
  let s ← get
  nextHeadLoop (s.map.heads.len + 1)
  setIt fun it => { it with isRemoved := false }

/-- BaseHash.java:175-178 `initialize`. -/
def initIter : JM (Iterating K V) Unit := do
  nextHead
  setIt fun it => { it with initialized := true }

/-- BaseHash.java:206-208 `currentEntry`. -/
def currentEntry : JM (Iterating K V) Int := do return (← get).it.entry

/-- BaseHash.java:211-232 `next`. -/
def next : JM (Iterating K V) Bool := do
  let s ← get
  if s.map.modificationCount ≠ s.it.internalModCount then JM.throw .concurrentModification
  else if s.it.initialized = false then do
    initIter
    let s ← get
    pure (decide (s.it.entry ≥ 0))
  else if s.it.next ≥ 0 then do
    setIt fun it => { it with prev := if it.isRemoved then it.prev else it.entry }
    setIt fun it => { it with entry := it.next }
    let s ← get
    let n ← onMap (rd Index.nexts s.it.entry)
    setIt fun it => { it with next := n, isRemoved := false }
    pure true
  else do
    nextHead
    let s ← get
    pure (decide (s.it.entry ≥ 0))

/-- BaseHash.java:249-265, the body of `remove` after the checks. -/
def unlinkCurrent : JM (Iterating K V) Unit := do
  let s ← get
  let entry := s.it.entry
  let n ← onMap (rd Index.nexts entry)
  setIt fun it => { it with next := n }
  onMap (Index.unlink s.it.head s.it.prev n)
  onMap (Index.wrNexts entry s.map.freeList)
  onMap (modify fun t => { t with freeList := entry, size := t.size - 1 })
  onMap (Index.removeValue entry)
  setIt fun it => { it with isRemoved := true, internalModCount := i32 (it.internalModCount + 1) }
  onMap Index.bumpMod

/-- BaseHash.java:235-266 `remove`. -/
def remove : JM (Iterating K V) Unit := do
  let s ← get
  if s.map.modificationCount ≠ s.it.internalModCount then JM.throw .concurrentModification
  else if s.it.isRemoved then JM.throw .illegalState
  else do
    JM.when (s.it.initialized = false) initIter
    unlinkCurrent

/-- The calls a client makes on an iterator: `next()`, followed by `currentEntry()` if it returned
true, and `remove()`. -/
inductive ItOp | next | remove

/-- One such call: the entry moved to, if any. -/
def itStep : ItOp → JM (Iterating K V) (Option Int)
  | .next => do
    let more ← next
    if more then do return some (← currentEntry) else pure none
  | .remove => do remove; pure none

/-- The client loop `while (it.next()) { seen.add(it.currentEntry()); if (P) it.remove(); }`:
the entries seen, in order. -/
def drive (P : Int → Bool) : Nat → JM (Iterating K V) (List Int)
  | 0 => JM.throw .diverge
  | fuel + 1 => do
    let more ← next
    if more then do
      let e ← currentEntry
      JM.when (P e) remove
      let rest ← drive P fuel
      pure (e :: rest)
    else pure []

end Iterating
end Verif

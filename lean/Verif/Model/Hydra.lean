import Verif.Model.Arrays
/-!
Models `collections/src/main/templates/com/bytefacets/collections/queue/KeyHydraDeque.ftl` (the
generated `IntHydraDeque`, ..., `GenericHydraDeque` classes).
-/
namespace Verif

/-- KeyHydraDeque.ftl:25-34, the fields. -/
structure Hydra (α : Type) where
  values : Arr α
  heads : Arr Int
  tails : Arr Int
  count : Arr Int
  nexts : Arr Int
  prevs : Arr Int
  freeList : Int
  size : Int
  maxEntry : Int

namespace Hydra
variable {α : Type}

/-- KeyHydraDeque.ftl:36-48, the constructor.  `d` is the type's DEFAULT. -/
def new (initialQueues initialCapacity : Int) (d : α) : Except Err (Hydra α) :=
  if initialCapacity < 1 then .error .illegalArgument
  else
    let n := nextPowerOf2 initialCapacity
    if initialQueues < 0 ∨ n < 0 then .error .negativeArraySize
    else .ok { values := Arr.create n d
               heads := Arr.create initialQueues (-1)
               tails := Arr.create initialQueues (-1)
               count := Arr.create initialQueues 0
               nexts := Arr.create n (-1)
               prevs := Arr.create n (-1)
               freeList := -1, size := 0, maxEntry := -1 }

/-- write to `heads` -/
abbrev wrHeads (i v : Int) : JM (Hydra α) Unit :=
  wr Hydra.heads (fun t a => { t with heads := a }) i v
/-- write to `tails` -/
abbrev wrTails (i v : Int) : JM (Hydra α) Unit :=
  wr Hydra.tails (fun t a => { t with tails := a }) i v
/-- write to `nexts` -/
abbrev wrNexts (i v : Int) : JM (Hydra α) Unit :=
  wr Hydra.nexts (fun t a => { t with nexts := a }) i v
/-- write to `prevs` -/
abbrev wrPrevs (i v : Int) : JM (Hydra α) Unit :=
  wr Hydra.prevs (fun t a => { t with prevs := a }) i v
/-- write to `values` -/
abbrev wrValues (i : Int) (v : α) : JM (Hydra α) Unit :=
  wr Hydra.values (fun t a => { t with values := a }) i v

/-- `count[listId] += k` -/
def addCount (listId k : Int) : JM (Hydra α) Unit := do
  let c ← rd Hydra.count listId
  wr Hydra.count (fun t a => { t with count := a }) listId (c + k)

/-- KeyHydraDeque.ftl:50-54 `ensureList`. -/
def ensureList (listId : Int) : JM (Hydra α) Unit := do
  let s ← get
  let h ← ensureEntry s.heads listId (-1)
  modify fun t => { t with heads := h }
  let l ← ensureEntry s.tails listId (-1)
  modify fun t => { t with tails := l }
  let c ← ensureEntry s.count listId 0
  modify fun t => { t with count := c }

/-- KeyHydraDeque.ftl:56-59 `addToFreeList`. -/
def addToFreeList (entry : Int) : JM (Hydra α) Unit := do
  let s ← get
  wrNexts entry s.freeList
  modify fun t => { t with freeList := -entry - 2 }

/-- KeyHydraDeque.ftl:61-73 `allocateEntry`. -/
def allocateEntry (d : α) : JM (Hydra α) Int := do
  let s ← get
  if s.freeList < -1 then do
    let entry := -(s.freeList + 2)
    let n ← rd Hydra.nexts entry
    modify fun t => { t with freeList := n }
    pure entry
  else do
    let entry := s.maxEntry + 1
    modify fun t => { t with maxEntry := entry }
    let v ← ensureEntry s.values entry d
    modify fun t => { t with values := v }
    let n ← ensureEntry s.nexts entry (-1)
    modify fun t => { t with nexts := n }
    let p ← ensureEntry s.prevs entry (-1)
    modify fun t => { t with prevs := p }
    pure entry

/-- KeyHydraDeque.ftl:76-93 `addFirst`. -/
def addFirst (d : α) (listId : Int) (value : α) : JM (Hydra α) Int := do
  ensureList listId
  let oldHead ← rd Hydra.heads listId
  let entry ← allocateEntry d
  wrValues entry value
  wrHeads listId entry
  addCount listId 1
  if oldHead = -1 then wrTails listId entry else wrPrevs oldHead entry
  wrNexts entry oldHead
  modify fun t => { t with size := t.size + 1 }
  pure entry

/-- KeyHydraDeque.ftl:96-114 `addLast`. -/
def addLast (d : α) (listId : Int) (value : α) : JM (Hydra α) Int := do
  ensureList listId
  let oldTail ← rd Hydra.tails listId
  let entry ← allocateEntry d
  wrValues entry value
  wrTails listId entry
  addCount listId 1
  if oldTail = -1 then wrHeads listId entry else wrNexts oldTail entry
  wrNexts entry (-1)
  wrPrevs entry oldTail
  modify fun t => { t with size := t.size + 1 }
  pure entry

/-- KeyHydraDeque.ftl:117-119 `size()`. -/
def getSize : JM (Hydra α) Int := do return (← get).size

/-- KeyHydraDeque.ftl:122-127 `size(listId)`. -/
def sizeOf (listId : Int) : JM (Hydra α) Int := do
  let s ← get
  if listId ≥ s.count.len ∨ listId < 0 then pure 0
  else rd Hydra.count listId

/-- KeyHydraDeque.ftl:229-241 `validateListAndGetFirstEntry`; `start` is `heads` or `tails`. -/
def validate (listId : Int) (start : Hydra α → Arr Int) : JM (Hydra α) Int := do
  let s ← get
  if s.size = 0 then JM.throw .noSuchElement
  else if listId < 0 ∨ listId ≥ s.heads.len then JM.throw .noSuchElement
  else do
    let entry ← rd start listId
    if entry < 0 then JM.throw .noSuchElement else pure entry

/-- KeyHydraDeque.ftl:145-151, 171-177: hand out the value, reset the cell, free the entry. -/
def release (d : α) (entry : Int) : JM (Hydra α) α := do
  let value ← rd Hydra.values entry
  wrValues entry d
  modify fun t => { t with size := t.size - 1 }
  addToFreeList entry
  pure value

/-- KeyHydraDeque.ftl:134-152 `removeFirst`. -/
def removeFirst (d : α) (listId : Int) : JM (Hydra α) α := do
  let entry ← validate listId Hydra.heads
  let n ← rd Hydra.nexts entry
  wrHeads listId n
  addCount listId (-1)
  let t ← rd Hydra.tails listId
  JM.when (t = entry) (wrTails listId (-1))
  JM.when (n ≠ -1) (wrPrevs n (-1))
  release d entry

/-- KeyHydraDeque.ftl:159-178 `removeLast`. -/
def removeLast (d : α) (listId : Int) : JM (Hydra α) α := do
  let entry ← validate listId Hydra.tails
  let p ← rd Hydra.prevs entry
  wrTails listId p
  addCount listId (-1)
  let h ← rd Hydra.heads listId
  JM.when (h = entry) (wrHeads listId (-1))
  JM.when (p ≠ -1) do
    wrNexts p (-1)
    wrPrevs entry (-1)
  release d entry

/-- KeyHydraDeque.ftl:181-183 `isEmpty`. -/
def isEmpty : JM (Hydra α) Bool := do return decide ((← get).size = 0)

/-- KeyHydraDeque.ftl:186-195 `clear`.  `maxEntry` is not reset. -/
def clear (d : α) : JM (Hydra α) Unit := do
  let s ← get
  let h ← fillAll s.heads (-1)
  modify fun t => { t with heads := h }
  let l ← fillAll s.tails (-1)
  modify fun t => { t with tails := l }
  let n ← fillAll s.nexts (-1)
  modify fun t => { t with nexts := n }
  let p ← fillAll s.prevs (-1)
  modify fun t => { t with prevs := p }
  let c ← fillAll s.count 0
  modify fun t => { t with count := c }
  let v ← fillAll s.values d
  modify fun t => { t with values := v }
  modify fun t => { t with freeList := -1, size := 0 }

/-- KeyHydraDeque.ftl:245-247, 266-268 `reset` of the forward (`start` = heads) and reverse
(`start` = tails) iterator: the entry the iterator stands at. -/
def iterReset (start : Hydra α → Arr Int) (listId : Int) : JM (Hydra α) Int := do
  let s ← get
  if listId ≥ (start s).len then pure (-1) else rd start listId

/-- KeyHydraDeque.ftl:249-256, 270-277 `next()`: the value and the entry the iterator moves to;
`link` is `nexts` or `prevs`. -/
def iterNext (link : Hydra α → Arr Int) (entry : Int) : JM (Hydra α) (α × Int) := do
  if entry < 0 then JM.throw .invalidEntry
  else do
    let value ← rd Hydra.values entry
    let e ← rd link entry
    pure (value, e)

/-- KeyHydraDeque.ftl:259-261, 280-282 `hasNext()`. -/
def iterHasNext (entry : Int) : Bool := decide (entry ≥ 0)

/-- The client loop `while (it.hasNext()) { seen.add(it.next()); }` for at most `fuel` values. -/
def iterLoop (link : Hydra α → Arr Int) : Nat → Int → JM (Hydra α) (List α)
  | 0, _ => JM.throw .diverge
  | fuel + 1, entry => do
    if iterHasNext entry then do
      let (v, e) ← iterNext link entry
      let rest ← iterLoop link fuel e
      pure (v :: rest)
    else pure []

/-- `iterator(listId)` (KeyHydraDeque.ftl:198-211) run to its end by the client loop.  A walk longer
than the number of cells repeats an entry and never ends. -/
def iterate (listId : Int) : JM (Hydra α) (List α) := do
  let e ← iterReset Hydra.heads listId
  let s ← get
  iterLoop Hydra.nexts (s.nexts.len + 1) e

/-- `reverseIterator(listId)` (KeyHydraDeque.ftl:214-227) run to its end by the client loop. -/
def reverseIterate (listId : Int) : JM (Hydra α) (List α) := do
  let e ← iterReset Hydra.tails listId
  let s ← get
  iterLoop Hydra.prevs (s.prevs.len + 1) e

/-- The public operations. -/
inductive Op (α : Type)
  | addFirst (id : Int) (v : α) | addLast (id : Int) (v : α)
  | removeFirst (id : Int) | removeLast (id : Int)
  | size | sizeOf (id : Int) | isEmpty
  | iterate (id : Int) | reverseIterate (id : Int) | clear

/-- What a call can return. -/
inductive Out (α : Type)
  | unit | entry (e : Int) | val (v : α) | int (n : Int) | bool (b : Bool) | seq (l : List α)
  deriving DecidableEq

/-- Dispatch of one public call to its model. -/
def step (d : α) : Op α → JM (Hydra α) (Out α)
  | .addFirst i v => do return .entry (← addFirst d i v)
  | .addLast i v => do return .entry (← addLast d i v)
  | .removeFirst i => do return .val (← removeFirst d i)
  | .removeLast i => do return .val (← removeLast d i)
  | .size => do return .int (← getSize)
  | .sizeOf i => do return .int (← sizeOf i)
  | .isEmpty => do return .bool (← isEmpty)
  | .iterate i => do return .seq (← iterate i)
  | .reverseIterate i => do return .seq (← reverseIterate i)
  | .clear => do clear d; pure .unit

end Hydra
end Verif

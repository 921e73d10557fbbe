import Verif.Gen.Prelude
import Verif.Gen.NumUtils
import Verif.Gen.CapacityCalculator
import Verif.Gen.RangeCheckException
import Verif.Gen.InitializationException
import Verif.Model.Callbacks
/-!
GENERATED by tools/j2l/translate.py from queue/KeyHydraDeque.ftl.  Do not edit: the translator is the only
reading of the Java text here.  Lean/Verif/Link proves that these definitions agree with the model.
-/
set_option linter.unusedVariables false
namespace Verif.Gen.KeyHydraDeque
open Verif

/-- KeyHydraDeque.ftl:50-54 `ensureList`. -/
def ensureList {α : Type} (d : α) (listId : Int) : JM (Hydra α) Unit := do
  let s1 ← get
  let v2 ← Verif.ensureEntry s1.heads listId (-1)
  modify fun self => { self with heads := v2 }
  let s3 ← get
  let v4 ← Verif.ensureEntry s3.tails listId (-1)
  modify fun self => { self with tails := v4 }
  let s5 ← get
  let v6 ← Verif.ensureEntry s5.count listId 0
  modify fun self => { self with count := v6 }
  pure ()

/-- KeyHydraDeque.ftl:56-59 `addToFreeList`. -/
def addToFreeList {α : Type} (d : α) (entry : Int) : JM (Hydra α) Unit := do
  let s1 ← get
  wr Hydra.nexts (fun self a => { self with nexts := a }) entry s1.freeList
  let v2 := (i32 ((i32 (-entry)) - 2))
  modify fun self => { self with freeList := v2 }
  pure ()

/-- KeyHydraDeque.ftl:61-73 `allocateEntry`. -/
def allocateEntry {α : Type} (d : α) : JM (Hydra α) Int := do
  let entry := 0
  let s1 ← get
  let entry ← (if (decide (s1.freeList < (-1))) = true then do
      let entry := (i32 (-(i32 (s1.freeList + 2))))
      let v2 ← rd Hydra.nexts entry
      modify fun self => { self with freeList := v2 }
      pure entry
    else do
      let v3 := i32 (s1.maxEntry + 1)
      modify fun self => { self with maxEntry := v3 }
      let entry := v3
      let s4 ← get
      let v5 ← Verif.ensureEntry s4.values entry d
      modify fun self => { self with values := v5 }
      let s6 ← get
      let v7 ← Verif.ensureEntry s6.nexts entry (-1)
      modify fun self => { self with nexts := v7 }
      let s8 ← get
      let v9 ← Verif.ensureEntry s8.prevs entry (-1)
      modify fun self => { self with prevs := v9 }
      pure entry)
  pure entry

/-- KeyHydraDeque.ftl:76-93 `addFirst`. -/
def addFirst {α : Type} (d : α) (listId : Int) (value : α) : JM (Hydra α) Int := do
  ensureList d listId
  let v1 ← rd Hydra.heads listId
  let oldHead := v1
  let v2 ← allocateEntry d
  let entry := v2
  wr Hydra.values (fun self a => { self with values := a }) entry value
  wr Hydra.heads (fun self a => { self with heads := a }) listId entry
  let v3 ← rd Hydra.count listId
  let v4 := i32 (v3 + 1)
  wr Hydra.count (fun self a => { self with count := a }) listId v4
  (if (decide (oldHead = (-1))) = true then do
      wr Hydra.tails (fun self a => { self with tails := a }) listId entry
      pure ()
    else do
      wr Hydra.prevs (fun self a => { self with prevs := a }) oldHead entry
      pure ())
  wr Hydra.nexts (fun self a => { self with nexts := a }) entry oldHead
  let s5 ← get
  let v6 := i32 (s5.size + 1)
  modify fun self => { self with size := v6 }
  pure entry

/-- KeyHydraDeque.ftl:96-114 `addLast`. -/
def addLast {α : Type} (d : α) (listId : Int) (value : α) : JM (Hydra α) Int := do
  ensureList d listId
  let v1 ← rd Hydra.tails listId
  let oldTail := v1
  let v2 ← allocateEntry d
  let entry := v2
  wr Hydra.values (fun self a => { self with values := a }) entry value
  wr Hydra.tails (fun self a => { self with tails := a }) listId entry
  let v3 ← rd Hydra.count listId
  let v4 := i32 (v3 + 1)
  wr Hydra.count (fun self a => { self with count := a }) listId v4
  (if (decide (oldTail = (-1))) = true then do
      wr Hydra.heads (fun self a => { self with heads := a }) listId entry
      pure ()
    else do
      wr Hydra.nexts (fun self a => { self with nexts := a }) oldTail entry
      pure ())
  wr Hydra.nexts (fun self a => { self with nexts := a }) entry (-1)
  wr Hydra.prevs (fun self a => { self with prevs := a }) entry oldTail
  let s5 ← get
  let v6 := i32 (s5.size + 1)
  modify fun self => { self with size := v6 }
  pure entry

/-- KeyHydraDeque.ftl:117-119 `size`. -/
def size0 {α : Type} (d : α) : JM (Hydra α) Int := do
  let s1 ← get
  pure s1.size

/-- KeyHydraDeque.ftl:122-127 `size`. -/
def size1 {α : Type} (d : α) (listId : Int) : JM (Hydra α) Int := do
  let s1 ← get
  if ((decide (listId ≥ (s1.count.len : Int))) || (decide (listId < 0))) = true then do
    pure 0
  else do
    let v2 ← rd Hydra.count listId
    pure v2

/-- KeyHydraDeque.ftl:229-241 `validateListAndGetFirstEntry`. -/
def validateListAndGetFirstEntry {α : Type} (d : α) (listId : Int) (start : (Arr Int)) : JM (Hydra α) Int := do
  let s1 ← get
  (if (decide (s1.size = 0)) = true then do
      JM.throw .noSuchElement
    else pure ())
  let s2 ← get
  (if ((decide (listId < 0)) || (decide (listId ≥ (s2.heads.len : Int)))) = true then do
      JM.throw .noSuchElement
    else pure ())
  let v3 ← rdA start listId
  let entry := v3
  (if (decide (entry < 0)) = true then do
      JM.throw .noSuchElement
    else pure ())
  pure entry

/-- KeyHydraDeque.ftl:134-152 `removeFirst`. -/
def removeFirst {α : Type} (d : α) (listId : Int) : JM (Hydra α) α := do
  let s1 ← get
  let v2 ← validateListAndGetFirstEntry d listId s1.heads
  let entry := v2
  let v3 ← rd Hydra.nexts entry
  wr Hydra.heads (fun self a => { self with heads := a }) listId v3
  let v4 ← rd Hydra.count listId
  let v5 := i32 (v4 - 1)
  wr Hydra.count (fun self a => { self with count := a }) listId v5
  let v6 ← rd Hydra.tails listId
  (if (decide (v6 = entry)) = true then do
      wr Hydra.tails (fun self a => { self with tails := a }) listId (-1)
      pure ()
    else pure ())
  let v7 ← rd Hydra.nexts entry
  (if (decide (v7 ≠ (-1))) = true then do
      let v8 ← rd Hydra.nexts entry
      wr Hydra.prevs (fun self a => { self with prevs := a }) v8 (-1)
      pure ()
    else pure ())
  let v9 ← rd Hydra.values entry
  let value := v9
  wr Hydra.values (fun self a => { self with values := a }) entry d
  let s10 ← get
  let v11 := i32 (s10.size - 1)
  modify fun self => { self with size := v11 }
  addToFreeList d entry
  pure value

/-- KeyHydraDeque.ftl:159-178 `removeLast`. -/
def removeLast {α : Type} (d : α) (listId : Int) : JM (Hydra α) α := do
  let s1 ← get
  let v2 ← validateListAndGetFirstEntry d listId s1.tails
  let entry := v2
  let v3 ← rd Hydra.prevs entry
  wr Hydra.tails (fun self a => { self with tails := a }) listId v3
  let v4 ← rd Hydra.count listId
  let v5 := i32 (v4 - 1)
  wr Hydra.count (fun self a => { self with count := a }) listId v5
  let v6 ← rd Hydra.heads listId
  (if (decide (v6 = entry)) = true then do
      wr Hydra.heads (fun self a => { self with heads := a }) listId (-1)
      pure ()
    else pure ())
  let v7 ← rd Hydra.prevs entry
  (if (decide (v7 ≠ (-1))) = true then do
      let v8 ← rd Hydra.prevs entry
      wr Hydra.nexts (fun self a => { self with nexts := a }) v8 (-1)
      wr Hydra.prevs (fun self a => { self with prevs := a }) entry (-1)
      pure ()
    else pure ())
  let v9 ← rd Hydra.values entry
  let value := v9
  wr Hydra.values (fun self a => { self with values := a }) entry d
  let s10 ← get
  let v11 := i32 (s10.size - 1)
  modify fun self => { self with size := v11 }
  addToFreeList d entry
  pure value

/-- KeyHydraDeque.ftl:181-183 `isEmpty`. -/
def isEmpty {α : Type} (d : α) : JM (Hydra α) Bool := do
  let s1 ← get
  pure (decide (s1.size = 0))

/-- KeyHydraDeque.ftl:186-195 `clear`. -/
def clear {α : Type} (d : α) : JM (Hydra α) Unit := do
  let s1 ← get
  let v2 ← fillAll s1.heads (-1)
  modify fun self => { self with heads := v2 }
  let s3 ← get
  let v4 ← fillAll s3.tails (-1)
  modify fun self => { self with tails := v4 }
  let s5 ← get
  let v6 ← fillAll s5.nexts (-1)
  modify fun self => { self with nexts := v6 }
  let s7 ← get
  let v8 ← fillAll s7.prevs (-1)
  modify fun self => { self with prevs := v8 }
  let s9 ← get
  let v10 ← fillAll s9.count 0
  modify fun self => { self with count := v10 }
  let s11 ← get
  let v12 ← fillAll s11.values d
  modify fun self => { self with values := v12 }
  let v13 := (-1)
  modify fun self => { self with freeList := v13 }
  modify fun self => { self with size := 0 }
  pure ()

/-- KeyHydraDeque.ftl:36-48 `init`. -/
def init {α : Type} (d : α) (initialQueues : Int) (initialCapacity : Int) : JM (Hydra α) Unit := do
  let v1 := (-1)
  modify fun self => { self with freeList := v1 }
  modify fun self => { self with size := 0 }
  let v2 := (-1)
  modify fun self => { self with maxEntry := v2 }
  (if (decide (initialCapacity < 1)) = true then do
      JM.throw .illegalArgument
    else pure ())
  let v3 ← Gen.NumUtils.nextPowerOf2 initialCapacity
  let pow2Capacity := v3
  let v4 ← newArr initialQueues (-1)
  modify fun self => { self with heads := v4 }
  let v5 ← newArr initialQueues (-1)
  modify fun self => { self with tails := v5 }
  let v6 ← newArr initialQueues 0
  modify fun self => { self with count := v6 }
  let v7 ← newArr pow2Capacity (-1)
  modify fun self => { self with nexts := v7 }
  let v8 ← newArr pow2Capacity (-1)
  modify fun self => { self with prevs := v8 }
  let v9 ← newArr pow2Capacity d
  modify fun self => { self with values := v9 }
  pure ()

namespace ForwardIterator
/-- KeyHydraDeque.ftl:245-247 `reset`. -/
def reset {α : Type} (d : α) (listId : Int) : JM (HydraIt α) Unit := do
  let s1 ← get
  let v3 ← (if (decide (listId ≥ (s1.deque.heads.len : Int))) = true then do
      pure (-1)
    else do
      let v2 ← rd (fun self => self.deque.heads) listId
      pure v2)
  modify fun self => { self with entry := v3 }
  pure ()

/-- KeyHydraDeque.ftl:249-256 `next`. -/
def next {α : Type} (d : α) : JM (HydraIt α) α := do
  let s1 ← get
  (if (decide (s1.entry < 0)) = true then do
      JM.throw .invalidEntry
    else pure ())
  let s2 ← get
  let v3 ← rd (fun self => self.deque.values) s2.entry
  let value := v3
  let v4 ← rd (fun self => self.deque.nexts) s2.entry
  modify fun self => { self with entry := v4 }
  pure value

/-- KeyHydraDeque.ftl:259-261 `hasNext`. -/
def hasNext {α : Type} (d : α) : JM (HydraIt α) Bool := do
  let s1 ← get
  pure (decide (s1.entry ≥ 0))

end ForwardIterator

namespace ReverseIterator
/-- KeyHydraDeque.ftl:266-268 `reset`. -/
def reset {α : Type} (d : α) (listId : Int) : JM (HydraIt α) Unit := do
  let s1 ← get
  let v3 ← (if (decide (listId ≥ (s1.deque.tails.len : Int))) = true then do
      pure (-1)
    else do
      let v2 ← rd (fun self => self.deque.tails) listId
      pure v2)
  modify fun self => { self with entry := v3 }
  pure ()

/-- KeyHydraDeque.ftl:270-277 `next`. -/
def next {α : Type} (d : α) : JM (HydraIt α) α := do
  let s1 ← get
  (if (decide (s1.entry < 0)) = true then do
      JM.throw .invalidEntry
    else pure ())
  let s2 ← get
  let v3 ← rd (fun self => self.deque.values) s2.entry
  let value := v3
  let v4 ← rd (fun self => self.deque.prevs) s2.entry
  modify fun self => { self with entry := v4 }
  pure value

/-- KeyHydraDeque.ftl:280-282 `hasNext`. -/
def hasNext {α : Type} (d : α) : JM (HydraIt α) Bool := do
  let s1 ← get
  pure (decide (s1.entry ≥ 0))

end ReverseIterator
end Verif.Gen.KeyHydraDeque

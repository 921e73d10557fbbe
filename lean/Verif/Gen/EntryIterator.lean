import Verif.Gen.Prelude
import Verif.Gen.NumUtils
import Verif.Gen.CapacityCalculator
import Verif.Gen.RangeCheckException
import Verif.Gen.InitializationException
import Verif.Model.Iterator
/-!
GENERATED by tools/j2l/translate.py from hash/BaseHash.java (IteratorImpl).  Do not edit: the translator is the only
reading of the Java text here.  Lean/Verif/Link proves that these definitions agree with the model.
-/
set_option linter.unusedVariables false
namespace Verif.Gen.EntryIterator
open Verif

namespace KeyValueIndexedMap

/-- BaseHash.java:181, the loop. -/
def nextHead_loop1 {K V : Type} [Inhabited K] [Inhabited V] :
    Nat → JM (Iterating K V) Unit
  | 0 => JM.throw .diverge
  | n + 1 => do
    let s4 ← get
    if (decide (s4.it.head < (s4.map.heads.len : Int))) = true then do
      let v5 ← rd (fun self => self.map.heads) s4.it.head
      modify fun self => { self with it.entry := v5 }
      let s6 ← get
      if (decide (s6.it.entry ≥ 0)) = true then do
        let v7 := (-1)
        modify fun self => { self with it.prev := v7 }
        let s8 ← get
        let v9 ← rd (fun self => self.map.nexts) s8.it.entry
        modify fun self => { self with it.next := v9 }
        pure ()
      else do
        let v10 := i32 (s6.it.head + 1)
        modify fun self => { self with it.head := v10 }
        nextHead_loop1 n
    else do
      pure ()

/-- BaseHash.java:180-191 `nextHead`. -/
def nextHead {K V : Type} [Inhabited K] [Inhabited V] (fuel : Nat) : JM (Iterating K V) Unit := do
  let s1 ← get
  let v2 := s1.it.head
  modify fun self => { self with it.head := (i32 (v2 + 1)) }
  let v3 := (-1)
  modify fun self => { self with it.entry := v3 }
  nextHead_loop1 fuel
  modify fun self => { self with it.isRemoved := false }
  pure ()

/-- BaseHash.java:175-178 `initialize`. -/
def initialise {K V : Type} [Inhabited K] [Inhabited V] (fuel : Nat) : JM (Iterating K V) Unit := do
  nextHead fuel
  modify fun self => { self with it.initialized := true }
  pure ()

/-- BaseHash.java:194-203 `reset`. -/
def reset {K V : Type} [Inhabited K] [Inhabited V] : JM (Iterating K V) Unit := do
  let v1 := (-1)
  modify fun self => { self with it.head := v1 }
  let v2 := (-1)
  modify fun self => { self with it.entry := v2 }
  let v3 := (-1)
  modify fun self => { self with it.prev := v3 }
  let v4 := (-1)
  modify fun self => { self with it.next := v4 }
  modify fun self => { self with it.initialized := false }
  modify fun self => { self with it.isRemoved := false }
  let s5 ← get
  let v6 := s5.map.modificationCount
  modify fun self => { self with it.internalModCount := v6 }
  pure ()

/-- BaseHash.java:206-208 `currentEntry`. -/
def currentEntry {K V : Type} [Inhabited K] [Inhabited V] : JM (Iterating K V) Int := do
  let s1 ← get
  pure s1.it.entry

/-- BaseHash.java:211-232 `next`. -/
def next {K V : Type} [Inhabited K] [Inhabited V] (fuel : Nat) : JM (Iterating K V) Bool := do
  let s1 ← get
  (if (decide (s1.map.modificationCount ≠ s1.it.internalModCount)) = true then do
      JM.throw .concurrentModification
    else pure ())
  let s2 ← get
  if (!s2.it.initialized) = true then do
    initialise fuel
    let s3 ← get
    pure (decide (s3.it.entry ≥ 0))
  else do
    if (decide (s2.it.next ≥ 0)) = true then do
      (if (!s2.it.isRemoved) = true then do
          let v4 := s2.it.entry
          modify fun self => { self with it.prev := v4 }
          pure ()
        else pure ())
      let s5 ← get
      let v6 := s5.it.next
      modify fun self => { self with it.entry := v6 }
      let s7 ← get
      let v8 ← rd (fun self => self.map.nexts) s7.it.entry
      modify fun self => { self with it.next := v8 }
      modify fun self => { self with it.isRemoved := false }
      pure true
    else do
      nextHead fuel
      let s9 ← get
      pure (decide (s9.it.entry ≥ 0))

/-- KeyValueIndexedMap.ftl:138-140 `removeValue`. -/
def removeValue {K V : Type} [Inhabited K] [Inhabited V] (entry : Int) : JM (Iterating K V) Unit := do
  wr (fun self => self.map.values) (fun self a => { self with map.values := a }) entry default
  pure ()

/-- BaseHash.java:235-266 `remove`. -/
def remove0 {K V : Type} [Inhabited K] [Inhabited V] (fuel : Nat) : JM (Iterating K V) Unit := do
  let s1 ← get
  (if (decide (s1.map.modificationCount ≠ s1.it.internalModCount)) = true then do
      JM.throw .concurrentModification
    else pure ())
  let s2 ← get
  (if s2.it.isRemoved = true then do
      JM.throw .illegalState
    else pure ())
  let s3 ← get
  (if (!s3.it.initialized) = true then do
      initialise fuel
      pure ()
    else pure ())
  let s4 ← get
  let v5 ← rd (fun self => self.map.nexts) s4.it.entry
  modify fun self => { self with it.next := v5 }
  let s6 ← get
  (if (decide (s6.it.prev < 0)) = true then do
      wr (fun self => self.map.heads) (fun self a => { self with map.heads := a }) s6.it.head s6.it.next
      pure ()
    else do
      wr (fun self => self.map.nexts) (fun self a => { self with map.nexts := a }) s6.it.prev s6.it.next
      pure ())
  let s7 ← get
  wr (fun self => self.map.nexts) (fun self a => { self with map.nexts := a }) s7.it.entry s7.map.freeList
  let s8 ← get
  let v9 := s8.it.entry
  modify fun self => { self with map.freeList := v9 }
  let s10 ← get
  let v11 := i32 (s10.map.size - 1)
  modify fun self => { self with map.size := v11 }
  let s12 ← get
  removeValue s12.it.entry
  modify fun self => { self with it.isRemoved := true }
  let s13 ← get
  let v14 := i32 (s13.it.internalModCount + 1)
  modify fun self => { self with it.internalModCount := v14 }
  let s15 ← get
  let v16 := i32 (s15.map.modificationCount + 1)
  modify fun self => { self with map.modificationCount := v16 }
  pure ()

/-- BaseHash.java:173-173 `init`. -/
def init {K V : Type} [Inhabited K] [Inhabited V] : JM (Iterating K V) Unit := do
  modify fun self => { self with it.initialized := false }
  modify fun self => { self with it.isRemoved := false }
  let v1 := (-1)
  modify fun self => { self with it.internalModCount := v1 }
  let v2 := (-1)
  modify fun self => { self with it.head := v2 }
  let v3 := (-1)
  modify fun self => { self with it.entry := v3 }
  let v4 := (-1)
  modify fun self => { self with it.prev := v4 }
  let v5 := (-1)
  modify fun self => { self with it.next := v5 }
  pure ()

/-- BaseHash.java:132-139 `iterator`. -/
def iterator1 {K V : Type} [Inhabited K] [Inhabited V] (enumerator : (Option Unit)) : JM (Iterating K V) (Option Unit) := do
  let enumerator ← (if (enumerator.isNone) = true then do
      init
      let enumerator := (some ())
      pure enumerator
    else pure enumerator)
  let _ ← deref enumerator
  reset
  pure enumerator

/-- BaseHash.java:127-129 `iterator`. -/
def iterator0 {K V : Type} [Inhabited K] [Inhabited V] : JM (Iterating K V) (Option Unit) := do
  let v1 ← iterator1 none
  pure v1

end KeyValueIndexedMap

namespace KeyIndexedSet

/-- BaseHash.java:181, the loop. -/
def nextHead_loop1 {K V : Type} [Inhabited K] [Inhabited V] :
    Nat → JM (Iterating K V) Unit
  | 0 => JM.throw .diverge
  | n + 1 => do
    let s4 ← get
    if (decide (s4.it.head < (s4.map.heads.len : Int))) = true then do
      let v5 ← rd (fun self => self.map.heads) s4.it.head
      modify fun self => { self with it.entry := v5 }
      let s6 ← get
      if (decide (s6.it.entry ≥ 0)) = true then do
        let v7 := (-1)
        modify fun self => { self with it.prev := v7 }
        let s8 ← get
        let v9 ← rd (fun self => self.map.nexts) s8.it.entry
        modify fun self => { self with it.next := v9 }
        pure ()
      else do
        let v10 := i32 (s6.it.head + 1)
        modify fun self => { self with it.head := v10 }
        nextHead_loop1 n
    else do
      pure ()

/-- BaseHash.java:180-191 `nextHead`. -/
def nextHead {K V : Type} [Inhabited K] [Inhabited V] (fuel : Nat) : JM (Iterating K V) Unit := do
  let s1 ← get
  let v2 := s1.it.head
  modify fun self => { self with it.head := (i32 (v2 + 1)) }
  let v3 := (-1)
  modify fun self => { self with it.entry := v3 }
  nextHead_loop1 fuel
  modify fun self => { self with it.isRemoved := false }
  pure ()

/-- BaseHash.java:175-178 `initialize`. -/
def initialise {K V : Type} [Inhabited K] [Inhabited V] (fuel : Nat) : JM (Iterating K V) Unit := do
  nextHead fuel
  modify fun self => { self with it.initialized := true }
  pure ()

/-- BaseHash.java:194-203 `reset`. -/
def reset {K V : Type} [Inhabited K] [Inhabited V] : JM (Iterating K V) Unit := do
  let v1 := (-1)
  modify fun self => { self with it.head := v1 }
  let v2 := (-1)
  modify fun self => { self with it.entry := v2 }
  let v3 := (-1)
  modify fun self => { self with it.prev := v3 }
  let v4 := (-1)
  modify fun self => { self with it.next := v4 }
  modify fun self => { self with it.initialized := false }
  modify fun self => { self with it.isRemoved := false }
  let s5 ← get
  let v6 := s5.map.modificationCount
  modify fun self => { self with it.internalModCount := v6 }
  pure ()

/-- BaseHash.java:206-208 `currentEntry`. -/
def currentEntry {K V : Type} [Inhabited K] [Inhabited V] : JM (Iterating K V) Int := do
  let s1 ← get
  pure s1.it.entry

/-- BaseHash.java:211-232 `next`. -/
def next {K V : Type} [Inhabited K] [Inhabited V] (fuel : Nat) : JM (Iterating K V) Bool := do
  let s1 ← get
  (if (decide (s1.map.modificationCount ≠ s1.it.internalModCount)) = true then do
      JM.throw .concurrentModification
    else pure ())
  let s2 ← get
  if (!s2.it.initialized) = true then do
    initialise fuel
    let s3 ← get
    pure (decide (s3.it.entry ≥ 0))
  else do
    if (decide (s2.it.next ≥ 0)) = true then do
      (if (!s2.it.isRemoved) = true then do
          let v4 := s2.it.entry
          modify fun self => { self with it.prev := v4 }
          pure ()
        else pure ())
      let s5 ← get
      let v6 := s5.it.next
      modify fun self => { self with it.entry := v6 }
      let s7 ← get
      let v8 ← rd (fun self => self.map.nexts) s7.it.entry
      modify fun self => { self with it.next := v8 }
      modify fun self => { self with it.isRemoved := false }
      pure true
    else do
      nextHead fuel
      let s9 ← get
      pure (decide (s9.it.entry ≥ 0))

/-- KeyIndexedSet.ftl:26-28 `removeValue`. -/
def removeValue {K V : Type} [Inhabited K] [Inhabited V] (entry : Int) : JM (Iterating K V) Unit := do
  pure ()

/-- BaseHash.java:235-266 `remove`. -/
def remove0 {K V : Type} [Inhabited K] [Inhabited V] (fuel : Nat) : JM (Iterating K V) Unit := do
  let s1 ← get
  (if (decide (s1.map.modificationCount ≠ s1.it.internalModCount)) = true then do
      JM.throw .concurrentModification
    else pure ())
  let s2 ← get
  (if s2.it.isRemoved = true then do
      JM.throw .illegalState
    else pure ())
  let s3 ← get
  (if (!s3.it.initialized) = true then do
      initialise fuel
      pure ()
    else pure ())
  let s4 ← get
  let v5 ← rd (fun self => self.map.nexts) s4.it.entry
  modify fun self => { self with it.next := v5 }
  let s6 ← get
  (if (decide (s6.it.prev < 0)) = true then do
      wr (fun self => self.map.heads) (fun self a => { self with map.heads := a }) s6.it.head s6.it.next
      pure ()
    else do
      wr (fun self => self.map.nexts) (fun self a => { self with map.nexts := a }) s6.it.prev s6.it.next
      pure ())
  let s7 ← get
  wr (fun self => self.map.nexts) (fun self a => { self with map.nexts := a }) s7.it.entry s7.map.freeList
  let s8 ← get
  let v9 := s8.it.entry
  modify fun self => { self with map.freeList := v9 }
  let s10 ← get
  let v11 := i32 (s10.map.size - 1)
  modify fun self => { self with map.size := v11 }
  let s12 ← get
  removeValue s12.it.entry
  modify fun self => { self with it.isRemoved := true }
  let s13 ← get
  let v14 := i32 (s13.it.internalModCount + 1)
  modify fun self => { self with it.internalModCount := v14 }
  let s15 ← get
  let v16 := i32 (s15.map.modificationCount + 1)
  modify fun self => { self with map.modificationCount := v16 }
  pure ()

/-- BaseHash.java:173-173 `init`. -/
def init {K V : Type} [Inhabited K] [Inhabited V] : JM (Iterating K V) Unit := do
  modify fun self => { self with it.initialized := false }
  modify fun self => { self with it.isRemoved := false }
  let v1 := (-1)
  modify fun self => { self with it.internalModCount := v1 }
  let v2 := (-1)
  modify fun self => { self with it.head := v2 }
  let v3 := (-1)
  modify fun self => { self with it.entry := v3 }
  let v4 := (-1)
  modify fun self => { self with it.prev := v4 }
  let v5 := (-1)
  modify fun self => { self with it.next := v5 }
  pure ()

/-- BaseHash.java:132-139 `iterator`. -/
def iterator1 {K V : Type} [Inhabited K] [Inhabited V] (enumerator : (Option Unit)) : JM (Iterating K V) (Option Unit) := do
  let enumerator ← (if (enumerator.isNone) = true then do
      init
      let enumerator := (some ())
      pure enumerator
    else pure enumerator)
  let _ ← deref enumerator
  reset
  pure enumerator

/-- BaseHash.java:127-129 `iterator`. -/
def iterator0 {K V : Type} [Inhabited K] [Inhabited V] : JM (Iterating K V) (Option Unit) := do
  let v1 ← iterator1 none
  pure v1

end KeyIndexedSet
end Verif.Gen.EntryIterator

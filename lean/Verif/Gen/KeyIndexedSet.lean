import Verif.Gen.Prelude
import Verif.Gen.NumUtils
import Verif.Gen.CapacityCalculator
import Verif.Gen.RangeCheckException
import Verif.Gen.InitializationException
import Verif.Model.Index
/-!
GENERATED by tools/j2l/translate.py from hash/KeyIndexedSet.ftl, BaseKeyIndex.ftl, BaseHash.java.  Do not edit: the translator is the only
reading of the Java text here.  Lean/Verif/Link proves that these definitions agree with the model.
-/
set_option linter.unusedVariables false
namespace Verif.Gen.KeyIndexedSet
open Verif

/-- BaseHash.java:141-161 `copyFrom`. -/
def supersuper_copyFrom {K V : Type} [Inhabited K] [Inhabited V] (source : (Index K V)) : JM (Index K V) Unit := do
  let s1 ← get
  (if (decide ((s1.heads.len : Int) ≠ (source.heads.len : Int))) = true then do
      let v2 ← newArr (source.heads.len : Int) 0
      modify fun self => { self with heads := v2 }
      pure ()
    else pure ())
  let s3 ← get
  (if (decide ((s3.nexts.len : Int) < (source.nexts.len : Int))) = true then do
      let v4 ← newArr (source.nexts.len : Int) 0
      modify fun self => { self with nexts := v4 }
      pure ()
    else do
      let v5 ← fill s3.nexts (-1) (source.nexts.len : Int) (i32 ((s3.nexts.len : Int) - (source.nexts.len : Int)))
      modify fun self => { self with nexts := v5 }
      pure ())
  let s6 ← get
  let v7 ← arraycopy source.heads 0 s6.heads 0 (source.heads.len : Int)
  modify fun self => { self with heads := v7 }
  let s8 ← get
  let v9 ← arraycopy source.nexts 0 s8.nexts 0 (source.nexts.len : Int)
  modify fun self => { self with nexts := v9 }
  let s10 ← get
  let v11 := i32 (s10.modificationCount + 1)
  modify fun self => { self with modificationCount := v11 }
  let v12 := source.size
  modify fun self => { self with size := v12 }
  let v13 := (source.lfNum, source.lfDen)
  modify fun self => { self with lfNum := v13.1, lfDen := v13.2 }
  let v14 := source.freeList
  modify fun self => { self with freeList := v14 }
  let v15 := source.nextUnusedEntry
  modify fun self => { self with nextUnusedEntry := v15 }
  let v16 := source.maxHead
  modify fun self => { self with maxHead := v16 }
  pure ()

/-- BaseKeyIndex.ftl:27-41 `copyFrom`. -/
def super_copyFrom {K V : Type} [Inhabited K] [Inhabited V] (source : (Index K V)) : JM (Index K V) Unit := do
  supersuper_copyFrom source
  let s1 ← get
  (if (decide ((s1.keys.len : Int) < (source.keys.len : Int))) = true then do
      let v2 ← newArr (source.keys.len : Int) default
      modify fun self => { self with keys := v2 }
      pure ()
    else do
      let v3 ← fill s1.keys default (source.keys.len : Int) (i32 ((s1.keys.len : Int) - (source.keys.len : Int)))
      modify fun self => { self with keys := v3 }
      pure ())
  let s4 ← get
  let v5 ← arraycopy source.keys 0 s4.keys 0 (source.keys.len : Int)
  modify fun self => { self with keys := v5 }
  let s6 ← get
  let v7 := (s6.keys.len : Int)
  modify fun self => { self with capacity := v7 }
  let s8 ← get
  let v9 := (Index.threshold s8.capacity (s8.lfNum, s8.lfDen).1 (s8.lfNum, s8.lfDen).2)
  modify fun self => { self with capThreshold := v9 }
  pure ()

/-- KeyIndexedSet.ftl:21-23 `copyFrom`. -/
def copyFrom {K V : Type} [Inhabited K] [Inhabited V] (sourceSet : (Index K V)) : JM (Index K V) Unit := do
  super_copyFrom sourceSet
  pure ()

/-- KeyIndexedSet.ftl:26-28 `removeValue`. -/
def removeValue {K V : Type} [Inhabited K] [Inhabited V] (entry : Int) : JM (Index K V) Unit := do
  pure ()

/-- KeyIndexedSet.ftl:31-33 `growValues`. -/
def growValues {K V : Type} [Inhabited K] [Inhabited V] (size : Int) : JM (Index K V) Unit := do
  pure ()

/-- KeyIndexedSet.ftl:36-38 `clearValues`. -/
def clearValues {K V : Type} [Inhabited K] [Inhabited V] : JM (Index K V) Unit := do
  pure ()

/-- BaseKeyIndex.ftl:291-296 `_setHashMethod`. -/
def _setHashMethod {K V : Type} [Inhabited K] [Inhabited V] (hash : (K → BitVec 32)) : JM (Index K V) Unit := do
  let s1 ← get
  (if (decide (s1.size > 0)) = true then do
      JM.throw .illegalState
    else pure ())
  modify fun self => { self with hashFunc := hash }
  pure ()

/-- KeyIndexedSet.ftl:41-43 `setHashMethod`. -/
def setHashMethod {K V : Type} [Inhabited K] [Inhabited V] (hash : (K → BitVec 32)) : JM (Index K V) Unit := do
  _setHashMethod hash
  pure ()

/-- BaseKeyIndex.ftl:298-303 `_setEqMethod`. -/
def _setEqMethod {K V : Type} [Inhabited K] [Inhabited V] (eq : (K → K → Bool)) : JM (Index K V) Unit := do
  let s1 ← get
  (if (decide (s1.size > 0)) = true then do
      JM.throw .illegalState
    else pure ())
  modify fun self => { self with equalFunc := eq }
  pure ()

/-- KeyIndexedSet.ftl:45-47 `setEqMethod`. -/
def setEqMethod {K V : Type} [Inhabited K] [Inhabited V] (eq : (K → K → Bool)) : JM (Index K V) Unit := do
  _setEqMethod eq
  pure ()

/-- BaseKeyIndex.ftl:51, the loop. -/
def forEach_loop2 {β : Type} {K V : Type} [Inhabited K] [Inhabited V] (consumer : (K → JM (Index K V) β)) :
    Nat → (List β) → Int → Int → JM (Index K V) ((List β) × Int)
  | 0, _, _, _ => JM.throw .diverge
  | n + 1, acc, hits, e => do
    if (decide (e ≥ 0)) = true then do
      let v4 ← rd Index.nexts e
      let next := v4
      let v5 := i32 (hits + 1)
      let hits := v5
      let v6 ← rd Index.keys e
      let v7 ← consumer v6
      let acc := acc ++ [v7]
      let e := next
      forEach_loop2 consumer n acc hits e
    else do
      pure (acc, hits)

/-- BaseKeyIndex.ftl:50, the loop. -/
def forEach_loop1 {β : Type} {K V : Type} [Inhabited K] [Inhabited V] (fuel : Nat) (consumer : (K → JM (Index K V) β)) (expectedHits : Int) :
    Nat → (List β) → Int → Int → JM (Index K V) ((List β) × Int)
  | 0, _, _, _ => JM.throw .diverge
  | n + 1, acc, hits, head => do
    let s2 ← get
    if ((decide (head < (s2.heads.len : Int))) && (decide (hits < expectedHits))) = true then do
      let v3 ← rd Index.heads head
      let e := v3
      let (acc, hits) ← forEach_loop2 consumer fuel acc hits e
      let v8 := i32 (head + 1)
      let head := v8
      forEach_loop1 fuel consumer expectedHits n acc hits head
    else do
      pure (acc, hits)

/-- BaseKeyIndex.ftl:44-58 `forEach`. -/
def forEach {β : Type} {K V : Type} [Inhabited K] [Inhabited V] (fuel : Nat) (consumer : (K → JM (Index K V) β)) : JM (Index K V) (List β) := do
  let acc : List β := []
  let s1 ← get
  if (decide (s1.size = 0)) = true then do
    pure acc
  else do
    let hits := 0
    let expectedHits := s1.size
    let head := 0
    let (acc, hits) ← forEach_loop1 fuel consumer expectedHits fuel acc hits head
    pure acc

/-- BaseKeyIndex.ftl:246-249 `computeHead`. -/
def computeHead {K V : Type} [Inhabited K] [Inhabited V] (key : K) : JM (Index K V) Int := do
  let s1 ← get
  let hash := (and32 ((s1.hashFunc key).toInt) MAX_INT)
  pure (and32 hash (i32 ((s1.heads.len : Int) - 1)))

/-- BaseKeyIndex.ftl:63, the loop. -/
def lookupEntry_loop1 {K V : Type} [Inhabited K] [Inhabited V] (key : K) :
    Nat → Int → JM (Index K V) (Flow Int Unit)
  | 0, _ => JM.throw .diverge
  | n + 1, e => do
    if (decide (e ≥ 0)) = true then do
      let v3 ← rd Index.keys e
      let s4 ← get
      if (s4.equalFunc key v3) = true then do
        pure (.ret e)
      else do
        let v5 ← rd Index.nexts e
        let e := v5
        lookupEntry_loop1 key n e
    else do
      pure (.next ())

/-- BaseKeyIndex.ftl:61-69 `lookupEntry`. -/
def lookupEntry {K V : Type} [Inhabited K] [Inhabited V] (fuel : Nat) (key : K) : JM (Index K V) Int := do
  let v1 ← computeHead key
  let head := v1
  let v2 ← rd Index.heads head
  let e := v2
  let r6 ← lookupEntry_loop1 key fuel e
  match r6 with
  | .ret v => pure v
  | .next _ => do
    pure (-1)

/-- BaseKeyIndex.ftl:77-79 `getKeyAt`. -/
def getKeyAt {K V : Type} [Inhabited K] [Inhabited V] (entry : Int) : JM (Index K V) K := do
  let v1 ← rd Index.keys entry
  pure v1

/-- BaseKeyIndex.ftl:83-85 `containsKey`. -/
def containsKey {K V : Type} [Inhabited K] [Inhabited V] (fuel : Nat) (key : K) : JM (Index K V) Bool := do
  let v1 ← lookupEntry fuel key
  pure (decide (v1 ≠ (-1)))

/-- BaseKeyIndex.ftl:142-149 `freeReservedEntry`. -/
def freeReservedEntry {K V : Type} [Inhabited K] [Inhabited V] (entry : Int) : JM (Index K V) Unit := do
  let s1 ← get
  wr Index.nexts (fun self a => { self with nexts := a }) entry s1.freeList
  modify fun self => { self with freeList := entry }
  wr Index.keys (fun self a => { self with keys := a }) entry default
  removeValue entry
  pure ()

/-- BaseKeyIndex.ftl:158, the loop. -/
def removeKey_loop1 {K V : Type} [Inhabited K] [Inhabited V] (key : K) (free : Bool) (head : Int) :
    Nat → Int → Int → JM (Index K V) (Flow Int Int)
  | 0, _, _ => JM.throw .diverge
  | n + 1, prev, e => do
    if (decide (e ≥ 0)) = true then do
      let v3 ← rd Index.keys e
      let s4 ← get
      if (!(s4.equalFunc key v3)) = true then do
        let prev := e
        let v5 ← rd Index.nexts e
        let e := v5
        removeKey_loop1 key free head n prev e
      else do
        let v6 ← rd Index.nexts e
        let next := v6
        (if (decide (prev < 0)) = true then do
            wr Index.heads (fun self a => { self with heads := a }) head next
            pure ()
          else do
            wr Index.nexts (fun self a => { self with nexts := a }) prev next
            pure ())
        (if free = true then do
            freeReservedEntry e
            pure ()
          else do
            wr Index.nexts (fun self a => { self with nexts := a }) e (-1)
            pure ())
        let s7 ← get
        let v8 := i32 (s7.size - 1)
        modify fun self => { self with size := v8 }
        let s9 ← get
        let v10 := i32 (s9.modificationCount + 1)
        modify fun self => { self with modificationCount := v10 }
        pure (.ret e)
    else do
      pure (.next prev)

/-- BaseKeyIndex.ftl:151-182 `remove`. -/
def removeKey {K V : Type} [Inhabited K] [Inhabited V] (fuel : Nat) (key : K) (free : Bool) : JM (Index K V) Int := do
  let v1 ← computeHead key
  let head := v1
  let v2 ← rd Index.heads head
  let headEntry := v2
  if (decide (headEntry < 0)) = true then do
    pure (-1)
  else do
    let prev := (-1)
    let e := headEntry
    let r11 ← removeKey_loop1 key free head fuel prev e
    match r11 with
    | .ret v => pure v
    | .next prev => do
      pure (-1)

/-- BaseKeyIndex.ftl:92-94 `remove`. -/
def remove1 {K V : Type} [Inhabited K] [Inhabited V] (fuel : Nat) (key : K) : JM (Index K V) Int := do
  let v1 ← removeKey fuel key true
  pure v1

/-- BaseKeyIndex.ftl:241, the loop. -/
def getHead_loop1 {K V : Type} [Inhabited K] [Inhabited V] :
    Nat → Int → JM (Index K V) Int
  | 0, _ => JM.throw .diverge
  | n + 1, entry => do
    if (decide (entry ≥ 0)) = true then do
      let v1 ← rd Index.nexts entry
      let entry := v1
      getHead_loop1 n entry
    else do
      pure entry

/-- BaseKeyIndex.ftl:240-244 `getHead`. -/
def getHead {K V : Type} [Inhabited K] [Inhabited V] (fuel : Nat) (entry : Int) : JM (Index K V) Int := do
  let entry ← getHead_loop1 fuel entry
  pure (i32 ((i32 (-entry)) - 1))

/-- BaseKeyIndex.ftl:105, the loop. -/
def removeAt_loop1 {K V : Type} [Inhabited K] [Inhabited V] (entry : Int) (head : Int) :
    Nat → Int → Int → JM (Index K V) Int
  | 0, _, _ => JM.throw .diverge
  | n + 1, prev, e => do
    if (decide (e ≥ 0)) = true then do
      if (decide (e ≠ entry)) = true then do
        let prev := e
        let v3 ← rd Index.nexts e
        let e := v3
        removeAt_loop1 entry head n prev e
      else do
        let v4 ← rd Index.nexts e
        let next := v4
        (if (decide (prev < 0)) = true then do
            wr Index.heads (fun self a => { self with heads := a }) head next
            pure ()
          else do
            wr Index.nexts (fun self a => { self with nexts := a }) prev next
            pure ())
        freeReservedEntry e
        let s5 ← get
        let v6 := i32 (s5.size - 1)
        modify fun self => { self with size := v6 }
        let s7 ← get
        let v8 := i32 (s7.modificationCount + 1)
        modify fun self => { self with modificationCount := v8 }
        pure prev
    else do
      pure prev

/-- BaseKeyIndex.ftl:102-123 `removeAt`. -/
def removeAt {K V : Type} [Inhabited K] [Inhabited V] (fuel : Nat) (entry : Int) : JM (Index K V) Unit := do
  let v1 ← getHead fuel entry
  let head := v1
  let prev := (-1)
  let v2 ← rd Index.heads head
  let e := v2
  let prev ← removeAt_loop1 entry head fuel prev e
  pure ()

/-- BaseKeyIndex.ftl:132-134 `removeAtAndReserve`. -/
def removeAtAndReserve {K V : Type} [Inhabited K] [Inhabited V] (fuel : Nat) (entry : Int) : JM (Index K V) Unit := do
  let v1 ← rd Index.keys entry
  let v2 ← removeKey fuel v1 false
  pure ()

/-- BaseKeyIndex.ftl:216-226 `allocateNewEntry`. -/
def allocateNewEntry {K V : Type} [Inhabited K] [Inhabited V] : JM (Index K V) Int := do
  let entry := 0
  let s1 ← get
  let entry ← (if (decide (s1.freeList ≠ (-1))) = true then do
      let entry := s1.freeList
      let v2 ← rd Index.nexts entry
      modify fun self => { self with freeList := v2 }
      pure entry
    else do
      let entry := s1.nextUnusedEntry
      let v3 := i32 (s1.nextUnusedEntry + 1)
      modify fun self => { self with nextUnusedEntry := v3 }
      pure entry)
  pure entry

/-- BaseHash.java:60-72 `calculateNewCapacity`. -/
def calculateNewCapacity {K V : Type} [Inhabited K] [Inhabited V] : JM (Index K V) Unit := do
  let s1 ← get
  let v2 ← Gen.CapacityCalculator.calculateNewCapacity s1.capacity s1.capThreshold
  let newCapacity := v2
  let s3 ← get
  (if (decide (s3.capacity = newCapacity)) = true then do
      let v4 := (i32 ((i32 (Int.tdiv MAX_INT 4)) + 1))
      modify fun self => { self with capThreshold := v4 }
      pure ()
    else do
      modify fun self => { self with capacity := newCapacity }
      let s5 ← get
      let newThreshold := (Index.threshold s5.capacity (s5.lfNum, s5.lfDen).1 (s5.lfNum, s5.lfDen).2)
      let v6 := (min newThreshold (i32 ((i32 (Int.tdiv MAX_INT 4)) + 1)))
      modify fun self => { self with capThreshold := v6 }
      pure ())
  pure ()

/-- BaseKeyIndex.ftl:282-284 `growKeys`. -/
def growKeys {K V : Type} [Inhabited K] [Inhabited V] (size : Int) : JM (Index K V) Unit := do
  let s1 ← get
  let v2 ← Verif.ensureSize s1.keys size default
  modify fun self => { self with keys := v2 }
  pure ()

/-- BaseKeyIndex.ftl:228-238 `registerNewEntryForHead`. -/
def registerNewEntryForHead {K V : Type} [Inhabited K] [Inhabited V] (head : Int) (entry : Int) : JM (Index K V) Unit := do
  let v1 ← rd Index.heads head
  (if (decide (v1 ≥ 0)) = true then do
      let v2 ← rd Index.heads head
      wr Index.nexts (fun self a => { self with nexts := a }) entry v2
      pure ()
    else do
      wr Index.nexts (fun self a => { self with nexts := a }) entry (i32 ((i32 (-head)) - 1))
      pure ())
  wr Index.heads (fun self a => { self with heads := a }) head entry
  pure ()

/-- BaseHash.java:111-115 `updateMaxHead`. -/
def updateMaxHead {K V : Type} [Inhabited K] [Inhabited V] (head : Int) : JM (Index K V) Unit := do
  let s1 ← get
  (if (decide (head > s1.maxHead)) = true then do
      modify fun self => { self with maxHead := head }
      pure ()
    else pure ())
  pure ()

/-- BaseKeyIndex.ftl:271, the loop. -/
def rehash_loop2 {K V : Type} [Inhabited K] [Inhabited V] (oldNexts : (Arr Int)) (oldKeys : (Arr K)) :
    Nat → Int → JM (Index K V) Int
  | 0, _ => JM.throw .diverge
  | n + 1, entry => do
    if (decide (entry ≥ 0)) = true then do
      let v10 ← rdA oldKeys entry
      let v11 ← computeHead v10
      let newHead := v11
      registerNewEntryForHead newHead entry
      updateMaxHead newHead
      let v12 ← rdA oldNexts entry
      let entry := v12
      rehash_loop2 oldNexts oldKeys n entry
    else do
      pure entry

/-- BaseKeyIndex.ftl:269, the loop. -/
def rehash_loop1 {K V : Type} [Inhabited K] [Inhabited V] (fuel : Nat) (oldHeads : (Arr Int)) (oldNexts : (Arr Int)) (oldKeys : (Arr K)) (len : Int) :
    Nat → Int → JM (Index K V) Unit
  | 0, _ => JM.throw .diverge
  | n + 1, i => do
    if (decide (i < len)) = true then do
      let v9 ← rdA oldHeads i
      let entry := v9
      let entry ← rehash_loop2 oldNexts oldKeys fuel entry
      let v13 := i32 (i + 1)
      let i := v13
      rehash_loop1 fuel oldHeads oldNexts oldKeys len n i
    else do
      pure ()

/-- BaseKeyIndex.ftl:251-279 `rehash`. -/
def rehash {K V : Type} [Inhabited K] [Inhabited V] (fuel : Nat) : JM (Index K V) Unit := do
  let s1 ← get
  let oldHeads := s1.heads
  let oldNexts := s1.nexts
  let oldKeys := s1.keys
  calculateNewCapacity
  let s2 ← get
  let v3 ← newArr s2.capacity (-1)
  modify fun self => { self with heads := v3 }
  let s4 ← get
  let v5 ← newArr s4.capacity (-1)
  modify fun self => { self with nexts := v5 }
  let s6 ← get
  growKeys s6.capacity
  let s7 ← get
  growValues s7.capacity
  let s8 ← get
  let len := (min (i32 (s8.maxHead + 1)) (oldHeads.len : Int))
  modify fun self => { self with maxHead := 0 }
  let i := 0
  rehash_loop1 fuel oldHeads oldNexts oldKeys len fuel i
  let s14 ← get
  let v15 := i32 (s14.modificationCount + 1)
  modify fun self => { self with modificationCount := v15 }
  pure ()

/-- BaseKeyIndex.ftl:190, the loop. -/
def add_loop1 {K V : Type} [Inhabited K] [Inhabited V] (key : K) :
    Nat → Int → JM (Index K V) (Flow Int Unit)
  | 0, _ => JM.throw .diverge
  | n + 1, e => do
    if (decide (e ≥ 0)) = true then do
      let v3 ← rd Index.keys e
      let s4 ← get
      if (s4.equalFunc key v3) = true then do
        pure (.ret e)
      else do
        let v5 ← rd Index.nexts e
        let e := v5
        add_loop1 key n e
    else do
      pure (.next ())

/-- BaseKeyIndex.ftl:188-214 `add`. -/
def add {K V : Type} [Inhabited K] [Inhabited V] (fuel : Nat) (key : K) : JM (Index K V) Int := do
  let v1 ← computeHead key
  let head := v1
  let v2 ← rd Index.heads head
  let e := v2
  let r6 ← add_loop1 key fuel e
  match r6 with
  | .ret v => pure v
  | .next _ => do
    let v7 ← allocateNewEntry
    let entry := v7
    let s8 ← get
    let head ← (if (decide (entry ≥ s8.capThreshold)) = true then do
        rehash fuel
        let v9 ← computeHead key
        let head := v9
        pure head
      else pure head)
    registerNewEntryForHead head entry
    wr Index.keys (fun self a => { self with keys := a }) entry key
    updateMaxHead head
    let s10 ← get
    let v11 := i32 (s10.size + 1)
    modify fun self => { self with size := v11 }
    let s12 ← get
    let v13 := i32 (s12.modificationCount + 1)
    modify fun self => { self with modificationCount := v13 }
    pure entry

/-- BaseKeyIndex.ftl:287-289 `clearKeys`. -/
def clearKeys {K V : Type} [Inhabited K] [Inhabited V] : JM (Index K V) Unit := do
  let s1 ← get
  let v2 ← fill s1.keys default 0 (min s1.nextUnusedEntry (s1.keys.len : Int))
  modify fun self => { self with keys := v2 }
  pure ()

/-- BaseHash.java:48-50 `capacity`. -/
def capacity {K V : Type} [Inhabited K] [Inhabited V] : JM (Index K V) Int := do
  let s1 ← get
  pure s1.capacity

/-- BaseHash.java:52-54 `size`. -/
def size {K V : Type} [Inhabited K] [Inhabited V] : JM (Index K V) Int := do
  let s1 ← get
  pure s1.size

/-- BaseHash.java:56-58 `isEmpty`. -/
def isEmpty {K V : Type} [Inhabited K] [Inhabited V] : JM (Index K V) Bool := do
  let s1 ← get
  pure (decide (s1.size = 0))

/-- BaseHash.java:74-92 `clear`. -/
def clear {K V : Type} [Inhabited K] [Inhabited V] : JM (Index K V) Unit := do
  let s1 ← get
  (if (decide (s1.size > 0)) = true then do
      let lim := 0
      let lim := (min (s1.heads.len : Int) (i32 (s1.maxHead + 1)))
      let v2 ← arraysFill s1.heads 0 lim (-1)
      modify fun self => { self with heads := v2 }
      let s3 ← get
      let lim := (min (s3.nexts.len : Int) s3.nextUnusedEntry)
      let v4 ← arraysFill s3.nexts 0 lim (-1)
      modify fun self => { self with nexts := v4 }
      clearKeys
      clearValues
      modify fun self => { self with size := 0 }
      pure ()
    else pure ())
  modify fun self => { self with modificationCount := 0 }
  modify fun self => { self with nextUnusedEntry := 0 }
  let v5 := (-1)
  modify fun self => { self with freeList := v5 }
  modify fun self => { self with maxHead := 0 }
  pure ()

/-- BaseHash.java:102, the loop. -/
def forEachEntry_loop2 {β : Type} {K V : Type} [Inhabited K] [Inhabited V] (consumer : (Int → JM (Index K V) β)) :
    Nat → (List β) → Int → Int → JM (Index K V) ((List β) × Int)
  | 0, _, _, _ => JM.throw .diverge
  | n + 1, acc, hits, e => do
    if (decide (e ≥ 0)) = true then do
      let v4 ← rd Index.nexts e
      let next := v4
      let v5 := i32 (hits + 1)
      let hits := v5
      let v6 ← consumer e
      let acc := acc ++ [v6]
      let e := next
      forEachEntry_loop2 consumer n acc hits e
    else do
      pure (acc, hits)

/-- BaseHash.java:101, the loop. -/
def forEachEntry_loop1 {β : Type} {K V : Type} [Inhabited K] [Inhabited V] (fuel : Nat) (consumer : (Int → JM (Index K V) β)) (expectedHits : Int) :
    Nat → (List β) → Int → Int → JM (Index K V) ((List β) × Int)
  | 0, _, _, _ => JM.throw .diverge
  | n + 1, acc, hits, head => do
    let s2 ← get
    if ((decide (head < (s2.heads.len : Int))) && (decide (hits < expectedHits))) = true then do
      let v3 ← rd Index.heads head
      let e := v3
      let (acc, hits) ← forEachEntry_loop2 consumer fuel acc hits e
      let v7 := i32 (head + 1)
      let head := v7
      forEachEntry_loop1 fuel consumer expectedHits n acc hits head
    else do
      pure (acc, hits)

/-- BaseHash.java:95-109 `forEachEntry`. -/
def forEachEntry {β : Type} {K V : Type} [Inhabited K] [Inhabited V] (fuel : Nat) (consumer : (Int → JM (Index K V) β)) : JM (Index K V) (List β) := do
  let acc : List β := []
  let s1 ← get
  if (decide (s1.size = 0)) = true then do
    pure acc
  else do
    let hits := 0
    let expectedHits := s1.size
    let head := 0
    let (acc, hits) ← forEachEntry_loop1 fuel consumer expectedHits fuel acc hits head
    pure acc

/-- BaseHash.java:30-46 `init_BaseHash_2`. -/
def init_BaseHash_2 {K V : Type} [Inhabited K] [Inhabited V] (hash : K → BitVec 32) (eq : K → K → Bool) (initialCapacity : Int) (loadFactor : (Nat × Nat)) : JM (Index K V) Unit := do
  modify fun self => { self with size := 0 }
  let v1 := (-1)
  modify fun self => { self with freeList := v1 }
  modify fun self => { self with maxHead := 0 }
  (if ((decide (initialCapacity ≤ 0)) || (decide (initialCapacity > (i32 ((i32 (Int.tdiv MAX_INT 4)) + 1))))) = true then do
      JM.throw .illegalArgument
    else pure ())
  (if ((decide (loadFactor.1 = 0)) || (decide (loadFactor.1 > loadFactor.2))) = true then do
      JM.throw .illegalArgument
    else pure ())
  let v2 ← Gen.NumUtils.nextPowerOf2 initialCapacity
  modify fun self => { self with capacity := v2 }
  let s3 ← get
  let v4 := (Index.threshold s3.capacity loadFactor.1 loadFactor.2)
  modify fun self => { self with capThreshold := v4 }
  modify fun self => { self with lfNum := loadFactor.1, lfDen := loadFactor.2 }
  modify fun self => { self with nextUnusedEntry := 0 }
  let s5 ← get
  let v6 ← newArr s5.capacity (-1)
  modify fun self => { self with heads := v6 }
  let s7 ← get
  let v8 ← newArr s7.capacity (-1)
  modify fun self => { self with nexts := v8 }
  pure ()

/-- BaseKeyIndex.ftl:22-25 `init_BaseKeyIndex_2`. -/
def init_BaseKeyIndex_2 {K V : Type} [Inhabited K] [Inhabited V] (hash : K → BitVec 32) (eq : K → K → Bool) (initialCapacity : Int) (loadFactor : (Nat × Nat)) : JM (Index K V) Unit := do
  init_BaseHash_2 hash eq initialCapacity loadFactor
  modify fun self => { self with hashFunc := hash }
  modify fun self => { self with equalFunc := eq }
  let s1 ← get
  let v2 ← newArr s1.capacity default
  modify fun self => { self with keys := v2 }
  pure ()

/-- KeyIndexedSet.ftl:12-14 `init_KeyIndexedSet_1`. -/
def init1 {K V : Type} [Inhabited K] [Inhabited V] (hash : K → BitVec 32) (eq : K → K → Bool) (initialCapacity : Int) : JM (Index K V) Unit := do
  init_BaseKeyIndex_2 hash eq initialCapacity ((3, 4) : Nat × Nat)
  pure ()

/-- KeyIndexedSet.ftl:16-18 `init_KeyIndexedSet_2`. -/
def init2 {K V : Type} [Inhabited K] [Inhabited V] (hash : K → BitVec 32) (eq : K → K → Bool) (initialCapacity : Int) (loadFactor : (Nat × Nat)) : JM (Index K V) Unit := do
  init_BaseKeyIndex_2 hash eq initialCapacity loadFactor
  pure ()
end Verif.Gen.KeyIndexedSet

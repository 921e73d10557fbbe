import Verif.Gen.Prelude
import Verif.Gen.NumUtils
import Verif.Gen.CapacityCalculator
import Verif.Gen.RangeCheckException
import Verif.Gen.InitializationException
import Verif.Model.Heap
/-!
GENERATED by tools/j2l/translate.py from heap/KeyValueHeap.ftl, BaseKeyHeap.ftl, BaseHeap.java.  Do not edit: the translator is the only
reading of the Java text here.  Lean/Verif/Link proves that these definitions agree with the model.
-/
set_option linter.unusedVariables false
namespace Verif.Gen.KeyValueHeap
open Verif

/-- KeyValueHeap.ftl:29-31 `getDefaultValue`. -/
def getDefaultValue {K V : Type} [BEq K] [BEq V] : JM (Heap K V) V := do
  let s1 ← get
  pure s1.defaultValue

/-- BaseHeap.java:30-32 `getSize`. -/
def getSize {K V : Type} [BEq K] [BEq V] : JM (Heap K V) Int := do
  let s1 ← get
  pure s1.size

/-- KeyValueHeap.ftl:38-46 `setDefaultValue`. -/
def setDefaultValue {K V : Type} [BEq K] [BEq V] (defaultValue : V) : JM (Heap K V) Unit := do
  let s1 ← get
  (if (decide (s1.size > 0)) = true then do
      JM.throw .runtime
    else pure ())
  let s2 ← get
  (if (!(s2.defaultValue == defaultValue)) = true then do
      modify fun self => { self with defaultValue := defaultValue }
      let s3 ← get
      let v4 ← fill s3.values defaultValue s3.size (s3.values.len : Int)
      modify fun self => { self with values := v4 }
      pure ()
    else pure ())
  pure ()

/-- BaseHeap.java:59-74 `calculateNewCapacity`. -/
def calculateNewCapacity {K V : Type} [BEq K] [BEq V] : JM (Heap K V) Int := do
  let s1 ← get
  let capacity := (s1.tree.len : Int)
  (if (decide (capacity = (i32 ((i32 (Int.tdiv MAX_INT 4)) + 1)))) = true then do
      JM.throw .resize
    else pure ())
  let newCapacity := (shl32 capacity 1)
  (if (decide (newCapacity ≤ capacity)) = true then do
      JM.throw .resize
    else pure ())
  pure (min newCapacity (i32 ((i32 (Int.tdiv MAX_INT 4)) + 1)))

/-- BaseHeap.java:54-57 `growHeap`. -/
def growHeap {K V : Type} [BEq K] [BEq V] (capacity : Int) : JM (Heap K V) Unit := do
  let s1 ← get
  let v2 ← Verif.copyOf s1.tree capacity 0
  modify fun self => { self with tree := v2 }
  let s3 ← get
  let v4 ← Verif.copyOf s3.inverse capacity 0
  modify fun self => { self with inverse := v4 }
  pure ()

/-- BaseKeyHeap.ftl:241-243 `growKeys`. -/
def growKeys {K V : Type} [BEq K] [BEq V] (capacity : Int) : JM (Heap K V) Unit := do
  let s1 ← get
  let v2 ← Verif.copyOf s1.keys capacity s1.defaultKey
  modify fun self => { self with keys := v2 }
  pure ()

/-- KeyValueHeap.ftl:84-86 `growValues`. -/
def growValues {K V : Type} [BEq K] [BEq V] (size : Int) : JM (Heap K V) Unit := do
  let s1 ← get
  let v2 ← Verif.copyOf s1.values size s1.defaultValue
  modify fun self => { self with values := v2 }
  pure ()

/-- BaseKeyHeap.ftl:168-189 `allocateEntry`. -/
def allocateEntry {K V : Type} [BEq K] [BEq V] (key : K) : JM (Heap K V) Int := do
  let t := 0
  let s1 ← get
  let t ← (if (decide (s1.freeCount > 0)) = true then do
      let v2 ← rd Heap.tree s1.size
      let t := v2
      let v3 := i32 (s1.freeCount - 1)
      modify fun self => { self with freeCount := v3 }
      pure t
    else do
      let oldLen := (s1.keys.len : Int)
      (if (decide (s1.size ≥ oldLen)) = true then do
          let v4 ← calculateNewCapacity
          let newCapacity := v4
          growHeap newCapacity
          growKeys newCapacity
          growValues newCapacity
          pure ()
        else pure ())
      let s5 ← get
      let t := s5.size
      pure t)
  wr Heap.keys (fun self a => { self with keys := a }) t key
  let s6 ← get
  let v7 := i32 (s6.modCount + 1)
  modify fun self => { self with modCount := v7 }
  let s8 ← get
  let v9 := i32 (s8.size + 1)
  modify fun self => { self with size := v9 }
  pure t

/-- BaseKeyHeap.ftl:192, the loop. -/
def filterUp_loop1 {K V : Type} [BEq K] [BEq V] (key : K) :
    Nat → Int → JM (Heap K V) Int
  | 0, _ => JM.throw .diverge
  | n + 1, child => do
    if (decide (child ≠ 0)) = true then do
      let parent := (shr32 (i32 (child - 1)) 1)
      let v1 ← rd Heap.tree parent
      let v2 ← rd Heap.keys v1
      let parentKey := v2
      let s3 ← get
      if (decide ((s3.comp.compare key parentKey) ≥ 0)) = true then do
        pure child
      else do
        let v4 ← rd Heap.tree parent
        wr Heap.tree (fun self a => { self with tree := a }) child v4
        let v5 ← rd Heap.tree child
        wr Heap.inverse (fun self a => { self with inverse := a }) v5 child
        let child := parent
        filterUp_loop1 key n child
    else do
      pure child

/-- BaseKeyHeap.ftl:191-209 `filterUp`. -/
def filterUp {K V : Type} [BEq K] [BEq V] (fuel : Nat) (child : Int) (key : K) (entry : Int) : JM (Heap K V) Int := do
  let child ← filterUp_loop1 key fuel child
  wr Heap.tree (fun self a => { self with tree := a }) child entry
  wr Heap.inverse (fun self a => { self with inverse := a }) entry child
  pure child

/-- BaseKeyHeap.ftl:88-94 `insert`. -/
def insert1 {K V : Type} [BEq K] [BEq V] (fuel : Nat) (key : K) : JM (Heap K V) Int := do
  let s1 ← get
  let child := s1.size
  let v2 ← allocateEntry key
  let entry := v2
  let v3 ← filterUp fuel child key entry
  pure entry

/-- KeyValueHeap.ftl:49-53 `insert`. -/
def insert2 {K V : Type} [BEq K] [BEq V] (fuel : Nat) (key : K) (value : V) : JM (Heap K V) Int := do
  let v1 ← insert1 fuel key
  let entry := v1
  wr Heap.values (fun self a => { self with values := a }) entry value
  pure entry

/-- KeyValueHeap.ftl:60-62 `getValueAt`. -/
def getValueAt {K V : Type} [BEq K] [BEq V] (entry : Int) : JM (Heap K V) V := do
  let v1 ← rd Heap.values entry
  pure v1

/-- KeyValueHeap.ftl:68-73 `getValueAtOrDefault`. -/
def getValueAtOrDefault {K V : Type} [BEq K] [BEq V] (entry : Int) (defaultValue : V) : JM (Heap K V) V := do
  let s1 ← get
  if ((decide (entry < 0)) || (decide (entry ≥ (s1.values.len : Int)))) = true then do
    pure defaultValue
  else do
    let v2 ← rd Heap.values entry
    pure v2

/-- KeyValueHeap.ftl:80-82 `setValueAt`. -/
def setValueAt {K V : Type} [BEq K] [BEq V] (entry : Int) (value : V) : JM (Heap K V) Unit := do
  wr Heap.values (fun self a => { self with values := a }) entry value
  pure ()

/-- KeyValueHeap.ftl:88-90 `clearValueAt`. -/
def clearValueAt {K V : Type} [BEq K] [BEq V] (entry : Int) : JM (Heap K V) Unit := do
  let s1 ← get
  wr Heap.values (fun self a => { self with values := a }) entry s1.defaultValue
  pure ()

/-- KeyValueHeap.ftl:93-95 `clearValues`. -/
def clearValues {K V : Type} [BEq K] [BEq V] : JM (Heap K V) Unit := do
  let s1 ← get
  let v2 ← fill s1.values s1.defaultValue 0 s1.size
  modify fun self => { self with values := v2 }
  pure ()

/-- BaseKeyHeap.ftl:26-28 `getComparator`. -/
def getComparator {K V : Type} [BEq K] [BEq V] : JM (Heap K V) (Option (Comparator K)) := do
  let s1 ← get
  pure (some s1.comp)

/-- BaseKeyHeap.ftl:46, the loop. -/
def setComparator_loop1 {K V : Type} [BEq K] [BEq V] (fuel : Nat) :
    Nat → Int → JM (Heap K V) Unit
  | 0, _ => JM.throw .diverge
  | n + 1, i => do
    let s2 ← get
    if (decide (i < s2.size)) = true then do
      let v3 ← rd Heap.tree i
      let entry := v3
      let v4 ← rd Heap.keys entry
      let v5 ← filterUp fuel i v4 entry
      let v6 := i32 (i + 1)
      let i := v6
      setComparator_loop1 fuel n i
    else do
      pure ()

/-- BaseKeyHeap.ftl:35-51 `setComparator`. -/
def setComparator {K V : Type} [BEq K] [BEq V] (fuel : Nat) (newComparator : (Option (Comparator K))) : JM (Heap K V) Unit := do
  (if (newComparator.isNone) = true then do
      JM.throw .nullPointer
    else pure ())
  let s1 ← get
  if (decide ((some s1.comp).map Comparator.ref = newComparator.map Comparator.ref)) = true then do
    pure ()
  else do
    deref newComparator >>= fun c => modify fun self => { self with comp := c }
    let i := 0
    setComparator_loop1 fuel fuel i
    let s7 ← get
    let v8 := i32 (s7.modCount + 1)
    modify fun self => { self with modCount := v8 }
    pure ()

/-- BaseKeyHeap.ftl:54-56 `getDefaultKey`. -/
def getDefaultKey {K V : Type} [BEq K] [BEq V] : JM (Heap K V) K := do
  let s1 ← get
  pure s1.defaultKey

/-- BaseKeyHeap.ftl:63-71 `setDefaultKey`. -/
def setDefaultKey {K V : Type} [BEq K] [BEq V] (defaultKey : K) : JM (Heap K V) Unit := do
  let s1 ← get
  (if (decide (s1.size > 0)) = true then do
      JM.throw .unsupported
    else pure ())
  let s2 ← get
  (if (!(s2.defaultKey == defaultKey)) = true then do
      modify fun self => { self with defaultKey := defaultKey }
      let s3 ← get
      let v4 ← fill s3.keys defaultKey s3.size (s3.keys.len : Int)
      modify fun self => { self with keys := v4 }
      pure ()
    else pure ())
  pure ()

/-- BaseKeyHeap.ftl:74-82 `clear`. -/
def clear {K V : Type} [BEq K] [BEq V] : JM (Heap K V) Unit := do
  let s1 ← get
  let v2 ← fillAll s1.tree 0
  modify fun self => { self with tree := v2 }
  let s3 ← get
  let v4 ← fillAll s3.inverse 0
  modify fun self => { self with inverse := v4 }
  let s5 ← get
  let v6 ← fill s5.keys s5.defaultKey 0 s5.size
  modify fun self => { self with keys := v6 }
  clearValues
  modify fun self => { self with freeCount := 0 }
  modify fun self => { self with size := 0 }
  let s7 ← get
  let v8 := i32 (s7.modCount + 1)
  modify fun self => { self with modCount := v8 }
  pure ()

/-- BaseKeyHeap.ftl:214, the loop. -/
def filterDown_loop1 {K V : Type} [BEq K] [BEq V] (key : K) :
    Nat → Int → Int → JM (Heap K V) (Int × Int)
  | 0, _, _ => JM.throw .diverge
  | n + 1, parent, child => do
    let child := (i32 ((shl32 parent 1) + 1))
    let s1 ← get
    if (decide (child < s1.size)) = true then do
      let v2 ← rd Heap.tree child
      let v3 ← rd Heap.keys v2
      let childKey := v3
      let (child, childKey) ← (if (decide ((i32 (child + 1)) < s1.size)) = true then do
          let v4 ← rd Heap.tree (i32 (child + 1))
          let v5 ← rd Heap.keys v4
          let rightKey := v5
          let (child, childKey) ← (if (decide ((s1.comp.compare childKey rightKey) > 0)) = true then do
              let v6 := i32 (child + 1)
              let child := v6
              let childKey := rightKey
              pure (child, childKey)
            else pure (child, childKey))
          pure (child, childKey)
        else pure (child, childKey))
      let s7 ← get
      if (decide ((s7.comp.compare key childKey) < 0)) = true then do
        pure (parent, child)
      else do
        let v8 ← rd Heap.tree child
        wr Heap.tree (fun self a => { self with tree := a }) parent v8
        let v9 ← rd Heap.tree parent
        wr Heap.inverse (fun self a => { self with inverse := a }) v9 parent
        let parent := child
        filterDown_loop1 key n parent child
    else do
      pure (parent, child)

/-- BaseKeyHeap.ftl:211-239 `filterDown`. -/
def filterDown {K V : Type} [BEq K] [BEq V] (fuel : Nat) (parent : Int) (key : K) (entry : Int) : JM (Heap K V) Unit := do
  let child := 0
  let (parent, child) ← filterDown_loop1 key fuel parent child
  wr Heap.tree (fun self a => { self with tree := a }) parent entry
  wr Heap.inverse (fun self a => { self with inverse := a }) entry parent
  pure ()

/-- BaseKeyHeap.ftl:102-133 `removeAt`. -/
def removeAt {K V : Type} [BEq K] [BEq V] (fuel : Nat) (entry : Int) : JM (Heap K V) Unit := do
  let s1 ← get
  Gen.RangeCheckException.assertWithinRange 0 (i32 ((s1.inverse.len : Int) - 1)) entry
  let v2 ← rd Heap.inverse entry
  let node := v2
  let s3 ← get
  (if ((decide (node = (-1))) || (decide (node ≥ s3.size))) = true then do
      JM.throw .invalidEntry
    else pure ())
  let s4 ← get
  wr Heap.keys (fun self a => { self with keys := a }) entry s4.defaultKey
  clearValueAt entry
  let s5 ← get
  let v6 := i32 (s5.size - 1)
  modify fun self => { self with size := v6 }
  let s7 ← get
  let v8 ← rd Heap.tree s7.size
  let lastEntry := v8
  let v9 ← rd Heap.keys lastEntry
  let key := v9
  let v10 := i32 (s7.freeCount + 1)
  modify fun self => { self with freeCount := v10 }
  let s11 ← get
  wr Heap.tree (fun self a => { self with tree := a }) s11.size entry
  let s12 ← get
  wr Heap.inverse (fun self a => { self with inverse := a }) entry s12.size
  let s13 ← get
  if (decide (node = s13.size)) = true then do
    pure ()
  else do
    let v14 ← filterUp fuel node key lastEntry
    filterDown fuel v14 key lastEntry
    pure ()

/-- BaseKeyHeap.ftl:139-142 `resetKey`. -/
def resetKey {K V : Type} [BEq K] [BEq V] (fuel : Nat) (entry : Int) (newKey : K) : JM (Heap K V) Unit := do
  wr Heap.keys (fun self a => { self with keys := a }) entry newKey
  let v1 ← rd Heap.inverse entry
  let v2 ← filterUp fuel v1 newKey entry
  filterDown fuel v2 newKey entry
  pure ()

/-- BaseKeyHeap.ftl:149-151 `getKeyAt`. -/
def getKeyAt {K V : Type} [BEq K] [BEq V] (entry : Int) : JM (Heap K V) K := do
  let v1 ← rd Heap.keys entry
  pure v1

/-- BaseKeyHeap.ftl:159, the loop. -/
def getFirstEntry_loop1 {K V : Type} [BEq K] [BEq V] (key : K) :
    Nat → Int → JM (Heap K V) (Flow Int Unit)
  | 0, _ => JM.throw .diverge
  | n + 1, i => do
    let s1 ← get
    if (decide (i < s1.size)) = true then do
      let v2 ← rd Heap.tree i
      let entry := v2
      let v3 ← rd Heap.keys entry
      if (decide ((s1.comp.compare key v3) = 0)) = true then do
        pure (.ret entry)
      else do
        let v4 := i32 (i + 1)
        let i := v4
        getFirstEntry_loop1 key n i
    else do
      pure (.next ())

/-- BaseKeyHeap.ftl:158-166 `getFirstEntry`. -/
def getFirstEntry {K V : Type} [BEq K] [BEq V] (fuel : Nat) (key : K) : JM (Heap K V) Int := do
  let i := 0
  let r5 ← getFirstEntry_loop1 key fuel i
  match r5 with
  | .ret v => pure v
  | .next _ => do
    pure (-1)

/-- BaseKeyHeap.ftl:154-156 `containsKey`. -/
def containsKey {K V : Type} [BEq K] [BEq V] (fuel : Nat) (key : K) : JM (Heap K V) Bool := do
  let v1 ← getFirstEntry fuel key
  pure (decide (v1 ≠ (-1)))

/-- BaseHeap.java:23-28 `peek`. -/
def peek {K V : Type} [BEq K] [BEq V] : JM (Heap K V) Int := do
  let s1 ← get
  (if (decide (s1.size = 0)) = true then do
      JM.throw .runtime
    else pure ())
  let v2 ← rd Heap.tree 0
  pure v2

/-- BaseHeap.java:34-36 `isEmpty`. -/
def isEmpty {K V : Type} [BEq K] [BEq V] : JM (Heap K V) Bool := do
  let s1 ← get
  pure (decide (s1.size = 0))

/-- BaseHeap.java:38-40 `getCapacity`. -/
def getCapacity {K V : Type} [BEq K] [BEq V] : JM (Heap K V) Int := do
  let s1 ← get
  pure (s1.tree.len : Int)

/-- BaseHeap.java:50-52 `isValidEntry`. -/
def isValidEntry {K V : Type} [BEq K] [BEq V] (entry : Int) : JM (Heap K V) Bool := do
  let s1 ← get
  let v3 ← (if (decide (entry < (s1.inverse.len : Int))) = true then do
      let v2 ← rd Heap.inverse entry
      pure (decide (v2 ≥ 0))
    else pure false)
  let v6 ← (if v3 = true then do
      let v4 ← rd Heap.inverse entry
      let s5 ← get
      pure (decide (v4 < s5.size))
    else pure false)
  pure v6

/-- BaseHeap.java:43, the loop. -/
def forEachEntry_loop1 {β : Type} {K V : Type} [BEq K] [BEq V] (consumer : (Int → JM (Heap K V) β)) :
    Nat → (List β) → Int → JM (Heap K V) (List β)
  | 0, _, _ => JM.throw .diverge
  | n + 1, acc, entry => do
    let s1 ← get
    if (decide (entry < s1.size)) = true then do
      let v2 ← isValidEntry entry
      let acc ← (if v2 = true then do
          let v3 ← consumer entry
          let acc := acc ++ [v3]
          pure acc
        else pure acc)
      let v4 := i32 (entry + 1)
      let entry := v4
      forEachEntry_loop1 consumer n acc entry
    else do
      pure acc

/-- BaseHeap.java:42-48 `forEachEntry`. -/
def forEachEntry {β : Type} {K V : Type} [BEq K] [BEq V] (fuel : Nat) (consumer : (Int → JM (Heap K V) β)) : JM (Heap K V) (List β) := do
  let acc : List β := []
  let entry := 0
  let acc ← forEachEntry_loop1 consumer fuel acc entry
  pure acc

/-- BaseHeap.java:77-79 `modCount`. -/
def modCount {K V : Type} [BEq K] [BEq V] : JM (Heap K V) Int := do
  let s1 ← get
  pure s1.modCount

/-- BaseHeap.java:18-21 `init_BaseHeap_1`. -/
def init_BaseHeap_1 {K V : Type} [BEq K] [BEq V] (asc : Comparator K) (dk : K) (dv : V) (initialCapacity : Int) : JM (Heap K V) Unit := do
  modify fun self => { self with modCount := 0 }
  let v1 ← newArr initialCapacity 0
  modify fun self => { self with tree := v1 }
  let v2 ← newArr initialCapacity 0
  modify fun self => { self with inverse := v2 }
  pure ()

/-- BaseKeyHeap.ftl:20-23 `init_BaseKeyHeap_1`. -/
def init_BaseKeyHeap_1 {K V : Type} [BEq K] [BEq V] (asc : Comparator K) (dk : K) (dv : V) (initialCapacity : Int) : JM (Heap K V) Unit := do
  init_BaseHeap_1 asc dk dv initialCapacity
  let v1 := (some asc)
  deref v1 >>= fun c => modify fun self => { self with comp := c }
  modify fun self => { self with defaultKey := dk }
  let s2 ← get
  let v3 ← newArr initialCapacity s2.defaultKey
  modify fun self => { self with keys := v3 }
  pure ()

/-- KeyValueHeap.ftl:23-26 `init_KeyValueHeap_1`. -/
def init1 {K V : Type} [BEq K] [BEq V] (asc : Comparator K) (dk : K) (dv : V) (initialCapacity : Int) : JM (Heap K V) Unit := do
  init_BaseKeyHeap_1 asc dk dv initialCapacity
  modify fun self => { self with defaultValue := dv }
  let s1 ← get
  let v2 ← newArr initialCapacity s1.defaultValue
  modify fun self => { self with values := v2 }
  pure ()
end Verif.Gen.KeyValueHeap

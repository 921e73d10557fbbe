import Verif.Gen.KeyValueHeap
import Verif.Model.HeapEff
/-!
GENERATED by tools/j2l/translate.py from heap/KeyValueHeap.ftl, BaseKeyHeap.ftl, BaseHeap.java (comparators with effects).  Do not edit: the translator is the only
reading of the Java text here.  Lean/Verif/Link proves that these definitions agree with the model.
-/
set_option linter.unusedVariables false
namespace Verif.Gen.KeyValueHeapEff
open Verif Verif.HeapEff

/-- BaseKeyHeap.ftl:192, the loop. -/
def filterUp_loop1 {σ K V : Type} [BEq K] [BEq V] (eff : Effect σ K) (key : K) :
    Nat → Int → JM (Obs σ K V) Int
  | 0, _ => JM.throw .diverge
  | n + 1, child => do
    if (decide (child ≠ 0)) = true then do
      let parent := (shr32 (i32 (child - 1)) 1)
      let v1 ← lift (rd Heap.tree parent)
      let v2 ← lift (rd Heap.keys v1)
      let parentKey := v2
      let v3 ← cmpE eff key parentKey
      if (decide (v3 ≥ 0)) = true then do
        pure child
      else do
        let v4 ← lift (rd Heap.tree parent)
        lift (wr Heap.tree (fun self a => { self with tree := a }) child v4)
        let v5 ← lift (rd Heap.tree child)
        lift (wr Heap.inverse (fun self a => { self with inverse := a }) v5 child)
        let child := parent
        filterUp_loop1 eff key n child
    else do
      pure child

/-- BaseKeyHeap.ftl:191-209 `filterUp`. -/
def filterUp {σ K V : Type} [BEq K] [BEq V] (eff : Effect σ K) (fuel : Nat) (child : Int) (key : K) (entry : Int) : JM (Obs σ K V) Int := do
  let child ← filterUp_loop1 eff key fuel child
  lift (wr Heap.tree (fun self a => { self with tree := a }) child entry)
  lift (wr Heap.inverse (fun self a => { self with inverse := a }) entry child)
  pure child

/-- BaseKeyHeap.ftl:88-94 `insert`. -/
def insert1 {σ K V : Type} [BEq K] [BEq V] (eff : Effect σ K) (fuel : Nat) (key : K) : JM (Obs σ K V) Int := do
  let s1 ← lift get
  let child := s1.size
  let v2 ← lift (KeyValueHeap.allocateEntry key)
  let entry := v2
  let v3 ← filterUp eff fuel child key entry
  pure entry

/-- KeyValueHeap.ftl:49-53 `insert`. -/
def insert2 {σ K V : Type} [BEq K] [BEq V] (eff : Effect σ K) (fuel : Nat) (key : K) (value : V) : JM (Obs σ K V) Int := do
  let v1 ← insert1 eff fuel key
  let entry := v1
  lift (wr Heap.values (fun self a => { self with values := a }) entry value)
  pure entry

/-- BaseKeyHeap.ftl:46, the loop. -/
def setComparator_loop1 {σ K V : Type} [BEq K] [BEq V] (eff : Effect σ K) (fuel : Nat) :
    Nat → Int → JM (Obs σ K V) Unit
  | 0, _ => JM.throw .diverge
  | n + 1, i => do
    let s2 ← lift get
    if (decide (i < s2.size)) = true then do
      let v3 ← lift (rd Heap.tree i)
      let entry := v3
      let v4 ← lift (rd Heap.keys entry)
      let v5 ← filterUp eff fuel i v4 entry
      let v6 := i32 (i + 1)
      let i := v6
      setComparator_loop1 eff fuel n i
    else do
      pure ()

/-- BaseKeyHeap.ftl:35-51 `setComparator`. -/
def setComparator {σ K V : Type} [BEq K] [BEq V] (eff : Effect σ K) (fuel : Nat) (newComparator : (Option (Comparator K))) : JM (Obs σ K V) Unit := do
  (if (newComparator.isNone) = true then do
      JM.throw .nullPointer
    else pure ())
  let s1 ← lift get
  if (decide ((some s1.comp).map Comparator.ref = newComparator.map Comparator.ref)) = true then do
    pure ()
  else do
    lift (deref newComparator >>= fun c => modify fun self => { self with comp := c })
    let i := 0
    setComparator_loop1 eff fuel fuel i
    let s7 ← lift get
    let v8 := i32 (s7.modCount + 1)
    lift (modify fun self => { self with modCount := v8 })
    pure ()

/-- BaseKeyHeap.ftl:214, the loop. -/
def filterDown_loop1 {σ K V : Type} [BEq K] [BEq V] (eff : Effect σ K) (key : K) :
    Nat → Int → Int → JM (Obs σ K V) (Int × Int)
  | 0, _, _ => JM.throw .diverge
  | n + 1, parent, child => do
    let child := (i32 ((shl32 parent 1) + 1))
    let s1 ← lift get
    if (decide (child < s1.size)) = true then do
      let v2 ← lift (rd Heap.tree child)
      let v3 ← lift (rd Heap.keys v2)
      let childKey := v3
      let (child, childKey) ← (if (decide ((i32 (child + 1)) < s1.size)) = true then do
          let v4 ← lift (rd Heap.tree (i32 (child + 1)))
          let v5 ← lift (rd Heap.keys v4)
          let rightKey := v5
          let v6 ← cmpE eff childKey rightKey
          let (child, childKey) ← (if (decide (v6 > 0)) = true then do
              let v7 := i32 (child + 1)
              let child := v7
              let childKey := rightKey
              pure (child, childKey)
            else pure (child, childKey))
          pure (child, childKey)
        else pure (child, childKey))
      let v8 ← cmpE eff key childKey
      if (decide (v8 < 0)) = true then do
        pure (parent, child)
      else do
        let v9 ← lift (rd Heap.tree child)
        lift (wr Heap.tree (fun self a => { self with tree := a }) parent v9)
        let v10 ← lift (rd Heap.tree parent)
        lift (wr Heap.inverse (fun self a => { self with inverse := a }) v10 parent)
        let parent := child
        filterDown_loop1 eff key n parent child
    else do
      pure (parent, child)

/-- BaseKeyHeap.ftl:211-239 `filterDown`. -/
def filterDown {σ K V : Type} [BEq K] [BEq V] (eff : Effect σ K) (fuel : Nat) (parent : Int) (key : K) (entry : Int) : JM (Obs σ K V) Unit := do
  let child := 0
  let (parent, child) ← filterDown_loop1 eff key fuel parent child
  lift (wr Heap.tree (fun self a => { self with tree := a }) parent entry)
  lift (wr Heap.inverse (fun self a => { self with inverse := a }) entry parent)
  pure ()

/-- BaseKeyHeap.ftl:102-133 `removeAt`. -/
def removeAt {σ K V : Type} [BEq K] [BEq V] (eff : Effect σ K) (fuel : Nat) (entry : Int) : JM (Obs σ K V) Unit := do
  let s1 ← lift get
  lift (Gen.RangeCheckException.assertWithinRange 0 (i32 ((s1.inverse.len : Int) - 1)) entry)
  let v2 ← lift (rd Heap.inverse entry)
  let node := v2
  let s3 ← lift get
  (if ((decide (node = (-1))) || (decide (node ≥ s3.size))) = true then do
      JM.throw .invalidEntry
    else pure ())
  let s4 ← lift get
  lift (wr Heap.keys (fun self a => { self with keys := a }) entry s4.defaultKey)
  lift (KeyValueHeap.clearValueAt entry)
  let s5 ← lift get
  let v6 := i32 (s5.size - 1)
  lift (modify fun self => { self with size := v6 })
  let s7 ← lift get
  let v8 ← lift (rd Heap.tree s7.size)
  let lastEntry := v8
  let v9 ← lift (rd Heap.keys lastEntry)
  let key := v9
  let v10 := i32 (s7.freeCount + 1)
  lift (modify fun self => { self with freeCount := v10 })
  let s11 ← lift get
  lift (wr Heap.tree (fun self a => { self with tree := a }) s11.size entry)
  let s12 ← lift get
  lift (wr Heap.inverse (fun self a => { self with inverse := a }) entry s12.size)
  let s13 ← lift get
  if (decide (node = s13.size)) = true then do
    pure ()
  else do
    let v14 ← filterUp eff fuel node key lastEntry
    filterDown eff fuel v14 key lastEntry
    pure ()

/-- BaseKeyHeap.ftl:139-142 `resetKey`. -/
def resetKey {σ K V : Type} [BEq K] [BEq V] (eff : Effect σ K) (fuel : Nat) (entry : Int) (newKey : K) : JM (Obs σ K V) Unit := do
  lift (wr Heap.keys (fun self a => { self with keys := a }) entry newKey)
  let v1 ← lift (rd Heap.inverse entry)
  let v2 ← filterUp eff fuel v1 newKey entry
  filterDown eff fuel v2 newKey entry
  pure ()

/-- BaseKeyHeap.ftl:159, the loop. -/
def getFirstEntry_loop1 {σ K V : Type} [BEq K] [BEq V] (eff : Effect σ K) (key : K) :
    Nat → Int → JM (Obs σ K V) (Flow Int Unit)
  | 0, _ => JM.throw .diverge
  | n + 1, i => do
    let s1 ← lift get
    if (decide (i < s1.size)) = true then do
      let v2 ← lift (rd Heap.tree i)
      let entry := v2
      let v3 ← lift (rd Heap.keys entry)
      let v4 ← cmpE eff key v3
      if (decide (v4 = 0)) = true then do
        pure (.ret entry)
      else do
        let v5 := i32 (i + 1)
        let i := v5
        getFirstEntry_loop1 eff key n i
    else do
      pure (.next ())

/-- BaseKeyHeap.ftl:158-166 `getFirstEntry`. -/
def getFirstEntry {σ K V : Type} [BEq K] [BEq V] (eff : Effect σ K) (fuel : Nat) (key : K) : JM (Obs σ K V) Int := do
  let i := 0
  let r6 ← getFirstEntry_loop1 eff key fuel i
  match r6 with
  | .ret v => pure v
  | .next _ => do
    pure (-1)

/-- BaseKeyHeap.ftl:154-156 `containsKey`. -/
def containsKey {σ K V : Type} [BEq K] [BEq V] (eff : Effect σ K) (fuel : Nat) (key : K) : JM (Obs σ K V) Bool := do
  let v1 ← getFirstEntry eff fuel key
  pure (decide (v1 ≠ (-1)))
end Verif.Gen.KeyValueHeapEff

import Verif.Model.Heap
/-!
Models the methods of `heap/BaseKeyHeap.ftl` and `heap/KeyValueHeap.ftl` once more, for comparators that have an
effect of their own: `eff c x y` is the call `c.compare(x, y)`, which may change a state `σ` outside the heap (a
call counter, say) or throw.  Methods that never call the comparator are those of Model/Heap.lean.
`Base:` is BaseKeyHeap.ftl, `KV:` is KeyValueHeap.ftl.
-/
namespace Verif

/-- A heap, and the state the comparator acts on. -/
structure Obs (σ K V : Type) where
  heap : Heap K V
  ext : σ

namespace HeapEff
open Verif.Heap
variable {σ K V : Type}

/-- A method of the heap that does not call the comparator. -/
def lift {α : Type} (m : JM (Heap K V) α) : JM (Obs σ K V) α := ⟨fun t =>
  match m t.heap with
  | .ok a h => .ok a { t with heap := h }
  | .err e h => .err e { t with heap := h }⟩

/-- What a call `c.compare(x, y)` does. -/
abbrev Effect (σ K : Type) := Comparator K → K → K → JM σ Int

/-- The call `comp.compare(x, y)` (Base:161, 196, 220, 228). -/
def cmpE (eff : Effect σ K) (x y : K) : JM (Obs σ K V) Int := ⟨fun t =>
  match eff t.heap.comp x y t.ext with
  | .ok a e => .ok a { t with ext := e }
  | .err x e => .err x { t with ext := e }⟩

/-- Base:192-203, the loop of `filterUp`. -/
def filterUpLoop (eff : Effect σ K) (key : K) : Nat → Int → JM (Obs σ K V) Int
  | 0, child => if child = 0 then pure child else JM.throw .diverge
  | fuel + 1, child => do
    if child = 0 then pure child
    else do
      let parent := (child - 1) / 2
      let pe ← lift (rd Heap.tree parent)
      let parentKey ← lift (rd Heap.keys pe)
      let r ← cmpE eff key parentKey
      if r ≥ 0 then pure child
      else do
        let pe' ← lift (rd Heap.tree parent)
        lift (wrTree child pe')
        let ce ← lift (rd Heap.tree child)
        lift (wrInverse ce child)
        filterUpLoop eff key fuel parent

/-- Base:191-209 `filterUp`. -/
def filterUp (eff : Effect σ K) (child : Int) (key : K) (entry : Int) : JM (Obs σ K V) Int := do
  let child ← filterUpLoop eff key child.toNat child
  lift (wrTree child entry)
  lift (wrInverse entry child)
  pure child

/-- Base:214-235, the loop of `filterDown`. -/
def filterDownLoop (eff : Effect σ K) (key : K) : Nat → Int → JM (Obs σ K V) Int
  | 0, _ => JM.throw .diverge
  | fuel + 1, parent => do
    let s ← lift get
    let child := i32 (shl32 parent 1 + 1)
    if child < s.size then do
      let le ← lift (rd Heap.tree child)
      let leftKey ← lift (rd Heap.keys le)
      let (child, childKey) ← (if child + 1 < s.size then do
          let re ← lift (rd Heap.tree (child + 1))
          let rightKey ← lift (rd Heap.keys re)
          let r ← cmpE eff leftKey rightKey
          if r > 0 then pure (child + 1, rightKey)
          else pure (child, leftKey)
        else pure (child, leftKey))
      let r ← cmpE eff key childKey
      if r < 0 then pure parent
      else do
        let ce ← lift (rd Heap.tree child)
        lift (wrTree parent ce)
        let pe ← lift (rd Heap.tree parent)
        lift (wrInverse pe parent)
        filterDownLoop eff key fuel child
    else pure parent

/-- Base:211-239 `filterDown`. -/
def filterDown (eff : Effect σ K) (parent : Int) (key : K) (entry : Int) : JM (Obs σ K V) Unit := do
  let s ← lift get
  let parent ← filterDownLoop eff key (s.size.toNat + 1) parent
  lift (wrTree parent entry)
  lift (wrInverse entry parent)

/-- Base:88-94 `insert(key)`. -/
def insert (eff : Effect σ K) (key : K) : JM (Obs σ K V) Int := do
  let s ← lift get
  let child := s.size
  let entry ← lift (allocateEntry key)
  let _ ← filterUp eff child key entry
  pure entry

/-- KV:49-53 `insert(key, value)`. -/
def insertKV (eff : Effect σ K) (key : K) (value : V) : JM (Obs σ K V) Int := do
  let entry ← insert eff key
  lift (wrValues entry value)
  pure entry

/-- Base:102-133 `removeAt`. -/
def removeAt (eff : Effect σ K) (entry : Int) : JM (Obs σ K V) Unit := do
  let s ← lift get
  if entry < 0 ∨ entry > s.inverse.len - 1 then JM.throw .rangeCheck
  else do
    let node ← lift (rd Heap.inverse entry)
    if node = -1 ∨ node ≥ s.size then JM.throw .invalidEntry
    else do
      lift (wrKeys entry s.defaultKey)
      lift (clearValueAt entry)
      lift (modify fun h => { h with size := h.size - 1 })
      let size := s.size - 1
      let lastEntry ← lift (rd Heap.tree size)
      let key ← lift (rd Heap.keys lastEntry)
      lift (modify fun h => { h with freeCount := h.freeCount + 1 })
      lift (wrTree size entry)
      lift (wrInverse entry size)
      if node = size then pure ()
      else do
        let at' ← filterUp eff node key lastEntry
        filterDown eff at' key lastEntry

/-- Base:139-142 `resetKey`. -/
def resetKey (eff : Effect σ K) (entry : Int) (newKey : K) : JM (Obs σ K V) Unit := do
  lift (wrKeys entry newKey)
  let node ← lift (rd Heap.inverse entry)
  let at' ← filterUp eff node newKey entry
  filterDown eff at' newKey entry

/-- Base:159-164, the loop of `getFirstEntry`. -/
def firstLoop (eff : Effect σ K) (key : K) : Nat → Int → JM (Obs σ K V) Int
  | 0, _ => pure (-1)
  | n + 1, i => do
    let entry ← lift (rd Heap.tree i)
    let k ← lift (rd Heap.keys entry)
    let r ← cmpE eff key k
    if r = 0 then pure entry else firstLoop eff key n (i + 1)

/-- Base:158-166 `getFirstEntry`. -/
def getFirstEntry (eff : Effect σ K) (key : K) : JM (Obs σ K V) Int := do
  let s ← lift get
  firstLoop eff key s.size.toNat 0

/-- Base:154-156 `containsKey`. -/
def containsKey (eff : Effect σ K) (key : K) : JM (Obs σ K V) Bool := do
  let e ← getFirstEntry eff key
  pure (decide (e ≠ -1))

/-- Base:46-49, the loop of `setComparator`. -/
def rebuildLoop (eff : Effect σ K) : Nat → Int → JM (Obs σ K V) Unit
  | 0, _ => pure ()
  | n + 1, i => do
    let entry ← lift (rd Heap.tree i)
    let k ← lift (rd Heap.keys entry)
    let _ ← filterUp eff i k entry
    rebuildLoop eff n (i + 1)

/-- Base:35-51 `setComparator` (`none` is null). -/
def setComparator (eff : Effect σ K) : Option (Comparator K) → JM (Obs σ K V) Unit
  | none => JM.throw .nullPointer
  | some c => do
    let s ← lift get
    if s.comp.ref = c.ref then pure ()
    else do
      lift (modify fun h => { h with comp := c })
      rebuildLoop eff s.size.toNat 0
      lift bumpMod

/-- One public call. -/
def step [BEq K] [BEq V] (eff : Effect σ K) : Op K V → JM (Obs σ K V) (Out K V)
  | .insert k => do return .int (← insert eff k)
  | .insertKV k v => do return .int (← insertKV eff k v)
  | .removeAt e => do removeAt eff e; pure .unit
  | .resetKey e k => do resetKey eff e k; pure .unit
  | .setComparator c => do setComparator eff c; pure .unit
  | .containsKey k => do return .bool (← containsKey eff k)
  | .getFirstEntry k => do return .int (← getFirstEntry eff k)
  | o => lift (Heap.step o)

end HeapEff
end Verif

import Verif.Model.Arrays
/-!
Models `collections/src/main/java/com/bytefacets/collections/heap/BaseHeap.java` and the templates
`heap/BaseKeyHeap.ftl`, `heap/KeyValueHeap.ftl` (the generated `IntIntHeap`, `LongGenericHeap`, ...).
In the template citations, `Base:` is BaseKeyHeap.ftl and `KV:` is KeyValueHeap.ftl.

Simplifications: a comparator is a pure function together with the identity of its object; exception
messages are omitted; `EqImpl` of the key and value types is `==`.
-/
namespace Verif

/-- A `Cmp` object: its identity (what `==` on references compares) and its `compare` method. -/
structure Comparator (K : Type) where
  ref : Nat
  compare : K → K → Int

/-- BaseHeap.java:12-16, Base:16-18, KV:20-21, the fields. -/
structure Heap (K V : Type) where
  tree : Arr Int
  inverse : Arr Int
  freeCount : Int
  size : Int
  modCount : Int
  keys : Arr K
  comp : Comparator K
  defaultKey : K
  values : Arr V
  defaultValue : V

namespace Heap
variable {K V : Type}

/-- BaseHeap.java:18-21, Base:20-23, KV:23-26, the constructor. `asc` is the type's `Asc`
comparator, `dk` and `dv` are the types' `DEFAULT`s. -/
def new (asc : Comparator K) (dk : K) (dv : V) (initialCapacity : Int) : Except Err (Heap K V) :=
  if initialCapacity < 0 then .error .negativeArraySize
  else .ok { tree := Arr.create initialCapacity 0
             inverse := Arr.create initialCapacity 0
             freeCount := 0, size := 0, modCount := 0
             keys := Arr.create initialCapacity dk
             comp := asc, defaultKey := dk
             values := Arr.create initialCapacity dv
             defaultValue := dv }

/-- write to `tree` -/
abbrev wrTree (i v : Int) : JM (Heap K V) Unit := wr Heap.tree (fun t a => { t with tree := a }) i v
/-- write to `inverse` -/
abbrev wrInverse (i v : Int) : JM (Heap K V) Unit :=
  wr Heap.inverse (fun t a => { t with inverse := a }) i v
/-- write to `keys` -/
abbrev wrKeys (i : Int) (v : K) : JM (Heap K V) Unit :=
  wr Heap.keys (fun t a => { t with keys := a }) i v
/-- write to `values` -/
abbrev wrValues (i : Int) (v : V) : JM (Heap K V) Unit :=
  wr Heap.values (fun t a => { t with values := a }) i v

/-- `modCount++` -/
def bumpMod : JM (Heap K V) Unit := modify fun t => { t with modCount := i32 (t.modCount + 1) }

/-- BaseHeap.java:23-28 `peek`. -/
def peek : JM (Heap K V) Int := do
  let s ← get
  if s.size = 0 then JM.throw .runtime else rd Heap.tree 0

/-- BaseHeap.java:30-32 `getSize`. -/
def getSize : JM (Heap K V) Int := do return (← get).size

/-- BaseHeap.java:34-36 `isEmpty`. -/
def isEmpty : JM (Heap K V) Bool := do return decide ((← get).size = 0)

/-- BaseHeap.java:38-40 `getCapacity`. -/
def getCapacity : JM (Heap K V) Int := do return (← get).tree.len

/-- BaseHeap.java:50-52 `isValidEntry`. -/
def isValidEntry (entry : Int) : JM (Heap K V) Bool := do
  let s ← get
  if entry < s.inverse.len then do
    let i ← rd Heap.inverse entry
    if i ≥ 0 then do
      let j ← rd Heap.inverse entry
      pure (decide (j < s.size))
    else pure false
  else pure false

/-- BaseHeap.java:43-47, the loop of `forEachEntry` from `entry` on, `n` more iterations; the entries
the consumer is given. -/
def forEachLoop : Nat → Int → JM (Heap K V) (List Int)
  | 0, _ => pure []
  | n + 1, entry => do
    let v ← isValidEntry entry
    let rest ← forEachLoop n (entry + 1)
    pure (if v then entry :: rest else rest)

/-- BaseHeap.java:42-48 `forEachEntry` with a consumer that does not modify the heap. -/
def forEachEntry : JM (Heap K V) (List Int) := do
  let s ← get
  forEachLoop s.size.toNat 0

/-- BaseHeap.java:54-57 `growHeap`. -/
def growHeap (capacity : Int) : JM (Heap K V) Unit := do
  let s ← get
  let t ← copyOf s.tree capacity 0
  modify fun h => { h with tree := t }
  let i ← copyOf s.inverse capacity 0
  modify fun h => { h with inverse := i }

/-- BaseHeap.java:59-74 `calculateNewCapacity`. -/
def calculateNewCapacity : JM (Heap K V) Int := do
  let s ← get
  let capacity : Int := s.tree.len
  if capacity = MAX_CAPACITY then JM.throw .resize
  else
    let newCapacity := shl32 capacity 1
    if newCapacity ≤ capacity then JM.throw .resize
    else pure (min newCapacity MAX_CAPACITY)

/-- Base:241-243 `growKeys`. -/
def growKeys (capacity : Int) : JM (Heap K V) Unit := do
  let s ← get
  let k ← copyOf s.keys capacity s.defaultKey
  modify fun h => { h with keys := k }

/-- KV:84-86 `growValues`. -/
def growValues (capacity : Int) : JM (Heap K V) Unit := do
  let s ← get
  let v ← copyOf s.values capacity s.defaultValue
  modify fun h => { h with values := v }

/-- Base:168-189 `allocateEntry`. -/
def allocateEntry (key : K) : JM (Heap K V) Int := do
  let s ← get
  let t ← if s.freeCount > 0 then do
      let t ← rd Heap.tree s.size
      modify fun h => { h with freeCount := h.freeCount - 1 }
      pure t
    else do
      JM.when (s.size ≥ s.keys.len) do
        let newCapacity ← calculateNewCapacity
        growHeap newCapacity
        growKeys newCapacity
        growValues newCapacity
      pure s.size
  wrKeys t key
  bumpMod
  modify fun h => { h with size := h.size + 1 }
  pure t

/-- Base:192-203, the loop of `filterUp` (`child` decreases, so `fuel = child` iterations suffice; for
less fuel the model reports `diverge`). -/
def filterUpLoop (key : K) : Nat → Int → JM (Heap K V) Int
  | 0, child => if child = 0 then pure child else JM.throw .diverge
  | fuel + 1, child => do
    if child = 0 then pure child
    else do
      let parent := (child - 1) / 2
      let pe ← rd Heap.tree parent
      let parentKey ← rd Heap.keys pe
      let s ← get
      if s.comp.compare key parentKey ≥ 0 then pure child
      else do
        let pe' ← rd Heap.tree parent
        wrTree child pe'
        let ce ← rd Heap.tree child
        wrInverse ce child
        filterUpLoop key fuel parent

/-- Base:191-209 `filterUp`. -/
def filterUp (child : Int) (key : K) (entry : Int) : JM (Heap K V) Int := do
  let child ← filterUpLoop key child.toNat child
  wrTree child entry
  wrInverse entry child
  pure child

/-- Base:214-235, the loop of `filterDown` (`parent` grows below `size`, so `size` iterations suffice). -/
def filterDownLoop (key : K) : Nat → Int → JM (Heap K V) Int
  | 0, _ => JM.throw .diverge
  | fuel + 1, parent => do
    let s ← get
    let child := i32 (shl32 parent 1 + 1)
    if child < s.size then do
      let le ← rd Heap.tree child
      let leftKey ← rd Heap.keys le
      let (child, childKey) ← (if child + 1 < s.size then do
          let re ← rd Heap.tree (child + 1)
          let rightKey ← rd Heap.keys re
          if s.comp.compare leftKey rightKey > 0 then pure (child + 1, rightKey)
          else pure (child, leftKey)
        else pure (child, leftKey))
      if s.comp.compare key childKey < 0 then pure parent
      else do
        let ce ← rd Heap.tree child
        wrTree parent ce
        let pe ← rd Heap.tree parent
        wrInverse pe parent
        filterDownLoop key fuel child
    else pure parent

/-- Base:211-239 `filterDown`. -/
def filterDown (parent : Int) (key : K) (entry : Int) : JM (Heap K V) Unit := do
  let s ← get
  let parent ← filterDownLoop key (s.size.toNat + 1) parent
  wrTree parent entry
  wrInverse entry parent

/-- Base:88-94 `insert(key)`. -/
def insert (key : K) : JM (Heap K V) Int := do
  let s ← get
  let child := s.size
  let entry ← allocateEntry key
  let _ ← filterUp child key entry
  pure entry

/-- KV:49-53 `insert(key, value)`. -/
def insertKV (key : K) (value : V) : JM (Heap K V) Int := do
  let entry ← insert key
  wrValues entry value
  pure entry

/-- KV:88-90 `clearValueAt`. -/
def clearValueAt (entry : Int) : JM (Heap K V) Unit := do
  let s ← get
  wrValues entry s.defaultValue

/-- Base:102-133 `removeAt`; RangeCheckException.java `assertWithinRange`. -/
def removeAt (entry : Int) : JM (Heap K V) Unit := do
  let s ← get
  if entry < 0 ∨ entry > s.inverse.len - 1 then JM.throw .rangeCheck
  else do
    let node ← rd Heap.inverse entry
    if node = -1 ∨ node ≥ s.size then JM.throw .invalidEntry
    else do
      wrKeys entry s.defaultKey
      clearValueAt entry
      modify fun h => { h with size := h.size - 1 }
      let size := s.size - 1
      let lastEntry ← rd Heap.tree size
      let key ← rd Heap.keys lastEntry
      modify fun h => { h with freeCount := h.freeCount + 1 }
      wrTree size entry
      wrInverse entry size
      if node = size then pure ()
      else do
        let at' ← filterUp node key lastEntry
        filterDown at' key lastEntry

/-- Base:139-142 `resetKey`. -/
def resetKey (entry : Int) (newKey : K) : JM (Heap K V) Unit := do
  wrKeys entry newKey
  let node ← rd Heap.inverse entry
  let at' ← filterUp node newKey entry
  filterDown at' newKey entry

/-- Base:149-151 `getKeyAt`. -/
def getKeyAt (entry : Int) : JM (Heap K V) K := rd Heap.keys entry

/-- Base:159-164, the loop of `getFirstEntry` from position `i` on, `n` more iterations. -/
def firstLoop (key : K) : Nat → Int → JM (Heap K V) Int
  | 0, _ => pure (-1)
  | n + 1, i => do
    let entry ← rd Heap.tree i
    let k ← rd Heap.keys entry
    let s ← get
    if s.comp.compare key k = 0 then pure entry else firstLoop key n (i + 1)

/-- Base:158-166 `getFirstEntry`. -/
def getFirstEntry (key : K) : JM (Heap K V) Int := do
  let s ← get
  firstLoop key s.size.toNat 0

/-- Base:154-156 `containsKey`. -/
def containsKey (key : K) : JM (Heap K V) Bool := do
  let e ← getFirstEntry key
  pure (decide (e ≠ -1))

/-- Base:46-49, the loop of `setComparator` from position `i` on, `n` more iterations. -/
def rebuildLoop : Nat → Int → JM (Heap K V) Unit
  | 0, _ => pure ()
  | n + 1, i => do
    let entry ← rd Heap.tree i
    let k ← rd Heap.keys entry
    let _ ← filterUp i k entry
    rebuildLoop n (i + 1)

/-- Base:35-51 `setComparator` (`none` is null). -/
def setComparator : Option (Comparator K) → JM (Heap K V) Unit
  | none => JM.throw .nullPointer
  | some c => do
    let s ← get
    if s.comp.ref = c.ref then pure ()
    else do
      modify fun h => { h with comp := c }
      rebuildLoop s.size.toNat 0
      bumpMod

/-- Base:63-71 `setDefaultKey`. -/
def setDefaultKey [BEq K] (defaultKey : K) : JM (Heap K V) Unit := do
  let s ← get
  if s.size > 0 then JM.throw .unsupported
  else if s.defaultKey == defaultKey then pure ()
  else do
    modify fun h => { h with defaultKey := defaultKey }
    let k ← fill s.keys defaultKey s.size s.keys.len
    modify fun h => { h with keys := k }

/-- KV:38-46 `setDefaultValue`. -/
def setDefaultValue [BEq V] (defaultValue : V) : JM (Heap K V) Unit := do
  let s ← get
  if s.size > 0 then JM.throw .runtime
  else if s.defaultValue == defaultValue then pure ()
  else do
    modify fun h => { h with defaultValue := defaultValue }
    let v ← fill s.values defaultValue s.size s.values.len
    modify fun h => { h with values := v }

/-- Base:74-82 `clear`, KV:92-95 `clearValues`. -/
def clear : JM (Heap K V) Unit := do
  let s ← get
  let t ← fillAll s.tree 0
  modify fun h => { h with tree := t }
  let i ← fillAll s.inverse 0
  modify fun h => { h with inverse := i }
  let k ← fill s.keys s.defaultKey 0 s.size
  modify fun h => { h with keys := k }
  let v ← fill s.values s.defaultValue 0 s.size
  modify fun h => { h with values := v }
  modify fun h => { h with freeCount := 0, size := 0 }
  bumpMod

/-- KV:60-62 `getValueAt`. -/
def getValueAt (entry : Int) : JM (Heap K V) V := rd Heap.values entry

/-- KV:68-73 `getValueAtOrDefault`. -/
def getValueAtOrDefault (entry : Int) (dflt : V) : JM (Heap K V) V := do
  let s ← get
  if entry < 0 ∨ entry ≥ s.values.len then pure dflt else rd Heap.values entry

/-- KV:80-82 `setValueAt`. -/
def setValueAt (entry : Int) (value : V) : JM (Heap K V) Unit := wrValues entry value

/-- The public operations. -/
inductive Op (K V : Type)
  | insert (k : K) | insertKV (k : K) (v : V) | removeAt (e : Int) | resetKey (e : Int) (k : K)
  | setComparator (c : Option (Comparator K)) | clear
  | setDefaultKey (k : K) | setDefaultValue (v : V) | setValueAt (e : Int) (v : V)
  | peek | getSize | isEmpty | getCapacity | forEachEntry | isValidEntry (e : Int)
  | getKeyAt (e : Int) | containsKey (k : K) | getFirstEntry (k : K)
  | getValueAt (e : Int) | getValueAtOrDefault (e : Int) (d : V)
  | getDefaultKey | getDefaultValue

/-- What a call can return. -/
inductive Out (K V : Type)
  | unit | int (n : Int) | bool (b : Bool) | key (k : K) | val (v : V) | ints (l : List Int)
  deriving DecidableEq

/-- Dispatch of one public call to its model; the getters of the defaults are Base:54-56, KV:29-31. -/
def step [BEq K] [BEq V] : Op K V → JM (Heap K V) (Out K V)
  | .insert k => do return .int (← insert k)
  | .insertKV k v => do return .int (← insertKV k v)
  | .removeAt e => do removeAt e; pure .unit
  | .resetKey e k => do resetKey e k; pure .unit
  | .setComparator c => do setComparator c; pure .unit
  | .clear => do clear; pure .unit
  | .setDefaultKey k => do setDefaultKey k; pure .unit
  | .setDefaultValue v => do setDefaultValue v; pure .unit
  | .setValueAt e v => do setValueAt e v; pure .unit
  | .peek => do return .int (← peek)
  | .getSize => do return .int (← getSize)
  | .isEmpty => do return .bool (← isEmpty)
  | .getCapacity => do return .int (← getCapacity)
  | .forEachEntry => do return .ints (← forEachEntry)
  | .isValidEntry e => do return .bool (← isValidEntry e)
  | .getKeyAt e => do return .key (← getKeyAt e)
  | .containsKey k => do return .bool (← containsKey k)
  | .getFirstEntry k => do return .int (← getFirstEntry k)
  | .getValueAt e => do return .val (← getValueAt e)
  | .getValueAtOrDefault e d => do return .val (← getValueAtOrDefault e d)
  | .getDefaultKey => do return .key (← get).defaultKey
  | .getDefaultValue => do return .val (← get).defaultValue

/-- The client loop `while (!h.isEmpty()) { e = h.peek(); out.add(h.getKeyAt(e)); h.removeAt(e); }`
for at most `fuel` rounds. -/
def drain : Nat → JM (Heap K V) (List K)
  | 0 => pure []
  | fuel + 1 => do
    let b ← isEmpty
    if b then pure []
    else do
      let e ← peek
      let k ← getKeyAt e
      removeAt e
      let rest ← drain fuel
      pure (k :: rest)

end Heap
end Verif

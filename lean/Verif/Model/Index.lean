import Verif.Model.Arrays
/-!
Models `collections/src/main/java/com/bytefacets/collections/hash/BaseHash.java` and the templates
`collections/src/main/templates/com/bytefacets/collections/hash/BaseKeyIndex.ftl`,
`KeyIndexedSet.ftl` and `KeyValueIndexedMap.ftl` (the generated `IntIndexedSet`,
`IntLongIndexedMap`, ... classes).

* `K`/`V` are the key and value types; `default` is the type's `DEFAULT` constant.
* An `IndexedSet` is the map at `V := Unit`: its `removeValue/growValues/clearValues` do nothing.
* The load factor is the rational `lfNum/lfDen`; capacities are powers of two, so the Java product
  `capacity * loadFactor` is exact in `double`.  The constructor's rejection of load factors
  outside (0, 1] is part of `new`; a NaN load factor (accepted by the Java check) is not modelled.
* Walks along `nexts` carry a fuel of `nexts.length + 1`: a longer walk repeats an entry, i.e. it
  never ends, which is the outcome `diverge`.
-/
namespace Verif

/-- BaseHash.java:18-27, BaseKeyIndex.ftl:18-20, KeyValueIndexedMap.ftl:16, the fields. -/
structure Index (K V : Type) where
  capacity : Int
  capThreshold : Int
  lfNum : Nat
  lfDen : Nat
  heads : Arr Int
  nexts : Arr Int
  size : Int
  freeList : Int
  nextUnusedEntry : Int
  modificationCount : Int
  maxHead : Int
  keys : Arr K
  values : Arr V
  hashFunc : K → BitVec 32
  equalFunc : K → K → Bool

namespace Index
variable {K V : Type} [Inhabited K] [Inhabited V]

/-- `(int) (capacity * loadFactor)` (BaseHash.java:40, 68; BaseKeyIndex.ftl:40). -/
def threshold (capacity : Int) (num den : Nat) : Int := capacity * num / den

/-- BaseHash.java:30-46, BaseKeyIndex.ftl:22-25, KeyValueIndexedMap.ftl:22-25, the constructor,
with the hash and equality functions of the key type (BaseKeyIndex.ftl:18-19). -/
def new (hash : K → BitVec 32) (eq : K → K → Bool) (initialCapacity : Int) (num den : Nat) :
    Except Err (Index K V) :=
  if initialCapacity ≤ 0 ∨ initialCapacity > MAX_CAPACITY then .error .illegalArgument
  else if num = 0 ∨ num > den then .error .illegalArgument
  else
    let capacity := nextPowerOf2 initialCapacity
    .ok { capacity := capacity, capThreshold := threshold capacity num den,
          lfNum := num, lfDen := den,
          heads := Arr.create capacity (-1), nexts := Arr.create capacity (-1),
          size := 0, freeList := -1, nextUnusedEntry := 0, modificationCount := 0, maxHead := 0,
          keys := Arr.create capacity default, values := Arr.create capacity default,
          hashFunc := hash, equalFunc := eq }

/-- write to `heads` -/
abbrev wrHeads (i v : Int) : JM (Index K V) Unit :=
  wr Index.heads (fun t a => { t with heads := a }) i v
/-- write to `nexts` -/
abbrev wrNexts (i v : Int) : JM (Index K V) Unit :=
  wr Index.nexts (fun t a => { t with nexts := a }) i v
/-- write to `keys` -/
abbrev wrKeys (i : Int) (v : K) : JM (Index K V) Unit :=
  wr Index.keys (fun t a => { t with keys := a }) i v
/-- write to `values` -/
abbrev wrValues (i : Int) (v : V) : JM (Index K V) Unit :=
  wr Index.values (fun t a => { t with values := a }) i v

/-- The head a key belongs to in a table of `n` heads: BaseKeyIndex.ftl:246-249. -/
def headOf (hash : K → BitVec 32) (n : Nat) (key : K) : Int :=
  ((hash key &&& 0x7fffffff#32) &&& BitVec.ofInt 32 ((n : Int) - 1)).toInt

/-- BaseKeyIndex.ftl:246-249 `computeHead`. -/
def computeHead (key : K) : JM (Index K V) Int := do
  let s ← get
  pure (headOf s.hashFunc s.heads.len key)

/-- BaseHash.java:60-72 `calculateNewCapacity`. -/
def calcNewCapacity : JM (Index K V) Unit := do
  let s ← get
  let newCapacity ← calculateNewCapacity s.capacity s.capThreshold
  if s.capacity = newCapacity then
    modify fun t => { t with capThreshold := MAX_CAPACITY }
  else
    modify fun t => { t with
      capacity := newCapacity
      capThreshold := min (threshold newCapacity t.lfNum t.lfDen) MAX_CAPACITY }

/-- BaseHash.java:111-115 `updateMaxHead`. -/
def updateMaxHead (head : Int) : JM (Index K V) Unit :=
  modify fun t => { t with maxHead := if head > t.maxHead then head else t.maxHead }

/-- KeyValueIndexedMap.ftl:138-140 `removeValue`. -/
def removeValue (entry : Int) : JM (Index K V) Unit := wrValues entry default

/-- `modificationCount++` on a Java `int`. -/
def bumpMod : JM (Index K V) Unit :=
  modify fun t => { t with modificationCount := i32 (t.modificationCount + 1) }

/-- BaseHash.java:74-92 `clear` (with BaseKeyIndex.ftl:287-289 `clearKeys` and
KeyValueIndexedMap.ftl:148-150 `clearValues`). -/
def clear : JM (Index K V) Unit := do
  let s ← get
  JM.when (s.size > 0) do
    let h ← fill s.heads (-1) 0 (min s.heads.len (s.maxHead + 1))
    modify fun t => { t with heads := h }
    let n ← fill s.nexts (-1) 0 (min s.nexts.len s.nextUnusedEntry)
    modify fun t => { t with nexts := n }
    let k ← fill s.keys default 0 (min s.nextUnusedEntry s.keys.len)
    modify fun t => { t with keys := k }
    let v ← fill s.values default 0 (min s.nextUnusedEntry s.values.len)
    modify fun t => { t with values := v }
    modify fun t => { t with size := 0 }
  modify fun t => { t with modificationCount := 0, nextUnusedEntry := 0, freeList := -1, maxHead := 0 }

/-- The inner loop of BaseHash.java:102-107 (and BaseKeyIndex.ftl:51-56,
KeyValueIndexedMap.ftl:116-121): the results of the calls of `f`, in order. -/
def walk {β : Type} (f : Int → JM (Index K V) β) : Nat → Int → JM (Index K V) (List β)
  | 0, _ => JM.throw .diverge
  | fuel + 1, e =>
    if e ≥ 0 then do
      let next ← rd Index.nexts e
      let b ← f e
      let bs ← walk f fuel next
      pure (b :: bs)
    else pure []

/-- The outer loop of BaseHash.java:101-108. -/
def scan {β : Type} (f : Int → JM (Index K V) β) (expectedHits : Int) :
    Nat → Int → Int → JM (Index K V) (List β)
  | 0, _, _ => JM.throw .diverge
  | fuel + 1, head, hits => do
    let s ← get
    if head < s.heads.len ∧ hits < expectedHits then do
      let e ← rd Index.heads head
      let bs ← walk f (s.nexts.len + 1) e
      let rest ← scan f expectedHits fuel (head + 1) (hits + bs.length)
      pure (bs ++ rest)
    else pure []

/-- BaseHash.java:95-109, the iteration with a callback `f`.  Simplification: the outer loop is cut
off after as many heads as there were at the start, so callbacks that make the table grow are not
covered (callbacks that only read or remove are). -/
def forEachWith {β : Type} (f : Int → JM (Index K V) β) : JM (Index K V) (List β) := do
  let s ← get
  if s.size = 0 then pure []
  else scan f s.size (s.heads.len + 1) 0 0

/-- BaseHash.java:95-109 `forEachEntry`: the entries handed to the consumer, in order. -/
def forEachEntry : JM (Index K V) (List Int) := forEachWith pure
/-- BaseKeyIndex.ftl:44-58 `forEach`: the keys handed to the consumer, in order. -/
def forEach : JM (Index K V) (List K) := forEachWith (rd Index.keys)
/-- KeyValueIndexedMap.ftl:109-123 `forEachValue`: the values handed to the consumer, in order. -/
def forEachValue : JM (Index K V) (List V) := forEachWith (rd Index.values)

/-- The loop of BaseKeyIndex.ftl:63-67 (and 190-194). -/
def lookupLoop (key : K) : Nat → Int → JM (Index K V) Int
  | 0, _ => JM.throw .diverge
  | fuel + 1, e =>
    if e ≥ 0 then do
      let k ← rd Index.keys e
      let s ← get
      if s.equalFunc key k then pure e
      else do
        let next ← rd Index.nexts e
        lookupLoop key fuel next
    else pure (-1)

/-- BaseKeyIndex.ftl:61-69 `lookupEntry`. -/
def lookupEntry (key : K) : JM (Index K V) Int := do
  let head ← computeHead key
  let e ← rd Index.heads head
  let s ← get
  lookupLoop key (s.nexts.len + 1) e

/-- BaseKeyIndex.ftl:77-79 `getKeyAt`. -/
def getKeyAt (entry : Int) : JM (Index K V) K := rd Index.keys entry

/-- BaseKeyIndex.ftl:83-85 `containsKey`. -/
def containsKey (key : K) : JM (Index K V) Bool := do
  let e ← lookupEntry key
  pure (decide (e ≠ -1))

/-- BaseKeyIndex.ftl:142-149 `freeReservedEntry`. -/
def freeReservedEntry (entry : Int) : JM (Index K V) Unit := do
  let s ← get
  wrNexts entry s.freeList
  modify fun t => { t with freeList := entry }
  wrKeys entry default
  removeValue entry

/-- BaseKeyIndex.ftl:240-244 `getHead`, the loop. -/
def getHeadLoop : Nat → Int → JM (Index K V) Int
  | 0, _ => JM.throw .diverge
  | fuel + 1, e =>
    if e ≥ 0 then do
      let next ← rd Index.nexts e
      getHeadLoop fuel next
    else pure (-e - 1)

/-- The walk of BaseKeyIndex.ftl:105-108: the predecessor of `entry` in its chain, or `none` if the
chain does not contain it. -/
def findEntryLoop (entry : Int) : Nat → Int → Int → JM (Index K V) (Option Int)
  | 0, _, _ => JM.throw .diverge
  | fuel + 1, prev, e =>
    if e ≥ 0 then
      if e = entry then pure (some prev)
      else do
        let next ← rd Index.nexts e
        findEntryLoop entry fuel e next
    else pure none

/-- The unlinking at BaseKeyIndex.ftl:110-115, 163-168 (and BaseHash.java:249-254). -/
def unlink (head prev next : Int) : JM (Index K V) Unit :=
  if prev < 0 then wrHeads head next else wrNexts prev next

/-- BaseKeyIndex.ftl:102-123 `removeAt`. -/
def removeAt (entry : Int) : JM (Index K V) Unit := do
  let s ← get
  let head ← getHeadLoop (s.nexts.len + 1) entry
  let e ← rd Index.heads head
  let found ← findEntryLoop entry (s.nexts.len + 1) (-1) e
  match found with
  | none => pure ()
  | some prev =>
    let next ← rd Index.nexts entry
    unlink head prev next
    freeReservedEntry entry
    modify fun t => { t with size := t.size - 1 }
    bumpMod

/-- The walk of BaseKeyIndex.ftl:157-161: the matching entry and its predecessor. -/
def findKeyLoop (key : K) : Nat → Int → Int → JM (Index K V) (Option (Int × Int))
  | 0, _, _ => JM.throw .diverge
  | fuel + 1, prev, e =>
    if e ≥ 0 then do
      let k ← rd Index.keys e
      let s ← get
      if s.equalFunc key k then pure (some (prev, e))
      else do
        let next ← rd Index.nexts e
        findKeyLoop key fuel e next
    else pure none

/-- BaseKeyIndex.ftl:151-181 `remove(key, free)`. -/
def removeKey (key : K) (free : Bool) : JM (Index K V) Int := do
  let head ← computeHead key
  let headEntry ← rd Index.heads head
  if headEntry < 0 then pure (-1)
  else do
    let s ← get
    let found ← findKeyLoop key (s.nexts.len + 1) (-1) headEntry
    match found with
    | none => pure (-1)
    | some (prev, e) =>
      let next ← rd Index.nexts e
      unlink head prev next
      if free then freeReservedEntry e else wrNexts e (-1)
      modify fun t => { t with size := t.size - 1 }
      bumpMod
      pure e

/-- BaseKeyIndex.ftl:92-94 `remove`. -/
def remove (key : K) : JM (Index K V) Int := removeKey key true

/-- BaseKeyIndex.ftl:132-134 `removeAtAndReserve`. -/
def removeAtAndReserve (entry : Int) : JM (Index K V) Unit := do
  let k ← rd Index.keys entry
  let _ ← removeKey k false
  pure ()

/-- BaseKeyIndex.ftl:216-226 `allocateNewEntry`. -/
def allocateNewEntry : JM (Index K V) Int := do
  let s ← get
  if s.freeList ≠ -1 then do
    let entry := s.freeList
    let next ← rd Index.nexts entry
    modify fun t => { t with freeList := next }
    pure entry
  else do
    let entry := s.nextUnusedEntry
    modify fun t => { t with nextUnusedEntry := t.nextUnusedEntry + 1 }
    pure entry

/-- BaseKeyIndex.ftl:228-238 `registerNewEntryForHead`. -/
def registerNewEntryForHead (head entry : Int) : JM (Index K V) Unit := do
  let h ← rd Index.heads head
  if h ≥ 0 then wrNexts entry h else wrNexts entry (-head - 1)
  wrHeads head entry

/-- BaseKeyIndex.ftl:269-274, the inner loop of `rehash` over one old chain. -/
def rehashChain (oldNexts : Arr Int) (oldKeys : Arr K) : Nat → Int → JM (Index K V) Unit
  | 0, _ => JM.throw .diverge
  | fuel + 1, entry =>
    if entry ≥ 0 then do
      let k ← rdA oldKeys entry
      let newHead ← computeHead k
      registerNewEntryForHead newHead entry
      updateMaxHead newHead
      let next ← rdA oldNexts entry
      rehashChain oldNexts oldKeys fuel next
    else pure ()

/-- BaseKeyIndex.ftl:267-275, the outer loop of `rehash`, with `n` old heads left from `i`. -/
def rehashHeads (oldHeads oldNexts : Arr Int) (oldKeys : Arr K) : Nat → Int → JM (Index K V) Unit
  | 0, _ => pure ()
  | n + 1, i => do
    let e ← rdA oldHeads i
    rehashChain oldNexts oldKeys (oldNexts.len + 1) e
    rehashHeads oldHeads oldNexts oldKeys n (i + 1)

/-- BaseKeyIndex.ftl:251-277 `rehash` (with 282-284 `growKeys` and KeyValueIndexedMap.ftl:143-145
`growValues`). -/
def rehash : JM (Index K V) Unit := do
  let old ← get
  calcNewCapacity
  let s ← get
  let h ← newArr s.capacity (-1)
  modify fun t => { t with heads := h }
  let n ← newArr s.capacity (-1)
  modify fun t => { t with nexts := n }
  let k ← ensureSize s.keys s.capacity default
  modify fun t => { t with keys := k }
  let v ← ensureSize s.values s.capacity default
  modify fun t => { t with values := v }
  let len := min (old.maxHead + 1) old.heads.len
  modify fun t => { t with maxHead := 0 }
  rehashHeads old.heads old.nexts old.keys len.toNat 0
  bumpMod

/-- BaseKeyIndex.ftl:188-214 `add` of the base class. -/
def baseAdd (key : K) : JM (Index K V) Int := do
  let head ← computeHead key
  let e0 ← rd Index.heads head
  let s ← get
  let found ← lookupLoop key (s.nexts.len + 1) e0
  if found ≥ 0 then pure found
  else do
    let entry ← allocateNewEntry
    let s ← get
    let head ← if entry ≥ s.capThreshold then do
        rehash
        computeHead key
      else pure head
    registerNewEntryForHead head entry
    wrKeys entry key
    updateMaxHead head
    modify fun t => { t with size := t.size + 1 }
    bumpMod
    pure entry

/-- KeyValueIndexedMap.ftl:33-40 `add`. -/
def add (key : K) : JM (Index K V) Int := do
  let s ← get
  let entry ← baseAdd key
  let s' ← get
  JM.when (s.size ≠ s'.size) do wrValues entry default
  pure entry

/-- KeyValueIndexedMap.ftl:60-66 `get`. -/
def getValue (key : K) : JM (Index K V) V := do
  let entry ← lookupEntry key
  if entry = -1 then JM.throw .keyNotFound
  else rd Index.values entry

/-- KeyValueIndexedMap.ftl:74-76 `getValueAt`. -/
def getValueAt (entry : Int) : JM (Index K V) V := rd Index.values entry

/-- KeyValueIndexedMap.ftl:83-88 `getValueAtOrDefault`. -/
def getValueAtOrDefault (entry : Int) (dflt : V) : JM (Index K V) V := do
  let s ← get
  if entry < 0 ∨ entry ≥ s.values.len then pure dflt
  else rd Index.values entry

/-- KeyValueIndexedMap.ftl:93-97 `put`. -/
def put (key : K) (value : V) : JM (Index K V) Int := do
  let entry ← add key
  wrValues entry value
  pure entry

/-- KeyValueIndexedMap.ftl:102-104 `putValueAt`. -/
def putValueAt (entry : Int) (value : V) : JM (Index K V) Unit := wrValues entry value

/-- KeyValueIndexedMap.ftl:129-135 `getOrDefault`. -/
def getOrDefault (key : K) (dflt : V) : JM (Index K V) V := do
  let entry ← lookupEntry key
  if entry = -1 then pure dflt
  else rd Index.values entry

/-- BaseHash.java:52-54 `size`. -/
def getSize : JM (Index K V) Int := do return (← get).size
/-- BaseHash.java:56-58 `isEmpty`. -/
def isEmpty : JM (Index K V) Bool := do return decide ((← get).size = 0)
/-- BaseHash.java:48-50 `capacity`. -/
def getCapacity : JM (Index K V) Int := do return (← get).capacity

/-- BaseKeyIndex.ftl:291-296 `_setHashMethod` (KeyIndexedSet.ftl:41-43,
KeyValueIndexedMap.ftl:153-155 `setHashMethod`); the function is not null. -/
def setHashMethod (hash : K → BitVec 32) : JM (Index K V) Unit := do
  let s ← get
  if s.size > 0 then JM.throw .illegalState
  else modify fun t => { t with hashFunc := hash }

/-- BaseKeyIndex.ftl:298-303 `_setEqMethod` (KeyIndexedSet.ftl:45-47,
KeyValueIndexedMap.ftl:157-159 `setEqMethod`); the function is not null. -/
def setEqMethod (eq : K → K → Bool) : JM (Index K V) Unit := do
  let s ← get
  if s.size > 0 then JM.throw .illegalState
  else modify fun t => { t with equalFunc := eq }

/-- BaseHash.java:142-144: the array of heads gets exactly the length of the source's. -/
def headsLike (heads : Arr Int) (n : Int) : JM (Index K V) (Arr Int) :=
  if (heads.len : Int) ≠ n then newArr n 0 else pure heads

/-- BaseHash.java:146-150 (with `fresh` 0 and `rest` -1) and BaseKeyIndex.ftl:30-35 (with `fresh` and
`rest` the type's default): an array that can hold `n` cells; the cells above hold `rest`. -/
def roomLike {α : Type} (arr : Arr α) (n : Int) (fresh rest : α) : JM (Index K V) (Arr α) :=
  if (arr.len : Int) < n then newArr n fresh else fill arr rest n (arr.len - n)

/-- KeyValueIndexedMap.ftl:46-51, the same for the values. -/
def valuesLike (arr : Arr V) (n : Int) : JM (Index K V) (Arr V) :=
  if (arr.len : Int) < n then newArr n default
  else if (arr.len : Int) > n then fill arr default n (arr.len - n)
  else pure arr

/-- BaseHash.java:141-161, BaseKeyIndex.ftl:27-41, KeyValueIndexedMap.ftl:43-53 `copyFrom`, for a
source that is a different object (its arrays are not those of this object). -/
def copyFrom (source : Index K V) : JM (Index K V) Unit := do
  let s ← get
  let heads ← headsLike s.heads source.heads.len
  modify fun t => { t with heads := heads }
  let nexts ← roomLike s.nexts source.nexts.len 0 (-1)
  modify fun t => { t with nexts := nexts }
  let heads ← arraycopy source.heads 0 heads 0 source.heads.len
  modify fun t => { t with heads := heads }
  let nexts ← arraycopy source.nexts 0 nexts 0 source.nexts.len
  modify fun t => { t with nexts := nexts }
  bumpMod
  modify fun t => { t with
    size := source.size, lfNum := source.lfNum, lfDen := source.lfDen, freeList := source.freeList
    nextUnusedEntry := source.nextUnusedEntry, maxHead := source.maxHead }
  let keys ← roomLike s.keys source.keys.len default default
  modify fun t => { t with keys := keys }
  let keys ← arraycopy source.keys 0 keys 0 source.keys.len
  modify fun t => { t with keys := keys }
  modify fun t => { t with
    capacity := keys.len, capThreshold := threshold keys.len t.lfNum t.lfDen }
  let values ← valuesLike s.values source.values.len
  modify fun t => { t with values := values }
  let values ← arraycopy source.values 0 values 0 source.values.len
  modify fun t => { t with values := values }

/-- The public operations on one map (BaseHash.java, BaseKeyIndex.ftl, KeyValueIndexedMap.ftl). -/
inductive Op (K V : Type)
  | add (k : K) | put (k : K) (v : V) | lookupEntry (k : K) | containsKey (k : K)
  | get (k : K) | getOrDefault (k : K) (d : V)
  | remove (k : K) | removeAt (e : Int) | removeAtAndReserve (e : Int) | freeReservedEntry (e : Int)
  | getKeyAt (e : Int) | getValueAt (e : Int) | getValueAtOrDefault (e : Int) (d : V)
  | putValueAt (e : Int) (v : V)
  | size | isEmpty | capacity
  | forEach | forEachEntry | forEachValue
  | clear | setHashMethod (hash : K → BitVec 32) | setEqMethod (eq : K → K → Bool)

/-- What a call can return. -/
inductive Out (K V : Type)
  | unit | int (n : Int) | bool (b : Bool) | key (k : K) | val (v : V)
  | keys (l : List K) | ints (l : List Int) | vals (l : List V)
  deriving DecidableEq

/-- Dispatch of one public call to its model. -/
def step : Op K V → JM (Index K V) (Out K V)
  | .add k => do return .int (← add k)
  | .put k v => do return .int (← put k v)
  | .lookupEntry k => do return .int (← lookupEntry k)
  | .containsKey k => do return .bool (← containsKey k)
  | .get k => do return .val (← getValue k)
  | .getOrDefault k d => do return .val (← getOrDefault k d)
  | .remove k => do return .int (← remove k)
  | .removeAt e => do removeAt e; pure .unit
  | .removeAtAndReserve e => do removeAtAndReserve e; pure .unit
  | .freeReservedEntry e => do freeReservedEntry e; pure .unit
  | .getKeyAt e => do return .key (← getKeyAt e)
  | .getValueAt e => do return .val (← getValueAt e)
  | .getValueAtOrDefault e d => do return .val (← getValueAtOrDefault e d)
  | .putValueAt e v => do putValueAt e v; pure .unit
  | .size => do return .int (← getSize)
  | .isEmpty => do return .bool (← isEmpty)
  | .capacity => do return .int (← getCapacity)
  | .forEach => do return .keys (← forEach)
  | .forEachEntry => do return .ints (← forEachEntry)
  | .forEachValue => do return .vals (← forEachValue)
  | .clear => do clear; pure .unit
  | .setHashMethod h => do setHashMethod h; pure .unit
  | .setEqMethod q => do setEqMethod q; pure .unit

end Index
end Verif

import Verif.Model.Index
import Verif.Model.KeyTypes
import Verif.Model.Pack
/-!
Models the package `collections/src/main/java/com/bytefacets/collections/bi`: `Side.java`,
`Mapping.java`, `CompactOneToMany.java` and `CompactManyToMany.java`.

* Java `int` keys and entries are `Int`; `pack` truncates to 32 bits, so a key outside the `int`
  range stands for the `int` with the same low bits (the statements only use keys in range).
* `forEach` calls of the API take a consumer; the model returns the list of what the consumer is
  given.  If the walk throws, what the consumer was given before is not recorded.
* The consumers of `forEachEntry`/`forEachValue` do not call back into the collection; a program
  that edits while it walks is modelled with the explicit iterator calls.
-/
namespace Verif

/-- Side.java:17-20, the fields. `count` is `none` when counts are not tracked. -/
structure Side where
  heads : Arr Int
  nexts : Arr Int
  prevs : Arr Int
  count : Option (Arr Int)

namespace Side

/-- Side.java:22-27, the constructor. -/
def new (initialCapacity initialMappingCapacity : Int) (includeCounts : Bool) : Except Err Side :=
  if initialCapacity < 0 ∨ initialMappingCapacity < 0 then .error .negativeArraySize
  else .ok { heads := Arr.create initialCapacity (-1), nexts := Arr.create initialMappingCapacity (-1),
             prevs := Arr.create initialMappingCapacity (-1),
             count := if includeCounts then some (Arr.create initialCapacity 0) else none }

/-- write to `heads` -/
abbrev wrHeads (i v : Int) : JM Side Unit := wr Side.heads (fun t a => { t with heads := a }) i v
/-- write to `nexts` -/
abbrev wrNexts (i v : Int) : JM Side Unit := wr Side.nexts (fun t a => { t with nexts := a }) i v
/-- write to `prevs` -/
abbrev wrPrevs (i v : Int) : JM Side Unit := wr Side.prevs (fun t a => { t with prevs := a }) i v

/-- Side.java:29-34 `count`. -/
def countOf (key : Int) : JM Side Int := do
  let s ← get
  match s.count with
  | none => JM.throw .illegalState
  | some c => if key < c.len then rdA c key else pure 0

/-- Side.java:67-72 `ensureKey`. -/
def ensureKey (key : Int) : JM Side Unit := do
  let s ← get
  let h ← Verif.ensureEntry s.heads key (-1)
  modify fun t => { t with heads := h }
  match s.count with
  | none => pure ()
  | some c => do
    let c' ← Verif.ensureEntry c key 0
    modify fun t => { t with count := some c' }

/-- Side.java:74-77 `ensureEntry`. -/
def ensureEntry (entry : Int) : JM Side Unit := do
  let s ← get
  let n ← Verif.ensureEntry s.nexts entry (-1)
  modify fun t => { t with nexts := n }
  let p ← Verif.ensureEntry s.prevs entry (-1)
  modify fun t => { t with prevs := p }

/-- Side.java:45-47, 62-64: `if (count != null) count[key] += d`. -/
def addCount (key d : Int) : JM Side Unit := do
  let s ← get
  match s.count with
  | none => pure ()
  | some c => do
    let x ← rdA c key
    modify fun t => { t with count := some (c.set key (i32 (x + d))) }

/-- Side.java:36-48 `insertEntry`. -/
def insertEntry (key entry : Int) : JM Side Unit := do
  ensureKey key
  let oldHead ← rd Side.heads key
  JM.when (oldHead ≠ -1) do
    ensureEntry entry
    wrNexts entry oldHead
    wrPrevs oldHead entry
  wrHeads key entry
  addCount key 1

/-- Side.java:51-65 `removeEntry`. -/
def removeEntry (key entry : Int) : JM Side Unit := do
  let h ← rd Side.heads key
  if h = entry then do
    let n ← rd Side.nexts entry
    wrHeads key n
  else do
    let prev ← rd Side.prevs entry
    let next ← rd Side.nexts entry
    JM.when (prev ≠ -1) (wrNexts prev next)
    JM.when (next ≠ -1) (wrPrevs next prev)
  wrPrevs entry (-1)
  wrNexts entry (-1)
  addCount key (-1)

end Side

/-- Side.java:88-89, 121-122, the fields `key` and `entry` of the two iterator classes. -/
structure Cur where
  key : Int
  entry : Int
  deriving DecidableEq

/-- Mapping.java:18-21, the fields: its two iterators and the key it is set to. -/
structure Mapping where
  entryCur : Cur
  valueCur : Cur
  key : Int
  deriving DecidableEq

/-- CompactOneToMany.java:19-21 and CompactManyToMany.java:13-14, the fields.  `many` tells the two
classes apart; the right half of a `CompactOneToMany` does not exist in Java and is never touched. -/
structure Bi where
  mappings : Index (BitVec 64) Unit
  left : Side
  right : Side
  leftMap : Mapping
  rightMap : Mapping
  many : Bool

/-- Which half of a collection. -/
inductive Dir
  | left | right
  deriving DecidableEq

/-- Which of a mapping's two iterators. -/
inductive Kind
  | entry | value
  deriving DecidableEq

namespace Bi

/-- Mapping.java:18-27 and Side.java:91, 124: the initial fields of a mapping. -/
def Mapping.init : Mapping := { entryCur := ⟨0, 0⟩, valueCur := ⟨0, 0⟩, key := -1 }

/-- CompactOneToMany.java:28-33 (`many := false`, the argument `initialRights` is not used) and
CompactManyToMany.java:20-28 (`many := true`), the constructors.  The default load factor of the set
is 0.75 (BaseHash.java). -/
def new (many : Bool) (initialLefts initialRights initialMappingCapacity : Int) (includeCounts : Bool) :
    Except Err Bi := do
  let mappings ← Index.new KeyTypes.longHash KeyTypes.longEq initialMappingCapacity 3 4
  let left ← Side.new initialLefts initialMappingCapacity includeCounts
  let right ← if many then Side.new initialRights initialMappingCapacity includeCounts
    else Side.new 0 0 false
  pure { mappings := mappings, left := left, right := right, leftMap := Mapping.init,
         rightMap := Mapping.init, many := many }

/-- One half. -/
def side : Dir → Bi → Side
  | .left, s => s.left
  | .right, s => s.right

/-- Replace one half. -/
def setSide : Dir → Bi → Side → Bi
  | .left, s, x => { s with left := x }
  | .right, s, x => { s with right := x }

/-- The mapping object of one half. -/
def map : Dir → Bi → Mapping
  | .left, s => s.leftMap
  | .right, s => s.rightMap

/-- Replace the mapping object of one half. -/
def setMap : Dir → Bi → Mapping → Bi
  | .left, s, x => { s with leftMap := x }
  | .right, s, x => { s with rightMap := x }

/-- A call on the set of mappings. -/
def onMappings {α : Type} (m : JM (Index (BitVec 64) Unit) α) : JM Bi α := ⟨fun s =>
  match m s.mappings with
  | .ok a t => .ok a { s with mappings := t }
  | .err e t => .err e { s with mappings := t }⟩

/-- A call on one half. -/
def onSide {α : Type} (d : Dir) (m : JM Side α) : JM Bi α := ⟨fun s =>
  match m (side d s) with
  | .ok a t => .ok a (setSide d s t)
  | .err e t => .err e (setSide d s t)⟩

/-- `Pack.packToLong(leftKey, rightKey)` on Java `int`s. -/
def pack (l r : Int) : BitVec 64 := Pack.packToLong (BitVec.ofInt 32 l) (BitVec.ofInt 32 r)

/-- CompactOneToMany.java:158-160 `insertLeft`. -/
def insertLeft (leftKey entry : Int) : JM Bi Unit := onSide .left (Side.insertEntry leftKey entry)
/-- CompactOneToMany.java:162 and CompactManyToMany.java:31-33 `insertRight`. -/
def insertRight (rightKey entry : Int) : JM Bi Unit := do
  let s ← get
  JM.when (s.many = true) (onSide .right (Side.insertEntry rightKey entry))
/-- CompactOneToMany.java:164-166 `removeLeft`. -/
def removeLeft (leftKey entry : Int) : JM Bi Unit := onSide .left (Side.removeEntry leftKey entry)
/-- CompactOneToMany.java:168 and CompactManyToMany.java:36-38 `removeRight`. -/
def removeRight (rightKey entry : Int) : JM Bi Unit := do
  let s ← get
  JM.when (s.many = true) (onSide .right (Side.removeEntry rightKey entry))

/-- CompactOneToMany.java:36-38 `size`. -/
def getSize : JM Bi Int := onMappings Index.getSize

/-- CompactOneToMany.java:44-57 `put`. -/
def put (leftKey rightKey : Int) : JM Bi Int := do
  let before ← onMappings Index.getSize
  let entry ← onMappings (Index.add (pack leftKey rightKey))
  let after ← onMappings Index.getSize
  if before = after then pure entry
  else do
    insertLeft leftKey entry
    insertRight rightKey entry
    pure entry

/-- CompactOneToMany.java:63-72 `remove`. -/
def remove (leftKey rightKey : Int) : JM Bi Int := do
  let entry ← onMappings (Index.lookupEntry (pack leftKey rightKey))
  if entry = -1 then pure (-1)
  else do
    removeLeft leftKey entry
    removeRight rightKey entry
    onMappings (Index.removeAt entry)
    pure entry

/-- CompactOneToMany.java:80-86 `removeAt`. -/
def removeAt (entry : Int) : JM Bi Int := do
  let key ← onMappings (Index.getKeyAt entry)
  removeLeft (Pack.unpackHiInt key).toInt entry
  removeRight (Pack.unpackLoInt key).toInt entry
  onMappings (Index.removeAt entry)
  pure entry

/-- CompactOneToMany.java:89-91 `contains`. -/
def contains (leftKey rightKey : Int) : JM Bi Bool :=
  onMappings (Index.containsKey (pack leftKey rightKey))

/-- CompactOneToMany.java:97-99 `lookupEntry`. -/
def lookupEntry (leftKey rightKey : Int) : JM Bi Int :=
  onMappings (Index.lookupEntry (pack leftKey rightKey))

/-- CompactOneToMany.java:116-119 `getLeftAt`. -/
def getLeftAt (entry : Int) : JM Bi Int := do
  let association ← onMappings (Index.getKeyAt entry)
  pure (Pack.unpackHiInt association).toInt

/-- CompactOneToMany.java:126-129 `getRightAt`. -/
def getRightAt (entry : Int) : JM Bi Int := do
  let association ← onMappings (Index.getKeyAt entry)
  pure (Pack.unpackLoInt association).toInt

/-- CompactOneToMany.java:140-145 `removeAtAndReserve`. -/
def removeAtAndReserve (entry : Int) : JM Bi Unit := do
  let key ← onMappings (Index.getKeyAt entry)
  onMappings (Index.removeAtAndReserve entry)
  removeLeft (Pack.unpackHiInt key).toInt entry
  removeRight (Pack.unpackLoInt key).toInt entry

/-- CompactOneToMany.java:154-156 `freeReservedEntry`. -/
def freeReservedEntry (entry : Int) : JM Bi Unit := onMappings (Index.freeReservedEntry entry)

/-- CompactOneToMany.java:171-173 `forEachEntry`. -/
def forEachEntry : JM Bi (List Int) := onMappings Index.forEachEntry

/-- CompactOneToMany.java:106-109 `withLeft`, CompactManyToMany.java:45-48 `withRight`,
Mapping.java:29-31 `resetKey`. -/
def withKey (d : Dir) (key : Int) : JM Bi Unit :=
  modify fun s => setMap d s { map d s with key := key }

/-- Mapping.java:39-41 `count`. -/
def count (d : Dir) : JM Bi Int := do
  let s ← get
  onSide d (Side.countOf (map d s).key)

/-- The cursor of one of the iterators of one half. -/
def cur (d : Dir) (k : Kind) (s : Bi) : Cur :=
  match k with
  | .entry => (map d s).entryCur
  | .value => (map d s).valueCur

/-- Move the cursor of one of the iterators of one half. -/
def setCur (d : Dir) (k : Kind) (s : Bi) (c : Cur) : Bi :=
  match k with
  | .entry => setMap d s { map d s with entryCur := c }
  | .value => setMap d s { map d s with valueCur := c }

/-- Side.java:93-104 and 128-135, `reset` of the two iterators.  (`EntryIterator` checks the key,
`ValueIterator` does not.) -/
def iterReset (d : Dir) (k : Kind) : JM Bi Unit := do
  let s ← get
  let key := (cur d k s).key
  match k with
  | .entry =>
    let e ← if key ≥ 0 ∧ key < (side d s).heads.len then onSide d (rd Side.heads key) else pure (-1)
    modify fun t => setCur d k t { cur d k t with entry := e }
  | .value =>
    let e ← onSide d (rd Side.heads key)
    modify fun t => setCur d k t { cur d k t with entry := e }

/-- Mapping.java:54-57 `entryIterator` and 60-63 `valueIterator` (Side.java:93-96, 128-131). -/
def iterator (d : Dir) (k : Kind) : JM Bi Unit := do
  modify fun s => setCur d k s { cur d k s with key := (map d s).key }
  iterReset d k

/-- Side.java:107-109 and 138-140 `hasNext`. -/
def hasNext (d : Dir) (k : Kind) : JM Bi Bool := do
  let s ← get
  pure (decide ((cur d k s).entry ≠ -1))

/-- The `EntryLookupFunc` of one half (CompactOneToMany.java:32, CompactManyToMany.java:27). -/
def lookupFunc : Dir → Int → JM Bi Int
  | .left => getRightAt
  | .right => getLeftAt

/-- Side.java:112-116 and 143-147 `next`. -/
def next (d : Dir) (k : Kind) : JM Bi Int := do
  let s ← get
  let e := (cur d k s).entry
  let result ← match k with
    | .entry => pure e
    | .value => lookupFunc d e
  let n ← onSide d (rd Side.nexts e)
  modify fun t => setCur d k t { cur d k t with entry := n }
  pure result

/-- KeyIterator.ftl:15-20 `forEach`, for at most `fuel` iterations of its loop. -/
def iterAll (d : Dir) (k : Kind) : Nat → JM Bi (List Int)
  | 0 => JM.throw .diverge
  | fuel + 1 => do
    if (← hasNext d k) then do
      let x ← next d k
      let xs ← iterAll d k fuel
      pure (x :: xs)
    else pure []

/-- Mapping.java:44-46 `forEachValue` and 49-51 `forEachEntry`.  A walk of more than `nexts.length`
steps repeats an entry, i.e. never ends. -/
def forEachOf (d : Dir) (k : Kind) : JM Bi (List Int) := do
  iterator d k
  let s ← get
  iterAll d k ((side d s).nexts.len + 1)

/-- The public operations of `CompactOneToMany`, `CompactManyToMany`, `Mapping` and its iterators. -/
inductive Op
  | put (l r : Int) | remove (l r : Int) | removeAt (e : Int)
  | removeAtAndReserve (e : Int) | freeReservedEntry (e : Int)
  | contains (l r : Int) | lookupEntry (l r : Int) | size
  | getLeftAt (e : Int) | getRightAt (e : Int) | forEachEntry
  | withKey (d : Dir) (key : Int) | count (d : Dir) | forEachOf (d : Dir) (k : Kind)
  | iterator (d : Dir) (k : Kind) | iterReset (d : Dir) (k : Kind)
  | hasNext (d : Dir) (k : Kind) | next (d : Dir) (k : Kind)
  deriving DecidableEq

/-- What a call can return. -/
inductive Out
  | unit | int (n : Int) | bool (b : Bool) | ints (l : List Int)
  deriving DecidableEq, Repr

/-- Dispatch of one public call to its model. -/
def step : Op → JM Bi Out
  | .put l r => do return .int (← put l r)
  | .remove l r => do return .int (← remove l r)
  | .removeAt e => do return .int (← removeAt e)
  | .removeAtAndReserve e => do removeAtAndReserve e; pure .unit
  | .freeReservedEntry e => do freeReservedEntry e; pure .unit
  | .contains l r => do return .bool (← contains l r)
  | .lookupEntry l r => do return .int (← lookupEntry l r)
  | .size => do return .int (← getSize)
  | .getLeftAt e => do return .int (← getLeftAt e)
  | .getRightAt e => do return .int (← getRightAt e)
  | .forEachEntry => do return .ints (← forEachEntry)
  | .withKey d key => do withKey d key; pure .unit
  | .count d => do return .int (← count d)
  | .forEachOf d k => do return .ints (← forEachOf d k)
  | .iterator d k => do iterator d k; pure .unit
  | .iterReset d k => do iterReset d k; pure .unit
  | .hasNext d k => do return .bool (← hasNext d k)
  | .next d k => do return .int (← next d k)

end Bi
end Verif

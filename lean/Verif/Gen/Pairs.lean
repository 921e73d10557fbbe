import Verif.Gen.Prelude
import Verif.Gen.NumUtils
import Verif.Gen.CapacityCalculator
import Verif.Gen.RangeCheckException
import Verif.Gen.InitializationException
import Verif.Model.Bi
import Verif.Gen.KeyIndexedSet
/-!
GENERATED by tools/j2l/translate.py from bi/Side.java, Mapping.java, CompactOneToMany.java, CompactManyToMany.java, functional/KeyIterator.ftl.  Do not edit: the translator is the only
reading of the Java text here.  Lean/Verif/Link proves that these definitions agree with the model.
-/
set_option linter.unusedVariables false
namespace Verif.Gen.Pairs
open Verif

namespace Side

/-- Side.java:29-34 `count`. -/
def count (key : Int) : JM Verif.Side Int := do
  let s1 ← get
  (if (s1.count.isNone) = true then do
      JM.throw .illegalState
    else pure ())
  let s2 ← get
  let v3 ← deref s2.count
  let v6 ← (if (decide (key < (v3.len : Int))) = true then do
      let v4 ← deref s2.count
      let v5 ← rdA v4 key
      pure v5
    else do
      pure 0)
  pure v6

/-- Side.java:67-72 `ensureKey`. -/
def ensureKey (key : Int) : JM Verif.Side Unit := do
  let s1 ← get
  let v2 ← Verif.ensureEntry s1.heads key (-1)
  modify fun self => { self with heads := v2 }
  let s3 ← get
  (if (s3.count.isSome) = true then do
      let v4 ← deref s3.count
      let v5 ← Verif.ensureEntry v4 key 0
      modify fun self => { self with count := some v5 }
      pure ()
    else pure ())
  pure ()

/-- Side.java:74-77 `ensureEntry`. -/
def ensureEntry (entry : Int) : JM Verif.Side Unit := do
  let s1 ← get
  let v2 ← Verif.ensureEntry s1.nexts entry (-1)
  modify fun self => { self with nexts := v2 }
  let s3 ← get
  let v4 ← Verif.ensureEntry s3.prevs entry (-1)
  modify fun self => { self with prevs := v4 }
  pure ()

/-- Side.java:36-48 `insertEntry`. -/
def insertEntry (key : Int) (entry : Int) : JM Verif.Side Unit := do
  ensureKey key
  let v1 ← rd Verif.Side.heads key
  let oldHead := v1
  (if (decide (oldHead ≠ (-1))) = true then do
      ensureEntry entry
      wr Verif.Side.nexts (fun self a => { self with nexts := a }) entry oldHead
      wr Verif.Side.prevs (fun self a => { self with prevs := a }) oldHead entry
      pure ()
    else pure ())
  wr Verif.Side.heads (fun self a => { self with heads := a }) key entry
  let s2 ← get
  (if (s2.count.isSome) = true then do
      let v3 ← deref s2.count
      let v4 ← rdA v3 key
      let v5 := i32 (v4 + 1)
      let s6 ← get
      let v7 ← deref s6.count
      let v8 ← wrA v7 key v5
      modify fun self => { self with count := some v8 }
      pure ()
    else pure ())
  pure ()

/-- Side.java:51-65 `removeEntry`. -/
def removeEntry (key : Int) (entry : Int) : JM Verif.Side Unit := do
  let v1 ← rd Verif.Side.heads key
  (if (decide (v1 = entry)) = true then do
      let v2 ← rd Verif.Side.nexts entry
      wr Verif.Side.heads (fun self a => { self with heads := a }) key v2
      pure ()
    else do
      let v3 ← rd Verif.Side.prevs entry
      let prev := v3
      let v4 ← rd Verif.Side.nexts entry
      let next := v4
      (if (decide (prev ≠ (-1))) = true then do
          wr Verif.Side.nexts (fun self a => { self with nexts := a }) prev next
          pure ()
        else pure ())
      (if (decide (next ≠ (-1))) = true then do
          wr Verif.Side.prevs (fun self a => { self with prevs := a }) next prev
          pure ()
        else pure ())
      pure ())
  wr Verif.Side.prevs (fun self a => { self with prevs := a }) entry (-1)
  wr Verif.Side.nexts (fun self a => { self with nexts := a }) entry (-1)
  let s5 ← get
  (if (s5.count.isSome) = true then do
      let v6 ← deref s5.count
      let v7 ← rdA v6 key
      let v8 := i32 (v7 - 1)
      let s9 ← get
      let v10 ← deref s9.count
      let v11 ← wrA v10 key v8
      modify fun self => { self with count := some v11 }
      pure ()
    else pure ())
  pure ()

/-- Side.java:22-27 `init`. -/
def init (initialCapacity : Int) (initialMappingCapacity : Int) (includeCounts : Bool) : JM Verif.Side Unit := do
  let v1 ← newArr initialCapacity (-1)
  modify fun self => { self with heads := v1 }
  let v2 ← newArr initialMappingCapacity (-1)
  modify fun self => { self with nexts := v2 }
  let v3 ← newArr initialMappingCapacity (-1)
  modify fun self => { self with prevs := v3 }
  let v5 ← (if includeCounts = true then do
      let v4 ← newArr initialCapacity 0
      pure (some v4)
    else do
      pure none)
  modify fun self => { self with count := v5 }
  pure ()

end Side

namespace EntryIterator

/-- Side.java:98-104 `reset`. -/
def reset0 (lookup : Int → JM Bi Int) (d : Dir) : JM Bi Unit := do
  let s1 ← get
  (if ((decide (((Bi.cur d .entry s1).key) ≥ 0)) && (decide (((Bi.cur d .entry s1).key) < (((Bi.side d s1).heads).len : Int)))) = true then do
      let v2 ← rd (fun self => (Bi.side d self).heads) ((Bi.cur d .entry s1).key)
      modify fun self => Bi.setCur d .entry self { Bi.cur d .entry self with entry := v2 }
      pure ()
    else do
      let v3 := (-1)
      modify fun self => Bi.setCur d .entry self { Bi.cur d .entry self with entry := v3 }
      pure ())
  pure ()

/-- Side.java:93-96 `reset`. -/
def reset1 (lookup : Int → JM Bi Int) (d : Dir) (key : Int) : JM Bi Unit := do
  modify fun self => Bi.setCur d .entry self { Bi.cur d .entry self with key := key }
  reset0 lookup d
  pure ()

/-- Side.java:107-109 `hasNext`. -/
def hasNext (lookup : Int → JM Bi Int) (d : Dir) : JM Bi Bool := do
  let s1 ← get
  pure (decide (((Bi.cur d .entry s1).entry) ≠ (-1)))

/-- Side.java:112-116 `next`. -/
def next (lookup : Int → JM Bi Int) (d : Dir) : JM Bi Int := do
  let s1 ← get
  let result := (Bi.cur d .entry s1).entry
  let v2 ← rd (fun self => (Bi.side d self).nexts) ((Bi.cur d .entry s1).entry)
  modify fun self => Bi.setCur d .entry self { Bi.cur d .entry self with entry := v2 }
  pure result

/-- KeyIterator.ftl:16, the loop. -/
def forEach_loop1 {β : Type} (lookup : Int → JM Bi Int) (d : Dir) (consumer : (Int → JM Bi β)) :
    Nat → (List β) → JM Bi (List β)
  | 0, _ => JM.throw .diverge
  | n + 1, acc => do
    let v1 ← hasNext lookup d
    if v1 = true then do
      let v2 ← next lookup d
      let v3 ← consumer v2
      let acc := acc ++ [v3]
      forEach_loop1 lookup d consumer n acc
    else do
      pure acc

/-- KeyIterator.ftl:14-19 `forEach`. -/
def forEach {β : Type} (lookup : Int → JM Bi Int) (d : Dir) (fuel : Nat) (consumer : (Int → JM Bi β)) : JM Bi (List β) := do
  let acc : List β := []
  let acc ← forEach_loop1 lookup d consumer fuel acc
  pure acc

end EntryIterator

namespace ValueIterator

/-- Side.java:133-135 `reset`. -/
def reset0 (lookup : Int → JM Bi Int) (d : Dir) : JM Bi Unit := do
  let s1 ← get
  let v2 ← rd (fun self => (Bi.side d self).heads) ((Bi.cur d .value s1).key)
  modify fun self => Bi.setCur d .value self { Bi.cur d .value self with entry := v2 }
  pure ()

/-- Side.java:128-131 `reset`. -/
def reset1 (lookup : Int → JM Bi Int) (d : Dir) (key : Int) : JM Bi Unit := do
  modify fun self => Bi.setCur d .value self { Bi.cur d .value self with key := key }
  reset0 lookup d
  pure ()

/-- Side.java:138-140 `hasNext`. -/
def hasNext (lookup : Int → JM Bi Int) (d : Dir) : JM Bi Bool := do
  let s1 ← get
  pure (decide (((Bi.cur d .value s1).entry) ≠ (-1)))

/-- Side.java:143-147 `next`. -/
def next (lookup : Int → JM Bi Int) (d : Dir) : JM Bi Int := do
  let s1 ← get
  let v2 ← lookup ((Bi.cur d .value s1).entry)
  let value := v2
  let s3 ← get
  let v4 ← rd (fun self => (Bi.side d self).nexts) ((Bi.cur d .value s3).entry)
  modify fun self => Bi.setCur d .value self { Bi.cur d .value self with entry := v4 }
  pure value

/-- KeyIterator.ftl:16, the loop. -/
def forEach_loop1 {β : Type} (lookup : Int → JM Bi Int) (d : Dir) (consumer : (Int → JM Bi β)) :
    Nat → (List β) → JM Bi (List β)
  | 0, _ => JM.throw .diverge
  | n + 1, acc => do
    let v1 ← hasNext lookup d
    if v1 = true then do
      let v2 ← next lookup d
      let v3 ← consumer v2
      let acc := acc ++ [v3]
      forEach_loop1 lookup d consumer n acc
    else do
      pure acc

/-- KeyIterator.ftl:14-19 `forEach`. -/
def forEach {β : Type} (lookup : Int → JM Bi Int) (d : Dir) (fuel : Nat) (consumer : (Int → JM Bi β)) : JM Bi (List β) := do
  let acc : List β := []
  let acc ← forEach_loop1 lookup d consumer fuel acc
  pure acc

end ValueIterator

namespace Mapping

/-- Mapping.java:29-31 `resetKey`. -/
def resetKey (lookup : Int → JM Bi Int) (d : Dir) (key : Int) : JM Bi Unit := do
  modify fun self => Bi.setMap d self { Bi.map d self with key := key }
  pure ()

/-- Mapping.java:39-41 `count`. -/
def count (lookup : Int → JM Bi Int) (d : Dir) : JM Bi Int := do
  let s1 ← get
  let v2 ← Bi.onSide d (Side.count ((Bi.map d s1).key))
  pure v2

/-- Mapping.java:60-63 `valueIterator`. -/
def valueIterator (lookup : Int → JM Bi Int) (d : Dir) : JM Bi Unit := do
  let s1 ← get
  ValueIterator.reset1 lookup d ((Bi.map d s1).key)
  pure ()

/-- Mapping.java:44-46 `forEachValue`. -/
def forEachValue {β : Type} (lookup : Int → JM Bi Int) (d : Dir) (fuel : Nat) (consumer : (Int → JM Bi β)) : JM Bi (List β) := do
  let acc : List β := []
  let v1 ← valueIterator lookup d
  let v2 ← ValueIterator.forEach lookup d fuel consumer
  let acc := acc ++ v2
  pure acc

/-- Mapping.java:54-57 `entryIterator`. -/
def entryIterator (lookup : Int → JM Bi Int) (d : Dir) : JM Bi Unit := do
  let s1 ← get
  EntryIterator.reset1 lookup d ((Bi.map d s1).key)
  pure ()

/-- Mapping.java:49-51 `forEachEntry`. -/
def forEachEntry {β : Type} (lookup : Int → JM Bi Int) (d : Dir) (fuel : Nat) (consumer : (Int → JM Bi β)) : JM Bi (List β) := do
  let acc : List β := []
  let v1 ← entryIterator lookup d
  let v2 ← EntryIterator.forEach lookup d fuel consumer
  let acc := acc ++ v2
  pure acc

/-- Mapping.java:23-27 `init`. -/
def init (lookup : Int → JM Bi Int) (d : Dir) : JM Bi Unit := do
  let v1 := (-1)
  modify fun self => Bi.setMap d self { Bi.map d self with key := v1 }
  pure ()

end Mapping

namespace Set

/-- BaseHash.java:102, the loop. -/
def forEachEntry_loop2 {β : Type} (consumer : (Int → JM Bi β)) :
    Nat → (List β) → Int → Int → JM Bi ((List β) × Int)
  | 0, _, _, _ => JM.throw .diverge
  | n + 1, acc, hits, e => do
    if (decide (e ≥ 0)) = true then do
      let v4 ← rd (fun self => self.mappings.nexts) e
      let next := v4
      let v5 := i32 (hits + 1)
      let hits := v5
      let v6 ← consumer e
      let acc := acc ++ [v6]
      let e := next
      forEachEntry_loop2 consumer n acc hits e
    else do
      pure (acc, hits)

/-- BaseHash.java:101, the loop. -/
def forEachEntry_loop1 {β : Type} (fuel : Nat) (consumer : (Int → JM Bi β)) (expectedHits : Int) :
    Nat → (List β) → Int → Int → JM Bi ((List β) × Int)
  | 0, _, _, _ => JM.throw .diverge
  | n + 1, acc, hits, head => do
    let s2 ← get
    if ((decide (head < (s2.mappings.heads.len : Int))) && (decide (hits < expectedHits))) = true then do
      let v3 ← rd (fun self => self.mappings.heads) head
      let e := v3
      let (acc, hits) ← forEachEntry_loop2 consumer fuel acc hits e
      let v7 := i32 (head + 1)
      let head := v7
      forEachEntry_loop1 fuel consumer expectedHits n acc hits head
    else do
      pure (acc, hits)

/-- BaseHash.java:95-109 `forEachEntry`. -/
def forEachEntry {β : Type} (fuel : Nat) (consumer : (Int → JM Bi β)) : JM Bi (List β) := do
  let acc : List β := []
  let s1 ← get
  if (decide (s1.mappings.size = 0)) = true then do
    pure acc
  else do
    let hits := 0
    let expectedHits := s1.mappings.size
    let head := 0
    let (acc, hits) ← forEachEntry_loop1 fuel consumer expectedHits fuel acc hits head
    pure acc

end Set

namespace OneToMany

/-- CompactOneToMany.java:116-119 `getLeftAt`. -/
def getLeftAt (entry : Int) : JM Bi Int := do
  let v1 ← Bi.onMappings (Gen.KeyIndexedSet.getKeyAt entry)
  let association := v1
  pure ((Pack.unpackHiInt association).toInt)

/-- CompactOneToMany.java:126-129 `getRightAt`. -/
def getRightAt (entry : Int) : JM Bi Int := do
  let v1 ← Bi.onMappings (Gen.KeyIndexedSet.getKeyAt entry)
  let association := v1
  pure ((Pack.unpackLoInt association).toInt)

/-- CompactOneToMany.java:36-38 `size`. -/
def size  : JM Bi Int := do
  let v1 ← Bi.onMappings (Gen.KeyIndexedSet.size)
  pure v1

/-- CompactOneToMany.java:158-160 `insertLeft`. -/
def insertLeft (leftKey : Int) (entry : Int) : JM Bi Unit := do
  Bi.onSide .left (Side.insertEntry leftKey entry)
  pure ()

/-- CompactOneToMany.java:162-162 `insertRight`. -/
def insertRight (rightKey : Int) (entry : Int) : JM Bi Unit := do
  pure ()

/-- CompactOneToMany.java:44-57 `put`. -/
def put (fuel : Nat) (leftKey : Int) (rightKey : Int) : JM Bi Int := do
  let key := (Bi.pack leftKey rightKey)
  let v1 ← Bi.onMappings (Gen.KeyIndexedSet.size)
  let before := v1
  let v2 ← Bi.onMappings (Gen.KeyIndexedSet.add fuel key)
  let entry := v2
  let v3 ← Bi.onMappings (Gen.KeyIndexedSet.size)
  let after := v3
  if (decide (before = after)) = true then do
    pure entry
  else do
    insertLeft leftKey entry
    insertRight rightKey entry
    pure entry

/-- CompactOneToMany.java:164-166 `removeLeft`. -/
def removeLeft (leftKey : Int) (entry : Int) : JM Bi Unit := do
  Bi.onSide .left (Side.removeEntry leftKey entry)
  pure ()

/-- CompactOneToMany.java:168-168 `removeRight`. -/
def removeRight (rightKey : Int) (entry : Int) : JM Bi Unit := do
  pure ()

/-- CompactOneToMany.java:63-72 `remove`. -/
def remove (fuel : Nat) (leftKey : Int) (rightKey : Int) : JM Bi Int := do
  let v1 ← Bi.onMappings (Gen.KeyIndexedSet.lookupEntry fuel (Bi.pack leftKey rightKey))
  let entry := v1
  if (decide (entry = (-1))) = true then do
    pure (-1)
  else do
    removeLeft leftKey entry
    removeRight rightKey entry
    Bi.onMappings (Gen.KeyIndexedSet.removeAt fuel entry)
    pure entry

/-- CompactOneToMany.java:80-86 `removeAt`. -/
def removeAt (fuel : Nat) (entry : Int) : JM Bi Int := do
  let v1 ← Bi.onMappings (Gen.KeyIndexedSet.getKeyAt entry)
  let key := v1
  removeLeft ((Pack.unpackHiInt key).toInt) entry
  removeRight ((Pack.unpackLoInt key).toInt) entry
  Bi.onMappings (Gen.KeyIndexedSet.removeAt fuel entry)
  pure entry

/-- CompactOneToMany.java:89-91 `contains`. -/
def contains (fuel : Nat) (leftKey : Int) (rightKey : Int) : JM Bi Bool := do
  let v1 ← Bi.onMappings (Gen.KeyIndexedSet.containsKey fuel (Bi.pack leftKey rightKey))
  pure v1

/-- CompactOneToMany.java:97-99 `lookupEntry`. -/
def lookupEntry (fuel : Nat) (leftKey : Int) (rightKey : Int) : JM Bi Int := do
  let v1 ← Bi.onMappings (Gen.KeyIndexedSet.lookupEntry fuel (Bi.pack leftKey rightKey))
  pure v1

/-- CompactOneToMany.java:106-109 `withLeft`. -/
def withLeft (leftKey : Int) : JM Bi Unit := do
  Mapping.resetKey getRightAt .left leftKey
  pure ()

/-- CompactOneToMany.java:140-145 `removeAtAndReserve`. -/
def removeAtAndReserve (fuel : Nat) (entry : Int) : JM Bi Unit := do
  let v1 ← Bi.onMappings (Gen.KeyIndexedSet.getKeyAt entry)
  let key := v1
  Bi.onMappings (Gen.KeyIndexedSet.removeAtAndReserve fuel entry)
  removeLeft ((Pack.unpackHiInt key).toInt) entry
  removeRight ((Pack.unpackLoInt key).toInt) entry
  pure ()

/-- CompactOneToMany.java:154-156 `freeReservedEntry`. -/
def freeReservedEntry (entry : Int) : JM Bi Unit := do
  Bi.onMappings (Gen.KeyIndexedSet.freeReservedEntry entry)
  pure ()

/-- CompactOneToMany.java:171-173 `forEachEntry`. -/
def forEachEntry {β : Type} (fuel : Nat) (consumer : (Int → JM Bi β)) : JM Bi (List β) := do
  let acc : List β := []
  let v1 ← Set.forEachEntry fuel consumer
  let acc := acc ++ v1
  pure acc

/-- CompactOneToMany.java:28-33 `init_CompactOneToMany_3`. -/
def init3 (initialLefts : Int) (initialMappingCapacity : Int) (includeCounts : Bool) : JM Bi Unit := do
  Bi.onMappings (Gen.KeyIndexedSet.init1 KeyTypes.longHash KeyTypes.longEq initialMappingCapacity)
  Bi.onSide .left (Side.init initialLefts initialMappingCapacity includeCounts)
  Mapping.init getRightAt .left
  pure ()

/-- CompactOneToMany.java:23-25 `init_CompactOneToMany_0`. -/
def init0  : JM Bi Unit := do
  init3 16 16 true
  pure ()

end OneToMany

/-- The lookup functions the constructors give to the mappings of OneToMany. -/
def OneToMany.lookup : Dir → Int → JM Bi Int
  | .left => OneToMany.getRightAt
  | .right => fun _ => JM.throw .nullPointer

namespace ManyToMany

/-- CompactOneToMany.java:116-119 `getLeftAt`. -/
def getLeftAt (entry : Int) : JM Bi Int := do
  let v1 ← Bi.onMappings (Gen.KeyIndexedSet.getKeyAt entry)
  let association := v1
  pure ((Pack.unpackHiInt association).toInt)

/-- CompactOneToMany.java:126-129 `getRightAt`. -/
def getRightAt (entry : Int) : JM Bi Int := do
  let v1 ← Bi.onMappings (Gen.KeyIndexedSet.getKeyAt entry)
  let association := v1
  pure ((Pack.unpackLoInt association).toInt)

/-- CompactManyToMany.java:31-33 `insertRight`. -/
def insertRight (rightKey : Int) (entry : Int) : JM Bi Unit := do
  Bi.onSide .right (Side.insertEntry rightKey entry)
  pure ()

/-- CompactManyToMany.java:36-38 `removeRight`. -/
def removeRight (rightKey : Int) (entry : Int) : JM Bi Unit := do
  Bi.onSide .right (Side.removeEntry rightKey entry)
  pure ()

/-- CompactManyToMany.java:45-48 `withRight`. -/
def withRight (rightKey : Int) : JM Bi Unit := do
  Mapping.resetKey getLeftAt .right rightKey
  pure ()

/-- CompactOneToMany.java:36-38 `size`. -/
def size  : JM Bi Int := do
  let v1 ← Bi.onMappings (Gen.KeyIndexedSet.size)
  pure v1

/-- CompactOneToMany.java:158-160 `insertLeft`. -/
def insertLeft (leftKey : Int) (entry : Int) : JM Bi Unit := do
  Bi.onSide .left (Side.insertEntry leftKey entry)
  pure ()

/-- CompactOneToMany.java:44-57 `put`. -/
def put (fuel : Nat) (leftKey : Int) (rightKey : Int) : JM Bi Int := do
  let key := (Bi.pack leftKey rightKey)
  let v1 ← Bi.onMappings (Gen.KeyIndexedSet.size)
  let before := v1
  let v2 ← Bi.onMappings (Gen.KeyIndexedSet.add fuel key)
  let entry := v2
  let v3 ← Bi.onMappings (Gen.KeyIndexedSet.size)
  let after := v3
  if (decide (before = after)) = true then do
    pure entry
  else do
    insertLeft leftKey entry
    insertRight rightKey entry
    pure entry

/-- CompactOneToMany.java:164-166 `removeLeft`. -/
def removeLeft (leftKey : Int) (entry : Int) : JM Bi Unit := do
  Bi.onSide .left (Side.removeEntry leftKey entry)
  pure ()

/-- CompactOneToMany.java:63-72 `remove`. -/
def remove (fuel : Nat) (leftKey : Int) (rightKey : Int) : JM Bi Int := do
  let v1 ← Bi.onMappings (Gen.KeyIndexedSet.lookupEntry fuel (Bi.pack leftKey rightKey))
  let entry := v1
  if (decide (entry = (-1))) = true then do
    pure (-1)
  else do
    removeLeft leftKey entry
    removeRight rightKey entry
    Bi.onMappings (Gen.KeyIndexedSet.removeAt fuel entry)
    pure entry

/-- CompactOneToMany.java:80-86 `removeAt`. -/
def removeAt (fuel : Nat) (entry : Int) : JM Bi Int := do
  let v1 ← Bi.onMappings (Gen.KeyIndexedSet.getKeyAt entry)
  let key := v1
  removeLeft ((Pack.unpackHiInt key).toInt) entry
  removeRight ((Pack.unpackLoInt key).toInt) entry
  Bi.onMappings (Gen.KeyIndexedSet.removeAt fuel entry)
  pure entry

/-- CompactOneToMany.java:89-91 `contains`. -/
def contains (fuel : Nat) (leftKey : Int) (rightKey : Int) : JM Bi Bool := do
  let v1 ← Bi.onMappings (Gen.KeyIndexedSet.containsKey fuel (Bi.pack leftKey rightKey))
  pure v1

/-- CompactOneToMany.java:97-99 `lookupEntry`. -/
def lookupEntry (fuel : Nat) (leftKey : Int) (rightKey : Int) : JM Bi Int := do
  let v1 ← Bi.onMappings (Gen.KeyIndexedSet.lookupEntry fuel (Bi.pack leftKey rightKey))
  pure v1

/-- CompactOneToMany.java:106-109 `withLeft`. -/
def withLeft (leftKey : Int) : JM Bi Unit := do
  Mapping.resetKey getRightAt .left leftKey
  pure ()

/-- CompactOneToMany.java:140-145 `removeAtAndReserve`. -/
def removeAtAndReserve (fuel : Nat) (entry : Int) : JM Bi Unit := do
  let v1 ← Bi.onMappings (Gen.KeyIndexedSet.getKeyAt entry)
  let key := v1
  Bi.onMappings (Gen.KeyIndexedSet.removeAtAndReserve fuel entry)
  removeLeft ((Pack.unpackHiInt key).toInt) entry
  removeRight ((Pack.unpackLoInt key).toInt) entry
  pure ()

/-- CompactOneToMany.java:154-156 `freeReservedEntry`. -/
def freeReservedEntry (entry : Int) : JM Bi Unit := do
  Bi.onMappings (Gen.KeyIndexedSet.freeReservedEntry entry)
  pure ()

/-- CompactOneToMany.java:162-162 `insertRight`. -/
def super_insertRight (rightKey : Int) (entry : Int) : JM Bi Unit := do
  pure ()

/-- CompactOneToMany.java:168-168 `removeRight`. -/
def super_removeRight (rightKey : Int) (entry : Int) : JM Bi Unit := do
  pure ()

/-- CompactOneToMany.java:171-173 `forEachEntry`. -/
def forEachEntry {β : Type} (fuel : Nat) (consumer : (Int → JM Bi β)) : JM Bi (List β) := do
  let acc : List β := []
  let v1 ← Set.forEachEntry fuel consumer
  let acc := acc ++ v1
  pure acc

/-- CompactOneToMany.java:28-33 `init_CompactOneToMany_3`. -/
def init_CompactOneToMany_3 (initialLefts : Int) (initialMappingCapacity : Int) (includeCounts : Bool) : JM Bi Unit := do
  Bi.onMappings (Gen.KeyIndexedSet.init1 KeyTypes.longHash KeyTypes.longEq initialMappingCapacity)
  Bi.onSide .left (Side.init initialLefts initialMappingCapacity includeCounts)
  Mapping.init getRightAt .left
  pure ()

/-- CompactManyToMany.java:20-28 `init_CompactManyToMany_4`. -/
def init4 (initialLefts : Int) (initialRights : Int) (initialMappingCapacity : Int) (includeCounts : Bool) : JM Bi Unit := do
  init_CompactOneToMany_3 initialLefts initialMappingCapacity includeCounts
  Bi.onSide .right (Side.init initialRights initialMappingCapacity includeCounts)
  Mapping.init getLeftAt .right
  pure ()

/-- CompactManyToMany.java:16-18 `init_CompactManyToMany_0`. -/
def init0  : JM Bi Unit := do
  init4 16 16 16 true
  pure ()

/-- CompactOneToMany.java:23-25 `init_CompactOneToMany_0`. -/
def init_CompactOneToMany_0  : JM Bi Unit := do
  init_CompactOneToMany_3 16 16 true
  pure ()

end ManyToMany

/-- The lookup functions the constructors give to the mappings of ManyToMany. -/
def ManyToMany.lookup : Dir → Int → JM Bi Int
  | .left => ManyToMany.getRightAt
  | .right => ManyToMany.getLeftAt
end Verif.Gen.Pairs

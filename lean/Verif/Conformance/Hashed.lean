import Verif.Conformance.Containers
import Verif.Link.Bi7
/-!
KeyValueIndexedMapTest.ftl, KeyIndexedSetTest.ftl and the two tests of `bi` on the generated code.
**These are tests, not proofs**; see `Conformance/Containers.lean`.
-/
namespace Verif.Conformance
open Verif Verif.Index Verif.Link.SetL

deriving instance DecidableEq for Except

/-! ### KeyValueIndexedMapTest.ftl, `new IntIntIndexedMap(16)` (load factor 3/4) -/

/-- `new IntIntIndexedMap(n)`: IntType's hash is the key, its equality is `==`. -/
def newMap (n : Int) : Index Int Int :=
  (Gen.KeyValueIndexedMap.init2 (fun k : Int => BitVec.ofInt 32 k) (fun a b => a == b) n (3, 4) rawIndex).state

def mapOuts (s : Index Int Int) (ops : List (Op Int Int)) : List (Except Err (Out Int Int)) :=
  (runM (Link.Map.step 200) s ops).1
def mapAfter (s : Index Int Int) (ops : List (Op Int Int)) : Index Int Int := (runM (Link.Map.step 200) s ops).2

/-- `it = map.iterator(); while (it.next()) seen.add(it.currentEntry())`, at most `n` entries -/
def entriesByIterator (n : Nat) (s : Index Int Int) : List Int :=
  (runM (Link.Map.useStep 200) ⟨s, exampleIter⟩ (.iterator :: List.replicate (n + 1) .next)).1.filterMap fun
    | .ok (.int e) => some e
    | _ => none

/-- KeyValueIndexedMapTest.ftl:138-166 `validate`: the size, and every entry seen by `forEachEntry` finds itself
and holds an expected pair; the iterator and `forEach` see the same. -/
def valid (s : Index Int Int) (expected : List (Int × Int)) : Bool :=
  match mapOuts s [.size, .forEachEntry, .forEach] with
  | [.ok (.int n), .ok (.ints es), .ok (.keys ks)] =>
    n == (expected.length : Int) && es.length == expected.length && ks.length == expected.length &&
    expected.all (fun p => ks.contains p.1) &&
    es.all (fun e => match mapOuts s [.getKeyAt e, .getValueAt e] with
      | [.ok (.key k), .ok (.val v)] => expected.contains (k, v) && (mapOuts s [.lookupEntry k] == [.ok (.int e)])
      | _ => false) &&
    entriesByIterator (expected.length + 1) s == es
  | _ => false

/-- pairs `(key, 2 * key)` -/
def doubles (a b : Nat) : List (Int × Int) := (range a b).map fun k => (k, 2 * k)
def puts (l : List (Int × Int)) : List (Op Int Int) := l.map fun p => .put p.1 p.2
def ints (l : List Int) : List (Except Err (Out Int Int)) := l.map fun i => .ok (.int i)

/-- :31-37 `shouldUseInitializeToDefaultValueWhenNewKey` -/
example : mapOuts (newMap 16) [.putValueAt 0 1, .add 2, .getValueAt 0] = [.ok .unit, .ok (.int 0), .ok (.val 0)] := by
  decide +kernel
/-- :39-44 `shouldUseCurrentValueWhenAddingExistingKey` -/
example : mapOuts (newMap 16) [.put 2 1, .add 2, .getValueAt 0] = [.ok (.int 0), .ok (.int 0), .ok (.val 1)] := by
  decide +kernel
/-- :46-51 `shouldAllocateEntriesInOrder` -/
example : mapOuts (newMap 16) [.put 30 4, .put 31 5, .put 32 6] = ints [0, 1, 2] ∧
    valid (mapAfter (newMap 16) [.put 30 4, .put 31 5, .put 32 6]) [(30, 4), (31, 5), (32, 6)] = true := by
  decide +kernel
/-- :53-58 `shouldReturnEntryWhenRemoving` -/
example : mapOuts (newMap 16) (puts (doubles 30 33) ++ [.remove 31, .remove 32]) = ints [0, 1, 2, 1, 2] ∧
    valid (mapAfter (newMap 16) (puts (doubles 30 33) ++ [.remove 31, .remove 32])) [(30, 60)] = true := by
  decide +kernel
/-- :60-68 `shouldUseFreeList` -/
example : mapOuts (newMap 16) (puts (doubles 30 40) ++ [.remove 35, .remove 37, .put 90 1, .put 91 2, .put 92 3]) =
      ints ([0, 1, 2, 3, 4, 5, 6, 7, 8, 9] ++ [5, 7, 7, 5, 10]) ∧
    valid (mapAfter (newMap 16) (puts (doubles 30 40) ++ [.remove 35, .remove 37, .put 90 1, .put 91 2, .put 92 3]))
      (doubles 30 35 ++ doubles 36 37 ++ doubles 38 40 ++ [(90, 1), (91, 2), (92, 3)]) = true := by decide +kernel
/-- :70-73 `shouldGrow` (here from 0 to 40, three growths; the original goes to 64) -/
example : valid (mapAfter (newMap 16) (puts (doubles 0 40))) (doubles 0 40) = true := by decide +kernel
/-- :75-91 `shouldNotUseReservedEntries` -/
example : mapOuts (newMap 16) (puts (doubles 30 34) ++ [.removeAtAndReserve 2, .removeAtAndReserve 1, .put 45 55,
        .put 46 56, .freeReservedEntry 2, .freeReservedEntry 1, .put 47 57, .put 48 58]) =
      ints [0, 1, 2, 3] ++ [.ok .unit, .ok .unit] ++ ints [4, 5] ++ [.ok .unit, .ok .unit] ++ ints [1, 2] ∧
    valid (mapAfter (newMap 16) (puts (doubles 30 34) ++ [.removeAtAndReserve 2, .removeAtAndReserve 1, .put 45 55,
        .put 46 56, .freeReservedEntry 2, .freeReservedEntry 1, .put 47 57, .put 48 58]))
      [(30, 60), (33, 66), (45, 55), (46, 56), (47, 57), (48, 58)] = true := by decide +kernel
/-- :93-102 `shouldCopyFromLargerSource` (here 40 keys instead of 64) -/
example : valid (Gen.KeyValueIndexedMap.copyFrom (mapAfter (newMap 16) (puts (doubles 0 40))) (newMap 2)).state
    (doubles 0 40) = true := by decide +kernel
/-- :104-113 `shouldCopyFromSmallerSource` -/
example : valid (Gen.KeyValueIndexedMap.copyFrom (mapAfter (newMap 16) (puts (doubles 0 8))) (newMap 256)).state
    (doubles 0 8) = true := by decide +kernel
/-- :117-123 `shouldClear` -/
example : valid (mapAfter (newMap 16) (puts (doubles 0 40) ++ [.clear])) [] = true := by decide +kernel

/-! ### KeyIndexedSetTest.ftl, `new IntIndexedSet(16)` -/

def newSet (n : Int) : Index Int Int :=
  (Gen.KeyIndexedSet.init2 (fun k : Int => BitVec.ofInt 32 k) (fun a b => a == b) n (3, 4) rawIndex).state
def setOuts (s : Index Int Int) (ops : List (SetOp Int)) : List (Except Err (Out Int Int)) :=
  (runM (Link.SetL.step 200) s ops).1
def setAfter (s : Index Int Int) (ops : List (SetOp Int)) : Index Int Int := (runM (Link.SetL.step 200) s ops).2

def setEntriesByIterator (n : Nat) (s : Index Int Int) : List Int :=
  (runM (Link.SetL.useStep 200) (⟨s, exampleIter⟩ : Iterating Int Int)
      (.iterator :: List.replicate (n + 1) .next)).1.filterMap fun
    | .ok (.int e) => some e
    | _ => none

/-- KeyIndexedSetTest.ftl:121-145 `validate` -/
def validSet (s : Index Int Int) (expected : List Int) : Bool :=
  match setOuts s [.size, .forEachEntry, .forEach] with
  | [.ok (.int n), .ok (.ints es), .ok (.keys ks)] =>
    n == (expected.length : Int) && es.length == expected.length && ks.length == expected.length &&
    expected.all (fun k => ks.contains k) &&
    es.all (fun e => match setOuts s [.getKeyAt e] with
      | [.ok (.key k)] => expected.contains k && (setOuts s [.lookupEntry k] == [.ok (.int e)])
      | _ => false) &&
    setEntriesByIterator (expected.length + 1) s == es
  | _ => false

def adds (l : List Int) : List (SetOp Int) := l.map .add

/-- :30-35 `shouldAllocateEntriesInOrder` -/
example : setOuts (newSet 16) (adds [30, 31, 32]) = ints [0, 1, 2] ∧
    validSet (setAfter (newSet 16) (adds [30, 31, 32])) [30, 31, 32] = true := by decide +kernel
/-- :37-42 `shouldReturnEntryWhenRemoving` -/
example : setOuts (newSet 16) (adds [30, 31, 32] ++ [.remove 31, .remove 32]) = ints [0, 1, 2, 1, 2] ∧
    validSet (setAfter (newSet 16) (adds [30, 31, 32] ++ [.remove 31, .remove 32])) [30] = true := by decide +kernel
/-- :44-52 `shouldUseFreeList` -/
example : setOuts (newSet 16) (adds (range 30 40) ++ [.remove 35, .remove 37, .add 90, .add 91, .add 92]) =
      ints ([0, 1, 2, 3, 4, 5, 6, 7, 8, 9] ++ [5, 7, 7, 5, 10]) := by decide +kernel
/-- :54-57 `shouldGrow` (to 40 here) -/
example : validSet (setAfter (newSet 16) (adds (range 0 40))) (range 0 40) = true := by decide +kernel
/-- :59-75 `shouldNotUseReservedEntries` -/
example : setOuts (newSet 16) (adds (range 30 34) ++ [.removeAtAndReserve 2, .removeAtAndReserve 1, .add 45,
        .add 46, .freeReservedEntry 2, .freeReservedEntry 1, .add 47, .add 48]) =
      ints [0, 1, 2, 3] ++ [.ok .unit, .ok .unit] ++ ints [4, 5] ++ [.ok .unit, .ok .unit] ++ ints [1, 2] ∧
    validSet (setAfter (newSet 16) (adds (range 30 34) ++ [.removeAtAndReserve 2, .removeAtAndReserve 1, .add 45,
        .add 46, .freeReservedEntry 2, .freeReservedEntry 1, .add 47, .add 48])) [30, 33, 45, 46, 47, 48] = true := by
  decide +kernel
/-- :77-97, the two copies, and :101-107 `shouldClear` -/
example : validSet (Gen.KeyIndexedSet.copyFrom (setAfter (newSet 16) (adds (range 0 40))) (newSet 2)).state
    (range 0 40) = true := by decide +kernel
example : validSet (Gen.KeyIndexedSet.copyFrom (setAfter (newSet 16) (adds (range 0 8))) (newSet 256)).state
    (range 0 8) = true := by decide +kernel
example : validSet (setAfter (newSet 16) (adds (range 0 40) ++ [.clear])) [] = true := by decide +kernel

/-! ### CompactManyToManyTest.java, `new CompactManyToMany(5, 5, 5, true)`, and CompactOneToManyTest.java,
`new CompactOneToMany(5, 5, true)` -/
section bi
open Verif.BiSpec

def m2m (ops : List Bi.Op) : List (Except Err Bi.Out) := Link.BiL.results true 300 5 5 5 true ops
def o2m (ops : List Bi.Op) : List (Except Err Bi.Out) := Link.BiL.results false 300 5 5 5 true ops
def last (l : List (Except Err Bi.Out)) : Option (Except Err Bi.Out) := l.getLast?

/-- CompactManyToManyTest.java:20-36, the three growth tests (to 30 here instead of 100) -/
example : last (m2m ((range 0 30).map (.put 1 ·) ++ [.size])) = some (.ok (.int 30)) := by decide +kernel
example : last (m2m ((range 0 30).map (.put · 0) ++ [.size])) = some (.ok (.int 30)) := by decide +kernel
example : last (m2m ((range 0 30).map (.put 0 ·) ++ [.size])) = some (.ok (.int 30)) := by decide +kernel
/-- :38-52 `forEachValue` of a left and of a right -/
example : last (m2m ((range 0 5).map (.put 2 ·) ++ [.withKey .left 2, .forEachOf .left .value])) =
    some (.ok (.ints [4, 3, 2, 1, 0])) := by decide +kernel
example : last (m2m ((range 0 5).map (.put · 2) ++ [.withKey .right 2, .forEachOf .right .value])) =
    some (.ok (.ints [4, 3, 2, 1, 0])) := by decide +kernel
/-- :54-76 the same with iterators -/
example : (m2m ((range 0 5).map (.put 2 ·) ++ [.withKey .left 2, .iterator .left .value] ++
      (List.replicate 5 [.hasNext .left .value, .next .left .value]).flatten ++ [.hasNext .left .value])).drop 7 =
    (([4, 3, 2, 1, 0] : List Int).flatMap fun i => [.ok (.bool true), .ok (.int i)]) ++ [.ok (.bool false)] := by
  decide +kernel
example : (m2m ((range 0 5).map (.put · 2) ++ [.withKey .right 2, .iterator .right .value] ++
      (List.replicate 5 [.hasNext .right .value, .next .right .value]).flatten ++ [.hasNext .right .value])).drop 7 =
    (([4, 3, 2, 1, 0] : List Int).flatMap fun i => [.ok (.bool true), .ok (.int i)]) ++ [.ok (.bool false)] := by
  decide +kernel
/-- :78-93 `shouldRemoveMapping` -/
example : (m2m ((range 0 5).map (.put 2 ·) ++ ([3, 4, 0, 2, 1] : List Int).flatMap fun r =>
      [.remove 2 r, .withKey .left 2, .forEachOf .left .value])).drop 5 =
    ([(3, [4, 2, 1, 0]), (4, [2, 1, 0]), (0, [2, 1]), (2, [1]), (1, [])] : List (Int × List Int)).flatMap fun p =>
      [.ok (.int p.1), .ok .unit, .ok (.ints p.2)] := by decide +kernel
/-- :95-98 `shouldReturnNegativeOneWhenUnmappingUnknown` -/
example : m2m [.remove 28 26] = [.ok (.int (-1))] := by decide +kernel
/-- :101-108 `setUp` of `RemoveAndReserveTests` and :110-119 `shouldRemoveEntryFromLists` -/
def setUp : List Bi.Op := (range 0 5).map (.put 2 ·) ++ (range 0 5).map (.put · 3) ++ [.lookupEntry 2 3]
example : (m2m (setUp ++ [.removeAtAndReserve 3, .withKey .left 2, .forEachOf .left .value, .withKey .right 3,
      .forEachOf .right .value])).drop 10 =
    [.ok (.int 3), .ok .unit, .ok .unit, .ok (.ints [4, 2, 1, 0]), .ok .unit, .ok (.ints [4, 3, 1, 0])] := by
  decide +kernel
/-- :121-126 `shouldNotAddEntryToFreeListBeforeExplicitlyDone` -/
example : (m2m (setUp ++ [.put 2 7, .freeReservedEntry 3, .put 2 8])).drop 10 =
    [.ok (.int 3), .ok (.int 9), .ok .unit, .ok (.int 3)] := by decide +kernel

/-- CompactOneToManyTest.java:20-30 (to 30 here) -/
example : last (o2m ((range 0 30).map (.put 1 ·) ++ [.size])) = some (.ok (.int 30)) := by decide +kernel
/-- :32-49 -/
example : last (o2m ((range 0 5).map (.put 2 ·) ++ [.withKey .left 2, .forEachOf .left .value])) =
    some (.ok (.ints [4, 3, 2, 1, 0])) := by decide +kernel
/-- :51-68 `shouldRemoveMapping` -/
example : (o2m ((range 0 5).map (.put 2 ·) ++ ([3, 4, 0, 2, 1] : List Int).flatMap fun r =>
      [.remove 2 r, .contains 2 r, .withKey .left 2, .forEachOf .left .value])).drop 5 =
    ([(3, [4, 2, 1, 0]), (4, [2, 1, 0]), (0, [2, 1]), (2, [1]), (1, [])] : List (Int × List Int)).flatMap fun p =>
      [.ok (.int p.1), .ok (.bool false), .ok .unit, .ok (.ints p.2)] := by decide +kernel
/-- :70-73 -/
example : o2m [.remove 28 26] = [.ok (.int (-1))] := by decide +kernel
/-- :75-99 `RemoveAndReserveTests` -/
example : (o2m ((range 0 5).map (.put 2 ·) ++ [.lookupEntry 2 3, .removeAtAndReserve 3, .withKey .left 2,
      .forEachOf .left .value])).drop 5 = [.ok (.int 3), .ok .unit, .ok .unit, .ok (.ints [4, 2, 1, 0])] := by
  decide +kernel
example : (o2m ((range 0 5).map (.put 2 ·) ++ [.put 2 7, .freeReservedEntry 3, .put 2 8])).drop 5 =
    [.ok (.int 5), .ok .unit, .ok (.int 3)] := by decide +kernel
end bi

end Verif.Conformance

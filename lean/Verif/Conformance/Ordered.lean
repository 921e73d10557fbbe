import Verif.Conformance.Containers
import Verif.Link.Heap
import Verif.Link.SortC
import Verif.Link.ArraysProps
import Verif.Gen.NumUtils
/-!
KeyValueHeapTest.ftl, KeyValueCompanionSortTest.ftl, KeyArrayTest.ftl and NumUtilsTest.java on the generated code.
**These are tests, not proofs**; see `Conformance/Containers.lean`.
-/
namespace Verif.Conformance
open Verif

/-! ### KeyValueHeapTest.ftl, `new IntIntHeap(4)` -/
section heap
open Verif.Heap

def newHeap : Heap Int Int :=
  (Gen.KeyValueHeap.init1 asc (0 : Int) (0 : Int) 4
    { tree := Arr.create 0 0, inverse := Arr.create 0 0, freeCount := 0, size := 0, keys := Arr.create 0 0, comp := asc,
      modCount := 0, defaultKey := 0, values := Arr.create 0 0, defaultValue := 0 }).state

def heapOuts (ops : List (Op Int Int)) : List (Except Err (Out Int Int)) := (runM (Link.HeapL.step 200) newHeap ops).1
def heapAfter (ops : List (Op Int Int)) : Heap Int Int := (runM (Link.HeapL.step 200) newHeap ops).2
def keyIds : List Int := [3, 1, 4, 5, 8, 9, 2, 6, 0, 7]
def entries (l : List Int) : List (Except Err (Out Int Int)) := l.map fun i => .ok (.int i)

/-- `peek`, read the key and the value, `removeAt`: `n` times. -/
def drain : Nat → Heap Int Int → List (Int × Int)
  | 0, _ => []
  | n + 1, s =>
    match Gen.KeyValueHeap.peek s with
    | .ok e _ => (match Gen.KeyValueHeap.getKeyAt e s, Gen.KeyValueHeap.getValueAt e s with
      | .ok k _, .ok v _ => (k, v) :: drain n (Gen.KeyValueHeap.removeAt 200 e s).state
      | _, _ => [])
    | .err _ _ => []

/-- :31-36 `setUp`, :38-45 `shouldReportEmpty` -/
example : heapOuts [.getCapacity, .isEmpty, .insertKV 1 1, .isEmpty, .removeAt 0, .isEmpty] =
    [.ok (.int 4), .ok (.bool true), .ok (.int 0), .ok (.bool false), .ok .unit, .ok (.bool true)] := by decide +kernel
/-- :47-55 and :143-151, a null comparator -/
example : heapOuts [.setComparator none] = [.error .nullPointer] := by decide +kernel
/-- :57-63 `shouldAllocateEntriesInOrder` -/
example : heapOuts (keyIds.map fun i => .insertKV i (3 * i)) = entries (range 0 10) := by decide +kernel
/-- :65-74 `shouldAllocateEntriesFromFreeList`: key 0 is in entry 8 -/
example : (heapOuts ((keyIds.map fun i => .insertKV i (3 * i)) ++ [.peek, .removeAt 8, .insertKV 37 99])).drop 10 =
    [.ok (.int 8), .ok .unit, .ok (.int 8)] := by decide +kernel
/-- :76-80 `shouldGrow` -/
example : (heapOuts ((range 0 60).map (fun i => .insertKV i (2 * i)) ++ [.getCapacity])).drop 60 = [.ok (.int 64)] := by
  decide +kernel
/-- :82-94 `shouldMaintainKeyValueMapping` -/
example : (heapOuts ((keyIds.map fun i => .insertKV i (3 * i)) ++
      (range 0 10).flatMap fun e => [.getKeyAt e, .getValueAt e])).drop 10 =
    keyIds.flatMap fun i => [.ok (.key i), .ok (.val (3 * i))] := by decide +kernel
/-- :96-102 `shouldFindFirstEntryForKey` -/
example : (heapOuts (([3, 3, 3, 3, 3] : List Int).map (fun i => .insertKV i 0) ++ [.insertKV 5 1] ++
      ([2, 2, 6, 6, 4] : List Int).map (fun i => .insertKV i 0) ++ [.getFirstEntry 5])).drop 11 = [.ok (.int 5)] := by
  decide +kernel
/-- :107-118 `shouldThrowWhenInvalidRemove`: 0 "does not exist", -1 and 99 "value must be between" -/
example : heapOuts [.removeAt 0, .removeAt (-1), .removeAt 99] =
    [.error .invalidEntry, .error .rangeCheck, .error .rangeCheck] := by decide +kernel
/-- :120-128 `shouldThrowWhenPeekingOnEmpty` -/
example : heapOuts [.peek] = [.error .runtime] := by decide +kernel
/-- :130-138 `shouldRepositionKeyWhenReset`: key 5 is in entry 3 -/
example : (heapOuts ((keyIds.filter (· ≠ 0)).map (fun i => .insertKV i (2 * i)) ++ [.getFirstEntry 5, .resetKey 3 0,
      .peek, .getKeyAt 3, .getValueAt 3])).drop 9 =
    [.ok (.int 3), .ok .unit, .ok (.int 3), .ok (.key 0), .ok (.val 10)] := by decide +kernel
/-- :153-161 `shouldBeNoOpWhenSettingComparatorWithItself` -/
example : (heapAfter ((keyIds.map fun i => .insertKV i (2 * i)) ++ [.setComparator (some asc)])).modCount =
    (heapAfter (keyIds.map fun i => .insertKV i (2 * i))).modCount := by decide +kernel
/-- :163-174 `shouldMaintainOrder` -/
example : drain 11 (heapAfter (keyIds.map fun i => .insertKV i (2 * i))) = (range 0 10).map fun i => (i, 2 * i) := by
  decide +kernel
/-- :176-199 `shouldMaintainOrderWithDuplicates` -/
example : (drain 28 (heapAfter ((keyIds.filter (· ≠ 0)).flatMap fun i =>
      [.insertKV i i, .insertKV i (2 * i), .insertKV i (3 * i)]))).map Prod.fst =
    (range 1 10).flatMap fun i => [i, i, i] := by decide +kernel
/-- :201-213 `shouldReverseOrderWhenHeapHasEntries` -/
example : drain 11 (heapAfter ((keyIds.map fun i => .insertKV i (2 * i)) ++ [.setComparator (some desc)])) =
    (range 0 10).reverse.map fun i => (i, 2 * i) := by decide +kernel
/-- :218-256 `DefaultKeyTests` (80 becomes 20 here) -/
example : heapOuts ([.getDefaultKey, .getKeyAt 0, .getKeyAt 3, .setDefaultKey 3, .getKeyAt 0, .getKeyAt 3]) =
    [.ok (.key 0), .ok (.key 0), .ok (.key 0), .ok .unit, .ok (.key 3), .ok (.key 3)] := by decide +kernel
example : (heapOuts ([.setDefaultKey 3] ++ (range 0 33).map (fun i => .insertKV i i) ++
      [.getKeyAt 32, .getKeyAt 33, .getKeyAt 63, .getCapacity])).drop 34 =
    [.ok (.key 32), .ok (.key 3), .ok (.key 3), .ok (.int 64)] := by decide +kernel
example : (heapOuts ([.setDefaultKey 3] ++ (range 0 20).map (fun i => .insertKV i i) ++
      [.clear, .getKeyAt 0, .getKeyAt 19, .getKeyAt 31])).drop 21 =
    [.ok .unit, .ok (.key 3), .ok (.key 3), .ok (.key 3)] := by decide +kernel
example : heapOuts [.insertKV 1 1, .setDefaultKey 3] = [.ok (.int 0), .error .unsupported] := by decide +kernel
/-- :269-316 `DefaultValueTests` -/
example : heapOuts ([.getDefaultValue, .getValueAt 0, .getValueAt 3, .setDefaultValue 3, .getValueAt 0, .getValueAt 3]) =
    [.ok (.val 0), .ok (.val 0), .ok (.val 0), .ok .unit, .ok (.val 3), .ok (.val 3)] := by decide +kernel
example : (heapOuts ([.setDefaultValue 3] ++ (range 0 33).map (fun i => .insertKV i i) ++
      [.getValueAt 32, .getValueAt 33, .getValueAt 63])).drop 34 =
    [.ok (.val 32), .ok (.val 3), .ok (.val 3)] := by decide +kernel
example : (heapOuts ([.setDefaultValue 3] ++ (range 0 20).map (fun i => .insertKV i i) ++
      [.clear, .getValueAt 0, .getValueAt 19, .getValueAt 31])).drop 21 =
    [.ok .unit, .ok (.val 3), .ok (.val 3), .ok (.val 3)] := by decide +kernel
example : heapOuts [.insertKV 1 1, .setDefaultValue 3] = [.ok (.int 0), .error .runtime] := by decide +kernel
end heap

/-! ### KeyValueCompanionSortTest.ftl -/
section sort
open Verif.SortMem

/-- :141-153 `produceArrays(size)`: for a shuffle of the indexes, `primary[i] = size - index + 1` and
`secondary[i] = index + 1`.  `java.util.Random` is not modelled; another mixed order is used. -/
def index (n i : Nat) : Nat := (i * 50 + 13) % n
def primary (n : Nat) : Arr Int := ⟨n, fun i => (n : Int) - index n i.toNat + 1⟩
def secondary (n : Nat) : Arr Int := ⟨n, fun i => (index n i.toNat : Int) + 1⟩
def up (x y : Int) : JM Unit Int := pure (if x < y then -1 else if x = y then 0 else 1)
def down (x y : Int) : JM Unit Int := up y x
def sorted (cmp : Int → Int → JM Unit Int) (n : Nat) (p : Arr Int) : List Int × List Int :=
  let r := (Gen.KeyValueCompanionSort.sort two (onTwo cmp) (n + 5) (n + 5) 0 n ⟨⟨p, secondary n⟩, ()⟩).state.arrs
  (r.pri.toList, r.sec.toList)

/-- :29-39, seven elements -/
example : sorted up 7 (primary 7) = (range 2 9, (range 1 8).reverse) := by decide +kernel
example : sorted down 7 (primary 7) = ((range 2 9).reverse, range 1 8) := by decide +kernel
/-- :41-51, ninety-nine elements -/
example : sorted up 99 (primary 99) = (range 2 101, (range 1 100).reverse) := by decide +kernel
example : sorted down 99 (primary 99) = ((range 2 101).reverse, range 1 100) := by decide +kernel
/-- :53-75, with duplicates -/
def dups (n : Nat) : Arr Int := ⟨n, fun i => (((n : Int) - index n i.toNat + 1) % 7)⟩
def ordered (c : Int → Int → Bool) : List Int → Bool
  | a :: b :: l => c a b && ordered c (b :: l)
  | _ => true
example : ordered (fun a b => a ≤ b) (sorted up 99 (dups 99)).1 = true ∧
    (sorted up 99 (dups 99)).1.length = 99 := by decide +kernel
example : ordered (fun a b => b ≤ a) (sorted down 99 (dups 99)).1 = true := by decide +kernel
/-- :77-88 `shouldThrowWhenInvalidFromTo`: arrays of 5 and 4, (-1,2), (3,3), (5,2), (2,-1), (1,4) -/
example : ([(-1, 2), (3, 3), (5, 2), (2, -1), (1, 4)] : List (Int × Int)).map (fun p =>
      (Gen.KeyValueCompanionSort.sort two (onTwo up) 50 50 p.1 p.2
        ⟨⟨(⟨5, fun _ => 0⟩ : Arr Int), (⟨4, fun _ => 0⟩ : Arr Int)⟩, ()⟩).out) =
    List.replicate 5 (.error .illegalArgument) := by decide +kernel
end sort

/-! ### KeyArrayTest.ftl, `IntArray.create(5)` and the value 7 -/
section arrays
open Verif.Gen

def arr5 : Arr Int := Arr.create 5 0
def contents (r : Res Unit (Arr Int)) : Except Err (List Int) := match r with
  | .ok a _ => .ok a.toList
  | .err e _ => .error e
def isEq (a b : Int) : Bool := a == b

example : contents (KeyArray.create1 0 isEq 5 ()) = .ok [0, 0, 0, 0, 0] := by decide +kernel
example : contents (KeyArray.fill2 0 isEq 50 arr5 7 ()) = .ok [7, 7, 7, 7, 7] := by decide +kernel
example : contents (KeyArray.fill4 0 isEq 50 arr5 7 2 2 ()) = .ok [0, 0, 7, 7, 0] := by decide +kernel
def marked : Arr Int := ((arr5.set 0 7).set 2 7).set 4 7
/-- `EnsureSizeTests` -/
example : contents (KeyArray.ensureSize2 0 isEq 50 marked 10 ()) = .ok [7, 0, 7, 0, 7, 0, 0, 0, 0, 0] := by decide +kernel
example : contents (KeyArray.ensureSize3 0 isEq 50 arr5 10 7 ()) = .ok [0, 0, 0, 0, 0, 7, 7, 7, 7, 7] := by decide +kernel
example : contents (KeyArray.ensureSize2 0 isEq 50 marked 5 ()) = .ok [7, 0, 7, 0, 7] := by decide +kernel
/-- `EnsureEntryTests` -/
example : contents (KeyArray.ensureEntry2 0 isEq 50 marked 10 ()) =
    .ok ([7, 0, 7, 0, 7] ++ List.replicate 15 0) := by decide +kernel
example : contents (KeyArray.ensureEntry3 0 isEq 50 arr5 10 7 ()) =
    .ok (List.replicate 5 0 ++ List.replicate 15 7) := by decide +kernel
example : contents (KeyArray.ensureEntry2 0 isEq 50 marked 4 ()) = .ok [7, 0, 7, 0, 7] := by decide +kernel
example : contents (KeyArray.ensureEntry2 0 isEq 50 (Arr.create 0 0) 4 ()) = .ok (List.replicate 8 0) := by decide +kernel
end arrays

/-! ### NumUtilsTest.java:13-26 -/
example : ([0, 1, 2, 3, 31002, 45876, 287628762, 973741824] : List Int).map (fun v => (Gen.NumUtils.nextPowerOf2 v ()).out) =
    [.ok 1, .ok 1, .ok 2, .ok 4, .ok 32768, .ok 65536, .ok 536870912, .ok 1073741824] := by decide +kernel

end Verif.Conformance

import Verif.Link.Deque
import Verif.Link.HydraRun
import Verif.Link.Stores
import Verif.Link.IteratorSet
/-!
The unit tests of `/repo/collections/src/test` run on the definitions that `tools/j2l` generates from the
source.  **These are tests, not proofs**: they check that the translator and the reading of Java in
`Verif/Java.lean` and `Verif/Gen/Prelude.lean` agree with what the authors of the library expect of the
running program.  No property in `MANIFEST.json` rests on this file.
-/
namespace Verif.Conformance
open Verif

/-- `IntStream.range(a, b)` -/
def range (a b : Nat) : List Int := (List.range (b - a)).map fun i => Int.ofNat (i + a)

/-! ### KeyDequeTest.ftl, `new IntDeque(3)` -/
section deque
open Verif.Deque

def dequeRun (ops : List (Op Int)) : List (Except Err (Out Int)) :=
  match Gen.KeyDeque.init false (0 : Int) 3 ⟨Arr.create 0 0, 0, 0, 0⟩ with
  | .ok _ s => (runM (Link.Deque.step 60 false 0) s ops).1
  | .err e _ => [.error e]

/-- KeyDequeTest.ftl:21-27 `shouldGrow`, with the helpers in lines 29-57. -/
example : dequeRun ((range 1 3).map .addLast ++ [.size, .removeFirst, .size] ++ (range 3 13).map .addLast ++
      [.size] ++ (List.range 11).flatMap fun _ => [.removeFirst, .size]) =
    [.ok .unit, .ok .unit, .ok (.int 2), .ok (.val 1), .ok (.int 1)] ++ List.replicate 10 (.ok .unit) ++
      [.ok (.int 11)] ++ (range 0 11).flatMap fun i => [.ok (.val (i + 2)), .ok (.int (10 - i))] := by
  decide +kernel
end deque

/-! ### KeyHydraDequeTest.ftl, `new IntHydraDeque(2, 3)` -/
section hydra
open Verif.Hydra

def hydraRun (ops : List (Op Int)) : Option (List (Except Err (Out Int))) :=
  (Link.HydraL.afterRun 200 (0 : Int) 2 3
      { values := Arr.create 0 0, heads := Arr.create 0 0, tails := Arr.create 0 0, count := Arr.create 0 0,
        nexts := Arr.create 0 0, prevs := Arr.create 0 0, freeList := 0, size := 0, maxEntry := 0 } ops).map Prod.fst

/-- KeyHydraDequeTest.ftl:186-202 `addFirst`/`addLast`. -/
def addFirst (ids : List Int) (a b : Nat) : List (Op Int) :=
  (range a b).flatMap fun v => ids.map fun i => .addFirst i (i * v)
def addLast (ids : List Int) (a b : Nat) : List (Op Int) :=
  (range a b).flatMap fun v => ids.map fun i => .addLast i (i * v)
/-- the results of calls that are looked at: the last `n` -/
def tail (n : Nat) (r : Option (List (Except Err (Out Int)))) : Option (List (Except Err (Out Int))) :=
  r.map fun l => l.drop (l.length - n)

/-- KeyHydraDequeTest.ftl:26-29 and 61-64 `shouldGrowValues`. -/
example : tail 2 (hydraRun (addFirst [5] 1 30 ++ [.sizeOf 5, .iterate 5])) =
    some [.ok (.int 29), .ok (.seq ((range 1 30).reverse.map (5 * ·)))] := by decide +kernel
example : tail 2 (hydraRun (addLast [5] 1 30 ++ [.sizeOf 5, .iterate 5])) =
    some [.ok (.int 29), .ok (.seq ((range 1 30).map (5 * ·)))] := by decide +kernel
/-- KeyHydraDequeTest.ftl:31-34 and 66-69 `shouldGrowLists`. -/
example : tail 2 (hydraRun (addFirst [100] 1 30 ++ [.sizeOf 100, .iterate 100])) =
    some [.ok (.int 29), .ok (.seq ((range 1 30).reverse.map (100 * ·)))] := by decide +kernel
example : tail 2 (hydraRun (addLast [100] 1 30 ++ [.sizeOf 100, .iterate 100])) =
    some [.ok (.int 29), .ok (.seq ((range 1 30).map (100 * ·)))] := by decide +kernel
/-- KeyHydraDequeTest.ftl:36-40 and 71-75 `shouldBuildLists`. -/
example : tail 2 (hydraRun (addFirst [1] 1 4 ++ [.iterate 1, .reverseIterate 1])) =
    some [.ok (.seq [3, 2, 1]), .ok (.seq [1, 2, 3])] := by decide +kernel
example : tail 2 (hydraRun (addLast [1] 1 4 ++ [.iterate 1, .reverseIterate 1])) =
    some [.ok (.seq [1, 2, 3]), .ok (.seq [3, 2, 1])] := by decide +kernel
/-- KeyHydraDequeTest.ftl:42-56 and 77-91 `shouldTrackSize`. -/
example : hydraRun [.isEmpty, .size, .addFirst 1 5, .sizeOf 1, .size, .addFirst 1 5, .sizeOf 1, .size,
      .addFirst 2 6, .sizeOf 2, .sizeOf 1, .size] =
    some [.ok (.bool true), .ok (.int 0), .ok (.entry 0), .ok (.int 1), .ok (.int 1), .ok (.entry 1), .ok (.int 2),
      .ok (.int 2), .ok (.entry 2), .ok (.int 1), .ok (.int 2), .ok (.int 3)] := by decide +kernel
example : hydraRun [.isEmpty, .size, .addLast 1 5, .sizeOf 1, .size, .addLast 1 5, .sizeOf 1, .size,
      .addLast 2 6, .sizeOf 2, .sizeOf 1, .size] =
    some [.ok (.bool true), .ok (.int 0), .ok (.entry 0), .ok (.int 1), .ok (.int 1), .ok (.entry 1), .ok (.int 2),
      .ok (.int 2), .ok (.entry 2), .ok (.int 1), .ok (.int 2), .ok (.int 3)] := by decide +kernel

/-- KeyHydraDequeTest.ftl:97-101 `shouldMaintainList`, with 166-173 `validateRemoveFirst`. -/
example : tail 63 (hydraRun (addFirst [1, 2, 3] 1 8 ++ ([1, 2, 3] : List Int).flatMap fun i =>
      (List.range 7).flatMap fun _ => [.removeFirst i, .iterate i, .reverseIterate i])) =
    some (([1, 2, 3] : List Int).flatMap fun i => (List.range 7).flatMap fun n =>
      [.ok (.val (i * (7 - n))), .ok (.seq ((range 1 (7 - n)).reverse.map (i * ·))),
        .ok (.seq ((range 1 (7 - n)).map (i * ·)))]) := by decide +kernel
/-- KeyHydraDequeTest.ftl:119-123 `shouldMaintainList`, with 175-182 `validateRemoveLast`. -/
example : tail 63 (hydraRun (addFirst [1, 2, 3] 1 8 ++ ([1, 2, 3] : List Int).flatMap fun i =>
      (List.range 7).flatMap fun _ => [.removeLast i, .iterate i, .reverseIterate i])) =
    some (([1, 2, 3] : List Int).flatMap fun i => (List.range 7).flatMap fun n =>
      [.ok (.val (i * (n + 1))), .ok (.seq ((range (n + 2) 8).reverse.map (i * ·))),
        .ok (.seq ((range (n + 2) 8).map (i * ·)))]) := by decide +kernel
/-- KeyHydraDequeTest.ftl:103-112 and 125-134 `shouldTrackSize`. -/
example : tail 7 (hydraRun (addFirst [1, 2, 3] 1 8 ++ [.size, .sizeOf 1, .sizeOf 2, .sizeOf 3, .removeFirst 2,
      .sizeOf 2, .size])) =
    some [.ok (.int 21), .ok (.int 7), .ok (.int 7), .ok (.int 7), .ok (.val 14), .ok (.int 6), .ok (.int 20)] := by
  decide +kernel
example : tail 7 (hydraRun (addFirst [1, 2, 3] 1 8 ++ [.size, .sizeOf 1, .sizeOf 2, .sizeOf 3, .removeLast 2,
      .sizeOf 2, .size])) =
    some [.ok (.int 21), .ok (.int 7), .ok (.int 7), .ok (.int 7), .ok (.val 2), .ok (.int 6), .ok (.int 20)] := by
  decide +kernel
/-- KeyHydraDequeTest.ftl:137-147 `shouldUseFreeList`. -/
example : hydraRun ([0, 1, 2, 3].map (fun i : Int => .addLast 1 (3 * i)) ++ List.replicate 4 (.removeFirst 1) ++
      [3, 2, 1, 0].map (fun i : Int => .addLast 1 (4 * i))) =
    some [.ok (.entry 0), .ok (.entry 1), .ok (.entry 2), .ok (.entry 3), .ok (.val 0), .ok (.val 3), .ok (.val 6),
      .ok (.val 9), .ok (.entry 3), .ok (.entry 2), .ok (.entry 1), .ok (.entry 0)] := by decide +kernel
end hydra

/-! ### KeyChunkStoreTest.ftl, `new IntChunkStore(5, 3)` -/
def storeRun (ops : List (ChunkStore.Op Int)) : List (Except Err (Option Int)) × Int × Int :=
  match Gen.KeyChunkStore.init 0 5 3 ⟨0, 0, 0, Arr.create 0 (Arr.create 0 0), 0, 0⟩ with
  | .ok _ s => let r := runM (Link.ChunkStore.step 60 0) s ops; (r.1, r.2.capacity, r.2.chunks.len)
  | .err e _ => ([.error e], 0, 0)

/-- KeyChunkStoreTest.ftl:45-50 `shouldRoundTripValue`; the initial capacity is 8 in two chunks of 4. -/
example : storeRun [.set 3 7, .get 3] = ([.ok none, .ok (some 7)], 8, 2) := by decide +kernel
/-- KeyChunkStoreTest.ftl:52-58 `shouldGrowAtCapacity`. -/
example : (storeRun [.set 8 7, .get 8]).1 = [.ok none, .ok (some 7)] := by decide +kernel
/-- KeyChunkStoreTest.ftl:60-67 `shouldGrowToAccommodateNewIndex`: 6,8; 11,12; 41,44. -/
example : storeRun [.set 6 7, .get 6] = ([.ok none, .ok (some 7)], 8, 2) := by decide +kernel
example : storeRun [.set 11 7, .get 11] = ([.ok none, .ok (some 7)], 12, 3) := by decide +kernel
example : storeRun [.set 41 7, .get 41] = ([.ok none, .ok (some 7)], 44, 11) := by decide +kernel

/-! ### KeyChunkMatrixStoreTest.ftl, `new IntChunkMatrixStore(5, 16, 3)` -/
def matrixRun (ops : List (MatrixStore.Op Int)) : List (Except Err (Option Int)) × Except Err Int × Int :=
  match Gen.KeyChunkMatrixStore.init 0 5 16 3 ⟨0, 0, 0, 0, Arr.create 0 (Arr.create 0 0), 0⟩ with
  | .ok _ s =>
    let r := runM (Link.MatrixStore.step 60 0) s ops
    (r.1, (Gen.KeyChunkMatrixStore.getCapacity 0 r.2).out, r.2.chunks.len)
  | .err e _ => ([.error e], .error e, 0)

/-- KeyChunkMatrixStoreTest.ftl:49-57 `shouldRoundTripValues`. -/
example : (matrixRun [.set 3 1 7, .set 2 2 8, .set 1 0 9, .get 3 1, .get 2 2, .get 1 0]).1 =
    [.ok none, .ok none, .ok none, .ok (some 7), .ok (some 8), .ok (some 9)] := by decide +kernel
/-- KeyChunkMatrixStoreTest.ftl:59-66 `shouldGrowToAccommodateNewIndex`: 6,2,10; 11,3,16; 42,9,48. -/
example : matrixRun [.set 6 2 7, .get 6 2] = ([.ok none, .ok (some 7)], .ok 10, 2) := by decide +kernel
example : matrixRun [.set 11 2 7, .get 11 2] = ([.ok none, .ok (some 7)], .ok 16, 3) := by decide +kernel
example : matrixRun [.set 42 2 7, .get 42 2] = ([.ok none, .ok (some 7)], .ok 48, 9) := by decide +kernel
/-- KeyChunkMatrixStoreTest.ftl:68-78, the two tests on fields out of range. -/
example : (matrixRun [.get 1 (-1), .set 1 (-1) 7, .get 1 3, .set 1 3 7]).1 =
    List.replicate 4 (.error .rangeCheck) := by decide +kernel

end Verif.Conformance

import Verif.Gen.KeyValueHeap
import Verif.Model.Walk
/-!
GENERATED by tools/j2l/translate.py from heap/KeyValueHeap.ftl, BaseKeyHeap.ftl, BaseHeap.java (consumers with a state of their own).  Do not edit: the translator is the only
reading of the Java text here.  Lean/Verif/Link proves that these definitions agree with the model.
-/
set_option linter.unusedVariables false
namespace Verif.Gen.KeyValueHeapWalk
open Verif Verif.Walk

/-- BaseHeap.java:43, the loop. -/
def forEachEntry_loop1 {β : Type} {σ K V : Type} [BEq K] [BEq V] (consumer : (Int → JM (Beside σ (Heap K V)) β)) :
    Nat → (List β) → Int → JM (Beside σ (Heap K V)) (List β)
  | 0, _, _ => JM.throw .diverge
  | n + 1, acc, entry => do
    let s1 ← lift get
    if (decide (entry < s1.size)) = true then do
      let v2 ← lift (KeyValueHeap.isValidEntry entry)
      let acc ← (if v2 = true then do
          let v3 ← consumer entry
          let acc := acc ++ [v3]
          pure acc
        else pure acc)
      let v4 := i32 (entry + 1)
      let entry := v4
      forEachEntry_loop1 consumer n acc entry
    else do
      pure acc

/-- BaseHeap.java:42-48 `forEachEntry`. -/
def forEachEntry {β : Type} {σ K V : Type} [BEq K] [BEq V] (fuel : Nat) (consumer : (Int → JM (Beside σ (Heap K V)) β)) : JM (Beside σ (Heap K V)) (List β) := do
  let acc : List β := []
  let entry := 0
  let acc ← forEachEntry_loop1 consumer fuel acc entry
  pure acc
end Verif.Gen.KeyValueHeapWalk

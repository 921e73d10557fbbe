import Verif.Gen.KeyVector
import Verif.Model.Walk
/-!
GENERATED by tools/j2l/translate.py from vector/KeyVector.ftl (consumers with a state of their own).  Do not edit: the translator is the only
reading of the Java text here.  Lean/Verif/Link proves that these definitions agree with the model.
-/
set_option linter.unusedVariables false
namespace Verif.Gen.KeyVectorWalk
open Verif Verif.Walk

/-- KeyVector.ftl:54, the loop. -/
def forEach_loop1 {β : Type} {σ α : Type} (ref : Bool) (d : α) (consumer : (α → JM (Beside σ (Vec α)) β)) :
    Nat → (List β) → Int → JM (Beside σ (Vec α)) (List β)
  | 0, _, _ => JM.throw .diverge
  | n + 1, acc, i => do
    let s1 ← lift get
    if (decide (i < s1.size)) = true then do
      let v2 ← lift (rd Vec.values i)
      let v3 ← consumer v2
      let acc := acc ++ [v3]
      let v4 := i32 (i + 1)
      let i := v4
      forEach_loop1 ref d consumer n acc i
    else do
      pure acc

/-- KeyVector.ftl:53-57 `forEach`. -/
def forEach {β : Type} {σ α : Type} (ref : Bool) (d : α) (fuel : Nat) (consumer : (α → JM (Beside σ (Vec α)) β)) : JM (Beside σ (Vec α)) (List β) := do
  let acc : List β := []
  let i := 0
  let acc ← forEach_loop1 ref d consumer fuel acc i
  pure acc
end Verif.Gen.KeyVectorWalk

import Verif.Gen.KeyDeque
import Verif.Model.Walk
/-!
GENERATED by tools/j2l/translate.py from queue/KeyDeque.ftl (consumers with a state of their own).  Do not edit: the translator is the only
reading of the Java text here.  Lean/Verif/Link proves that these definitions agree with the model.
-/
set_option linter.unusedVariables false
namespace Verif.Gen.KeyDequeWalk
open Verif Verif.Walk

/-- KeyDeque.ftl:38, the loop. -/
def forEach_loop1 {β : Type} {σ α : Type} (ref : Bool) (d : α) (consumer : (α → JM (Beside σ (Deque α)) β)) :
    Nat → (List β) → Int → JM (Beside σ (Deque α)) ((List β) × Int)
  | 0, _, _ => JM.throw .diverge
  | n + 1, acc, pos => do
    let s2 ← lift get
    if (decide (pos ≠ s2.tail)) = true then do
      let v3 ← lift (rd Deque.values pos)
      let v4 ← consumer v3
      let acc := acc ++ [v4]
      let s5 ← lift get
      let v6 ← lift (KeyDeque.inc ref d pos (s5.values.len : Int))
      let pos := v6
      forEach_loop1 ref d consumer n acc pos
    else do
      pure (acc, pos)

/-- KeyDeque.ftl:36-42 `forEach`. -/
def forEach {β : Type} {σ α : Type} (ref : Bool) (d : α) (fuel : Nat) (consumer : (α → JM (Beside σ (Deque α)) β)) : JM (Beside σ (Deque α)) (List β) := do
  let acc : List β := []
  let s1 ← lift get
  let pos := s1.head
  let (acc, pos) ← forEach_loop1 ref d consumer fuel acc pos
  pure acc
end Verif.Gen.KeyDequeWalk

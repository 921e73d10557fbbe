import Verif.Gen.Prelude
import Verif.Gen.NumUtils
import Verif.Gen.CapacityCalculator
import Verif.Gen.RangeCheckException
import Verif.Gen.InitializationException
import Verif.Model.Vector
/-!
GENERATED by tools/j2l/translate.py from vector/KeyVector.ftl.  Do not edit: the translator is the only
reading of the Java text here.  Lean/Verif/Link proves that these definitions agree with the model.
-/
set_option linter.unusedVariables false
namespace Verif.Gen.KeyVector
open Verif

/-- KeyVector.ftl:31-33 `ensureSize`. -/
def ensureSize {α : Type} (ref : Bool) (d : α) (size : Int) : JM (Vec α) Unit := do
  let s1 ← get
  let v2 ← Verif.ensureSize s1.values size d
  modify fun self => { self with values := v2 }
  pure ()

/-- KeyVector.ftl:36-40 `append`. -/
def append {α : Type} (ref : Bool) (d : α) (value : α) : JM (Vec α) Unit := do
  let s1 ← get
  let v2 ← Verif.ensureEntry s1.values s1.nextPos d
  modify fun self => { self with values := v2 }
  let s3 ← get
  let v4 := s3.nextPos
  modify fun self => { self with nextPos := (i32 (v4 + 1)) }
  wr Vec.values (fun self a => { self with values := a }) v4 value
  let s5 ← get
  let v6 := i32 (s5.size + 1)
  modify fun self => { self with size := v6 }
  pure ()

/-- KeyVector.ftl:47-49 `valueAt`. -/
def valueAt {α : Type} (ref : Bool) (d : α) (index : Int) : JM (Vec α) α := do
  let v1 ← rd Vec.values index
  pure v1

/-- KeyVector.ftl:54, the loop. -/
def forEach_loop1 {β : Type} {α : Type} (ref : Bool) (d : α) (consumer : (α → JM (Vec α) β)) :
    Nat → (List β) → Int → JM (Vec α) (List β)
  | 0, _, _ => JM.throw .diverge
  | n + 1, acc, i => do
    let s1 ← get
    if (decide (i < s1.size)) = true then do
      let v2 ← rd Vec.values i
      let v3 ← consumer v2
      let acc := acc ++ [v3]
      let v4 := i32 (i + 1)
      let i := v4
      forEach_loop1 ref d consumer n acc i
    else do
      pure acc

/-- KeyVector.ftl:53-57 `forEach`. -/
def forEach {β : Type} {α : Type} (ref : Bool) (d : α) (fuel : Nat) (consumer : (α → JM (Vec α) β)) : JM (Vec α) (List β) := do
  let acc : List β := []
  let i := 0
  let acc ← forEach_loop1 ref d consumer fuel acc i
  pure acc

/-- KeyVector.ftl:60-62 `size`. -/
def size {α : Type} (ref : Bool) (d : α) : JM (Vec α) Int := do
  let s1 ← get
  pure s1.size

/-- KeyVector.ftl:65-67 `isEmpty`. -/
def isEmpty {α : Type} (ref : Bool) (d : α) : JM (Vec α) Bool := do
  let s1 ← get
  pure (decide (s1.size = 0))

/-- KeyVector.ftl:74-80 `clear`. -/
def clear {α : Type} (ref : Bool) (d : α) : JM (Vec α) Unit := do
  (if ref = true then do
      let s1 ← get
      let v2 ← fill s1.values d 0 s1.nextPos
      modify fun self => { self with values := v2 }
      pure ()
    else pure ())
  modify fun self => { self with nextPos := 0 }
  modify fun self => { self with size := 0 }
  pure ()

/-- KeyVector.ftl:20-25 `init`. -/
def init {α : Type} (ref : Bool) (d : α) (initialCapacity : Int) : JM (Vec α) Unit := do
  modify fun self => { self with size := 0 }
  modify fun self => { self with nextPos := 0 }
  (if (decide (initialCapacity < 1)) = true then do
      JM.throw .illegalArgument
    else pure ())
  let v1 ← newArr initialCapacity d
  modify fun self => { self with values := v1 }
  pure ()
end Verif.Gen.KeyVector

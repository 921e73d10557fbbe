import Verif.Gen.Prelude
import Verif.Gen.NumUtils
import Verif.Gen.CapacityCalculator
import Verif.Gen.RangeCheckException
import Verif.Gen.InitializationException
import Verif.Model.Deque
/-!
GENERATED by tools/j2l/translate.py from queue/KeyDeque.ftl.  Do not edit: the translator is the only
reading of the Java text here.  Lean/Verif/Link proves that these definitions agree with the model.
-/
set_option linter.unusedVariables false
namespace Verif.Gen.KeyDeque
open Verif

/-- KeyDeque.ftl:152-155 `inc`. -/
def inc {α : Type} (ref : Bool) (d : α) (i : Int) (modulus : Int) : JM (Deque α) Int := do
  let v1 := i32 (i + 1)
  let i := v1
  let i ← (if (decide (v1 ≥ modulus)) = true then do
      let i := 0
      pure i
    else pure i)
  pure i

/-- KeyDeque.ftl:38, the loop. -/
def forEach_loop1 {β : Type} {α : Type} (ref : Bool) (d : α) (consumer : (α → JM (Deque α) β)) :
    Nat → (List β) → Int → JM (Deque α) ((List β) × Int)
  | 0, _, _ => JM.throw .diverge
  | n + 1, acc, pos => do
    let s2 ← get
    if (decide (pos ≠ s2.tail)) = true then do
      let v3 ← rd Deque.values pos
      let v4 ← consumer v3
      let acc := acc ++ [v4]
      let s5 ← get
      let v6 ← inc ref d pos (s5.values.len : Int)
      let pos := v6
      forEach_loop1 ref d consumer n acc pos
    else do
      pure (acc, pos)

/-- KeyDeque.ftl:36-42 `forEach`. -/
def forEach {β : Type} {α : Type} (ref : Bool) (d : α) (fuel : Nat) (consumer : (α → JM (Deque α) β)) : JM (Deque α) (List β) := do
  let acc : List β := []
  let s1 ← get
  let pos := s1.head
  let (acc, pos) ← forEach_loop1 ref d consumer fuel acc pos
  pure acc

/-- KeyDeque.ftl:147-150 `dec`. -/
def dec {α : Type} (ref : Bool) (d : α) (i : Int) (modulus : Int) : JM (Deque α) Int := do
  let v1 := i32 (i - 1)
  let i := v1
  let i ← (if (decide (v1 < 0)) = true then do
      let i := (i32 (modulus - 1))
      pure i
    else pure i)
  pure i

/-- KeyDeque.ftl:158-176 `grow`. -/
def grow {α : Type} (ref : Bool) (d : α) : JM (Deque α) Unit := do
  let s1 ← get
  let v2 ← Gen.CapacityCalculator.calculateNewCapacity (s1.values.len : Int) MAX_INT
  let newSize := v2
  let s3 ← get
  (if (decide (newSize = (s3.values.len : Int))) = true then do
      JM.throw .resize
    else pure ())
  let v4 ← newArr newSize d
  let newValues := v4
  let s5 ← get
  let numValuesAtEnd := (i32 ((s5.values.len : Int) - s5.tail))
  let numValuesAtBeg := s5.tail
  let v6 ← arraycopy s5.values s5.tail newValues 0 numValuesAtEnd
  let newValues := v6
  let s7 ← get
  let v8 ← arraycopy s7.values 0 newValues numValuesAtEnd numValuesAtBeg
  let newValues := v8
  modify fun self => { self with head := 0 }
  let s9 ← get
  let v10 := s9.size
  modify fun self => { self with tail := v10 }
  modify fun self => { self with values := newValues }
  pure ()

/-- KeyDeque.ftl:45-51 `addFirst`. -/
def addFirst {α : Type} (ref : Bool) (d : α) (value : α) : JM (Deque α) Unit := do
  let s1 ← get
  let v2 ← dec ref d s1.head (s1.values.len : Int)
  modify fun self => { self with head := v2 }
  wr Deque.values (fun self a => { self with values := a }) v2 value
  let s3 ← get
  let v4 := i32 (s3.size + 1)
  modify fun self => { self with size := v4 }
  let s5 ← get
  (if (decide (s5.head = s5.tail)) = true then do
      grow ref d
      pure ()
    else pure ())
  pure ()

/-- KeyDeque.ftl:54-60 `addLast`. -/
def addLast {α : Type} (ref : Bool) (d : α) (value : α) : JM (Deque α) Unit := do
  let s1 ← get
  wr Deque.values (fun self a => { self with values := a }) s1.tail value
  let s2 ← get
  let v3 := i32 (s2.size + 1)
  modify fun self => { self with size := v3 }
  let s4 ← get
  let v5 := s4.head
  let v6 ← inc ref d s4.tail (s4.values.len : Int)
  modify fun self => { self with tail := v6 }
  (if (decide (v5 = v6)) = true then do
      grow ref d
      pure ()
    else pure ())
  pure ()

/-- KeyDeque.ftl:63-65 `size`. -/
def size {α : Type} (ref : Bool) (d : α) : JM (Deque α) Int := do
  let s1 ← get
  pure s1.size

/-- KeyDeque.ftl:72-81 `removeFirst`. -/
def removeFirst {α : Type} (ref : Bool) (d : α) : JM (Deque α) α := do
  let s1 ← get
  (if (decide (s1.size = 0)) = true then do
      JM.throw .noSuchElement
    else pure ())
  let s2 ← get
  let v3 ← rd Deque.values s2.head
  let value := v3
  wr Deque.values (fun self a => { self with values := a }) s2.head d
  let s4 ← get
  let v5 ← inc ref d s4.head (s4.values.len : Int)
  modify fun self => { self with head := v5 }
  let s6 ← get
  let v7 := i32 (s6.size - 1)
  modify fun self => { self with size := v7 }
  pure value

/-- KeyDeque.ftl:88-97 `removeLast`. -/
def removeLast {α : Type} (ref : Bool) (d : α) : JM (Deque α) α := do
  let s1 ← get
  (if (decide (s1.size = 0)) = true then do
      JM.throw .noSuchElement
    else pure ())
  let s2 ← get
  let v3 ← dec ref d s2.tail (s2.values.len : Int)
  modify fun self => { self with tail := v3 }
  let s4 ← get
  let v5 ← rd Deque.values s4.tail
  let value := v5
  wr Deque.values (fun self a => { self with values := a }) s4.tail d
  let s6 ← get
  let v7 := i32 (s6.size - 1)
  modify fun self => { self with size := v7 }
  pure value

/-- KeyDeque.ftl:104-109 `peekFirst`. -/
def peekFirst {α : Type} (ref : Bool) (d : α) : JM (Deque α) α := do
  let s1 ← get
  (if (decide (s1.size = 0)) = true then do
      JM.throw .noSuchElement
    else pure ())
  let s2 ← get
  let v3 ← rd Deque.values s2.head
  pure v3

/-- KeyDeque.ftl:116-121 `peekLast`. -/
def peekLast {α : Type} (ref : Bool) (d : α) : JM (Deque α) α := do
  let s1 ← get
  (if (decide (s1.size = 0)) = true then do
      JM.throw .noSuchElement
    else pure ())
  let s2 ← get
  let v3 ← dec ref d s2.tail (s2.values.len : Int)
  let v4 ← rd Deque.values v3
  pure v4

/-- KeyDeque.ftl:124-126 `isEmpty`. -/
def isEmpty {α : Type} (ref : Bool) (d : α) : JM (Deque α) Bool := do
  let s1 ← get
  pure (decide (s1.size = 0))

/-- KeyDeque.ftl:129-141 `clear`. -/
def clear {α : Type} (ref : Bool) (d : α) : JM (Deque α) Unit := do
  (if ref = true then do
      let s1 ← get
      (if (decide (s1.head > s1.tail)) = true then do
          let numValuesAtEnd := (i32 ((s1.values.len : Int) - s1.head))
          let v2 ← fill s1.values d s1.head numValuesAtEnd
          modify fun self => { self with values := v2 }
          let s3 ← get
          let v4 ← fill s3.values d 0 s3.tail
          modify fun self => { self with values := v4 }
          pure ()
        else do
          let v5 ← fill s1.values d s1.head (i32 (s1.tail - s1.head))
          modify fun self => { self with values := v5 }
          pure ())
      pure ()
    else pure ())
  modify fun self => { self with tail := 0 }
  modify fun self => { self with head := 0 }
  modify fun self => { self with size := 0 }
  pure ()

/-- KeyDeque.ftl:27-32 `init`. -/
def init {α : Type} (ref : Bool) (d : α) (initialCapacity : Int) : JM (Deque α) Unit := do
  modify fun self => { self with head := 0 }
  modify fun self => { self with tail := 0 }
  modify fun self => { self with size := 0 }
  (if (decide (initialCapacity < 1)) = true then do
      JM.throw .illegalArgument
    else pure ())
  let v1 ← Gen.NumUtils.nextPowerOf2 initialCapacity
  let v2 ← newArr v1 d
  modify fun self => { self with values := v2 }
  pure ()
end Verif.Gen.KeyDeque

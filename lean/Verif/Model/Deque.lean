import Verif.Model.Arrays
/-!
Models `collections/src/main/templates/com/bytefacets/collections/queue/KeyDeque.ftl`
(the generated `IntDeque`, ..., `GenericDeque` classes).
-/
namespace Verif

/-- KeyDeque.ftl:22-25, the fields. -/
structure Deque (α : Type) where
  values : Arr α
  head : Int
  tail : Int
  size : Int

namespace Deque
variable {α : Type}

/-- KeyDeque.ftl:27-32, the constructor.  `d` is the type's DEFAULT, which is what the JVM fills
new arrays with. -/
def new (initialCapacity : Int) (d : α) : Except Err (Deque α) :=
  if initialCapacity < 1 then .error .illegalArgument
  else
    let n := nextPowerOf2 initialCapacity
    if n < 0 then .error .negativeArraySize
    else .ok ⟨Arr.create n d, 0, 0, 0⟩

/-- KeyDeque.ftl:147-150 `dec`. -/
def dec (i modulus : Int) : Int := if i - 1 < 0 then modulus - 1 else i - 1

/-- KeyDeque.ftl:152-155 `inc`. -/
def inc (i modulus : Int) : Int := if i + 1 ≥ modulus then 0 else i + 1

/-- KeyDeque.ftl:158-176 `grow`. -/
def grow (d : α) : JM (Deque α) Unit := do
  let s ← get
  let newSize ← calculateNewCapacity s.values.len MAX_INT
  if newSize = s.values.len then
    JM.throw .resize
  else
    let newValues ← newArr newSize d
    let numValuesAtEnd := s.values.len - s.tail
    let numValuesAtBeg := s.tail
    let newValues ← arraycopy s.values s.tail newValues 0 numValuesAtEnd
    let newValues ← arraycopy s.values 0 newValues numValuesAtEnd numValuesAtBeg
    modify fun t => { t with head := 0, tail := t.size, values := newValues }

/-- KeyDeque.ftl:45-51 `addFirst`. -/
def addFirst (d : α) (value : α) : JM (Deque α) Unit := do
  modify fun t => { t with head := dec t.head t.values.len }
  let s ← get
  wr Deque.values (fun t a => { t with values := a }) s.head value
  modify fun t => { t with size := t.size + 1 }
  let s ← get
  if s.head = s.tail then grow d else pure ()

/-- KeyDeque.ftl:54-60 `addLast`. -/
def addLast (d : α) (value : α) : JM (Deque α) Unit := do
  let s ← get
  wr Deque.values (fun t a => { t with values := a }) s.tail value
  modify fun t => { t with size := t.size + 1 }
  modify fun t => { t with tail := inc t.tail t.values.len }
  let s ← get
  if s.head = s.tail then grow d else pure ()

/-- KeyDeque.ftl:72-81 `removeFirst`. -/
def removeFirst (d : α) : JM (Deque α) α := do
  let s ← get
  if s.size = 0 then
    JM.throw .noSuchElement
  else
    let value ← rd Deque.values s.head
    wr Deque.values (fun t a => { t with values := a }) s.head d
    modify fun t => { t with head := inc t.head t.values.len }
    modify fun t => { t with size := t.size - 1 }
    pure value

/-- KeyDeque.ftl:88-97 `removeLast`. -/
def removeLast (d : α) : JM (Deque α) α := do
  let s ← get
  if s.size = 0 then
    JM.throw .noSuchElement
  else
    modify fun t => { t with tail := dec t.tail t.values.len }
    let s ← get
    let value ← rd Deque.values s.tail
    wr Deque.values (fun t a => { t with values := a }) s.tail d
    modify fun t => { t with size := t.size - 1 }
    pure value

/-- KeyDeque.ftl:104-109 `peekFirst`. -/
def peekFirst : JM (Deque α) α := do
  let s ← get
  if s.size = 0 then JM.throw .noSuchElement
  else rd Deque.values s.head

/-- KeyDeque.ftl:116-121 `peekLast`. -/
def peekLast : JM (Deque α) α := do
  let s ← get
  if s.size = 0 then JM.throw .noSuchElement
  else rd Deque.values (dec s.tail s.values.len)

/-- KeyDeque.ftl:63-65 `size`. -/
def getSize : JM (Deque α) Int := do return (← get).size

/-- KeyDeque.ftl:124-126 `isEmpty`. -/
def isEmpty : JM (Deque α) Bool := do return decide ((← get).size = 0)

/-- KeyDeque.ftl:38-41, the loop of `forEach` from position `pos`, for at most `fuel` iterations;
the result is the list of values handed to the consumer, which is assumed not to modify the
deque. -/
def forEachFrom : Nat → Int → JM (Deque α) (List α)
  | 0, _ => JM.throw .diverge
  | fuel + 1, pos => do
    let s ← get
    if pos = s.tail then pure []
    else
      let v ← rd Deque.values pos
      let rest ← forEachFrom fuel (inc pos s.values.len)
      pure (v :: rest)

/-- KeyDeque.ftl:36-42 `forEach`.  A cyclic walk that has not met `tail` after visiting every
slot never will, so `length + 1` iterations are enough. -/
def forEach : JM (Deque α) (List α) := do
  let s ← get
  forEachFrom (s.values.len + 1) s.head

/-- KeyDeque.ftl:129-141 `clear`; `ref` says whether the element type is a reference type
(`Generic`, `String`), the template's `<#if>`. -/
def clear (ref : Bool) (d : α) : JM (Deque α) Unit := do
  JM.when (ref = true) do
    let s ← get
    if s.head > s.tail then
      let a ← fill s.values d s.head (s.values.len - s.head)
      let a ← fill a d 0 s.tail
      modify fun t => { t with values := a }
    else
      let a ← fill s.values d s.head (s.tail - s.head)
      modify fun t => { t with values := a }
  modify fun t => { t with head := 0, tail := 0, size := 0 }

/-- The public operations. -/
inductive Op (α : Type)
  | addFirst (v : α) | addLast (v : α) | removeFirst | removeLast | peekFirst | peekLast
  | size | isEmpty | forEach | clear

/-- What a call can return. -/
inductive Out (α : Type)
  | unit | val (v : α) | int (n : Int) | bool (b : Bool) | seq (l : List α)

/-- Dispatch of one public call to its model (KeyDeque.ftl:36-141). -/
def step (ref : Bool) (d : α) : Op α → JM (Deque α) (Out α)
  | .addFirst v => do addFirst d v; pure .unit
  | .addLast v => do addLast d v; pure .unit
  | .removeFirst => do return .val (← removeFirst d)
  | .removeLast => do return .val (← removeLast d)
  | .peekFirst => do return .val (← peekFirst)
  | .peekLast => do return .val (← peekLast)
  | .size => do return .int (← getSize)
  | .isEmpty => do return .bool (← isEmpty)
  | .forEach => do return .seq (← forEach)
  | .clear => do clear ref d; pure .unit

end Deque
end Verif

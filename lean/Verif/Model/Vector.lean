import Verif.Model.Arrays
/-!
Models `collections/src/main/templates/com/bytefacets/collections/vector/KeyVector.ftl`.
-/
namespace Verif

/-- KeyVector.ftl:16-18, the fields. -/
structure Vec (α : Type) where
  values : Arr α
  size : Int
  nextPos : Int

namespace Vec
variable {α : Type}

/-- KeyVector.ftl:20-25, the constructor. -/
def new (initialCapacity : Int) (d : α) : Except Err (Vec α) :=
  if initialCapacity < 1 then .error .illegalArgument
  else .ok ⟨Arr.create initialCapacity d, 0, 0⟩

/-- KeyVector.ftl:31-33 `ensureSize`. -/
def ensureSize (d : α) (size : Int) : JM (Vec α) Unit := do
  let s ← get
  let a ← Verif.ensureSize s.values size d
  modify fun t => { t with values := a }

/-- KeyVector.ftl:36-40 `append`. -/
def append (d : α) (value : α) : JM (Vec α) Unit := do
  let s ← get
  let a ← ensureEntry s.values s.nextPos d
  modify fun t => { t with values := a }
  wr Vec.values (fun t a => { t with values := a }) s.nextPos value
  modify fun t => { t with nextPos := t.nextPos + 1 }
  modify fun t => { t with size := t.size + 1 }

/-- KeyVector.ftl:47-49 `valueAt`. -/
def valueAt (index : Int) : JM (Vec α) α := rd Vec.values index

/-- KeyVector.ftl:54-56, the loop of `forEach` with `n` iterations to go from position `i`. -/
def forEachFrom : Nat → Int → JM (Vec α) (List α)
  | 0, _ => pure []
  | n + 1, i => do
    let v ← rd Vec.values i
    let rest ← forEachFrom n (i + 1)
    pure (v :: rest)

/-- KeyVector.ftl:53-57 `forEach` (the consumer is assumed not to modify the vector). -/
def forEach : JM (Vec α) (List α) := do
  let s ← get
  forEachFrom s.size.toNat 0

/-- KeyVector.ftl:60-62 `size`. -/
def getSize : JM (Vec α) Int := do return (← get).size

/-- KeyVector.ftl:65-67 `isEmpty`. -/
def isEmpty : JM (Vec α) Bool := do return decide ((← get).size = 0)

/-- KeyVector.ftl:74-80 `clear`; `ref` is the template's `<#if>` for reference types. -/
def clear (ref : Bool) (d : α) : JM (Vec α) Unit := do
  JM.when (ref = true) do
    let s ← get
    let a ← fill s.values d 0 s.nextPos
    modify fun t => { t with values := a }
  modify fun t => { t with nextPos := 0, size := 0 }

/-- The public operations. -/
inductive Op (α : Type)
  | append (v : α) | ensureSize (n : Int) | valueAt (i : Int) | size | isEmpty | forEach | clear

inductive Out (α : Type)
  | unit | val (v : α) | int (n : Int) | bool (b : Bool) | seq (l : List α)

/-- Dispatch of one public call (KeyVector.ftl:31-80). -/
def step (ref : Bool) (d : α) : Op α → JM (Vec α) (Out α)
  | .append v => do append d v; pure .unit
  | .ensureSize n => do ensureSize d n; pure .unit
  | .valueAt i => do return .val (← valueAt i)
  | .size => do return .int (← getSize)
  | .isEmpty => do return .bool (← isEmpty)
  | .forEach => do return .seq (← forEach)
  | .clear => do clear ref d; pure .unit

end Vec
end Verif

import Verif.Model.NumUtils
/-!
Models `collections/src/main/templates/com/bytefacets/collections/arrays/KeyArray.ftl`
(the generated `IntArray`, `LongArray`, ... classes).
-/
namespace Verif

/-- KeyArray.ftl:144-146, the loop `while(newLength < necessarySize) newLength <<= 1` run for at
most `fuel` iterations; `none` if it has not ended by then. -/
def growLoop (necessarySize : Int) : Nat → Int → Option Int
  | 0, newLength => if newLength < necessarySize then none else some newLength
  | fuel + 1, newLength =>
    if newLength < necessarySize then growLoop necessarySize fuel (shl32 newLength 1)
    else some newLength

/-- KeyArray.ftl:139-148 `grow`.  Doubling 32 times turns any `int` into 0, after which the loop
never changes anything, so 64 iterations decide termination
(`Verif.growLoop_none_forever`). -/
def grow {σ : Type} (necessarySize currentLength : Int) : JM σ Int := ⟨fun s =>
  let newLength := if currentLength = 0 then 1 else currentLength
  match growLoop necessarySize 64 newLength with
  | some r => .ok r s
  | none => .err .diverge s⟩

/-- KeyArray.ftl:80-89 `copyOf`.  The two-argument form is `d := DEFAULT` (what the JVM fills
new cells with). -/
def copyOf {σ α : Type} (source : Arr α) (newLength : Int) (d : α) : JM σ (Arr α) := ⟨fun s =>
  if 0 ≤ newLength then .ok (source.copyOf newLength d) s else .err .negativeArraySize s⟩

/-- KeyArray.ftl:96-114 `ensureSize` (both forms, see `copyOf`). -/
def ensureSize {σ α : Type} (array : Arr α) (size : Int) (d : α) : JM σ (Arr α) := do
  if size > array.len then
    let n ← grow size array.len
    copyOf array n d
  else
    pure array

/-- KeyArray.ftl:121-133 `ensureEntry`; `entry + 1` is `int` arithmetic. -/
def ensureEntry {σ α : Type} (array : Arr α) (entry : Int) (d : α) : JM σ (Arr α) :=
  ensureSize array (i32 (entry + 1)) d

/-- KeyArray.ftl:65-69 `fill(array, value, fromOffset, length)`.  Simplification: when the
section is out of bounds the cells written before the exception are not recorded; no modelled
caller reaches that case. -/
def fill {σ α : Type} (array : Arr α) (value : α) (fromOffset length : Int) : JM σ (Arr α) :=
  ⟨fun s =>
    if length ≤ 0 then .ok array s
    else if 0 ≤ fromOffset ∧ fromOffset + length ≤ array.len then
      .ok (array.fillRange value fromOffset length) s
    else .err .indexOutOfBounds s⟩

/-- KeyArray.ftl:72-74 `fill(array, value)`. -/
def fillAll {σ α : Type} (array : Arr α) (value : α) : JM σ (Arr α) :=
  fill array value 0 array.len

/-- KeyArray.ftl:41-43 and 19-26 `create(size)`; `d` is what the JVM fills new cells with. -/
def createArr {σ α : Type} (size : Int) (d : α) : JM σ (Arr α) := newArr size d

/-- KeyArray.ftl:32-38, 49-55 `create(size, defaultValue)`; `isDefault v` is
`EqImpl.areEqual(v, DEFAULT)`. -/
def createFilled {σ α : Type} (isDefault : α → Bool) (jvmDefault : α) (size : Int) (v : α) :
    JM σ (Arr α) := do
  let array ← newArr size jvmDefault
  if !isDefault v then fillAll array v else pure array

/-- KeyArray.ftl:58-62 `resize`. -/
def resize {σ α : Type} (array : Arr α) (newSize : Int) (d : α) : JM σ (Arr α) := do
  let dest ← newArr newSize d
  arraycopy array 0 dest 0 (min array.len newSize)

end Verif

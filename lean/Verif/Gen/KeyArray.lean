import Verif.Gen.Prelude
/-!
GENERATED by tools/j2l/translate.py from arrays/KeyArray.ftl.  Do not edit: the translator is the only
reading of the Java text here.  Lean/Verif/Link proves that these definitions agree with the model.
-/
set_option linter.unusedVariables false
namespace Verif.Gen.KeyArray
open Verif

/-- KeyArray.ftl:41-43 `create`. -/
def create1 {σ α : Type} (d : α) (isEq : α → α → Bool) (size : Int) : JM σ (Arr α) := do
  let v1 ← newArr size d
  pure v1

/-- KeyArray.ftl:66, the loop. -/
def fill4_loop1 {σ α : Type} (d : α) (isEq : α → α → Bool) (value : α) (length : Int) :
    Nat → (Arr α) → Int → Int → JM σ (Arr α)
  | 0, _, _, _ => JM.throw .diverge
  | n + 1, array, i, offset => do
    if (decide (i < length)) = true then do
      let array ← wrA array offset value
      let v1 := i32 (i + 1)
      let i := v1
      let v2 := i32 (offset + 1)
      let offset := v2
      fill4_loop1 d isEq value length n array i offset
    else do
      pure array

/-- KeyArray.ftl:65-69 `fill`. -/
def fill4 {σ α : Type} (d : α) (isEq : α → α → Bool) (fuel : Nat) (array : (Arr α)) (value : α) (fromOffset : Int) (length : Int) : JM σ (Arr α) := do
  let i := 0
  let offset := fromOffset
  let array ← fill4_loop1 d isEq value length fuel array i offset
  pure array

/-- KeyArray.ftl:72-74 `fill`. -/
def fill2 {σ α : Type} (d : α) (isEq : α → α → Bool) (fuel : Nat) (array : (Arr α)) (value : α) : JM σ (Arr α) := do
  let array ← fill4 d isEq fuel array value 0 (array.len : Int)
  pure array

/-- KeyArray.ftl:49-55 `create`. -/
def create2 {σ α : Type} (d : α) (isEq : α → α → Bool) (fuel : Nat) (size : Int) (defaultValue : α) : JM σ (Arr α) := do
  let v1 ← newArr size d
  let array := v1
  let array ← (if (!(isEq defaultValue d)) = true then do
      let array ← fill2 d isEq fuel array defaultValue
      pure array
    else pure array)
  pure array

/-- KeyArray.ftl:58-62 `resize`. -/
def resize {σ α : Type} (d : α) (isEq : α → α → Bool) (array : (Arr α)) (newSize : Int) : JM σ (Arr α) := do
  let v1 ← create1 d isEq newSize
  let dest := v1
  let v2 ← arraycopy array 0 dest 0 (min (array.len : Int) newSize)
  let dest := v2
  pure dest

/-- KeyArray.ftl:80-84 `copyOf`. -/
def copyOf3 {σ α : Type} (d : α) (isEq : α → α → Bool) (fuel : Nat) (source : (Arr α)) (newLength : Int) (defaultValue : α) : JM σ (Arr α) := do
  let v1 ← copyOf source newLength d
  let newArray := v1
  let newArray ← fill4 d isEq fuel newArray defaultValue (source.len : Int) (i32 ((newArray.len : Int) - (source.len : Int)))
  pure newArray

/-- KeyArray.ftl:87-89 `copyOf`. -/
def copyOf2 {σ α : Type} (d : α) (isEq : α → α → Bool) (source : (Arr α)) (newLength : Int) : JM σ (Arr α) := do
  let v1 ← copyOf source newLength d
  pure v1

/-- KeyArray.ftl:144, the loop. -/
def grow_loop1 {σ α : Type} (d : α) (isEq : α → α → Bool) (necessarySize : Int) :
    Nat → Int → JM σ Int
  | 0, _ => JM.throw .diverge
  | n + 1, newLength => do
    if (decide (newLength < necessarySize)) = true then do
      let v1 := (shl32 newLength 1)
      let newLength := v1
      grow_loop1 d isEq necessarySize n newLength
    else do
      pure newLength

/-- KeyArray.ftl:139-148 `grow`. -/
def grow {σ α : Type} (d : α) (isEq : α → α → Bool) (fuel : Nat) (necessarySize : Int) (currentLength : Int) : JM σ Int := do
  let newLength := currentLength
  let newLength ← (if (decide (newLength = 0)) = true then do
      let newLength := 1
      pure newLength
    else pure newLength)
  let newLength ← grow_loop1 d isEq necessarySize fuel newLength
  pure newLength

/-- KeyArray.ftl:96-101 `ensureSize`. -/
def ensureSize2 {σ α : Type} (d : α) (isEq : α → α → Bool) (fuel : Nat) (array : (Arr α)) (size : Int) : JM σ (Arr α) := do
  if (decide (size > (array.len : Int))) = true then do
    let v1 ← grow d isEq fuel size (array.len : Int)
    let v2 ← copyOf2 d isEq array v1
    pure v2
  else do
    pure array

/-- KeyArray.ftl:109-114 `ensureSize`. -/
def ensureSize3 {σ α : Type} (d : α) (isEq : α → α → Bool) (fuel : Nat) (array : (Arr α)) (size : Int) (initialValue : α) : JM σ (Arr α) := do
  if (decide (size > (array.len : Int))) = true then do
    let v1 ← grow d isEq fuel size (array.len : Int)
    let v2 ← copyOf3 d isEq fuel array v1 initialValue
    pure v2
  else do
    pure array

/-- KeyArray.ftl:121-123 `ensureEntry`. -/
def ensureEntry2 {σ α : Type} (d : α) (isEq : α → α → Bool) (fuel : Nat) (array : (Arr α)) (entry : Int) : JM σ (Arr α) := do
  let v1 ← ensureSize2 d isEq fuel array (i32 (entry + 1))
  pure v1

/-- KeyArray.ftl:131-133 `ensureEntry`. -/
def ensureEntry3 {σ α : Type} (d : α) (isEq : α → α → Bool) (fuel : Nat) (array : (Arr α)) (entry : Int) (initialValue : α) : JM σ (Arr α) := do
  let v1 ← ensureSize3 d isEq fuel array (i32 (entry + 1)) initialValue
  pure v1
end Verif.Gen.KeyArray

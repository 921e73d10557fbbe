import Verif.Gen.Prelude
import Verif.Gen.NumUtils
import Verif.Gen.CapacityCalculator
import Verif.Gen.RangeCheckException
import Verif.Gen.InitializationException
import Verif.Model.Stores
/-!
GENERATED by tools/j2l/translate.py from store/KeyChunkMatrixStore.ftl.  Do not edit: the translator is the only
reading of the Java text here.  Lean/Verif/Link proves that these definitions agree with the model.
-/
set_option linter.unusedVariables false
namespace Verif.Gen.KeyChunkMatrixStore
open Verif

/-- KeyChunkMatrixStore.ftl:48-52 `assertValidConfig`. -/
def assertValidConfig {α : Type} (d : α) (initialSize : Int) (chunkSize : Int) (numFields : Int) : JM (MatrixStore α) Unit := do
  Gen.InitializationException.assertMinimum 1 initialSize
  Gen.InitializationException.assertMinimum 2 chunkSize
  Gen.InitializationException.assertMinimum 1 numFields
  pure ()

/-- KeyChunkMatrixStore.ftl:65-74 `getElem`. -/
def getElem {α : Type} (d : α) (row : Int) (field : Int) : JM (MatrixStore α) α := do
  let s1 ← get
  Gen.RangeCheckException.assertWithinRange 0 (i32 (s1.numFields - 1)) field
  let s2 ← get
  if (decide (row ≥ s2.capacity)) = true then do
    pure d
  else do
    let absoluteIx := (i32 ((i32 (row * s2.numFields)) + field))
    let offset := (and32 absoluteIx s2.chunkMask)
    let chunk := (shr32 absoluteIx s2.shift)
    let v3 ← rd MatrixStore.chunks chunk
    let v4 ← rdA v3 offset
    pure v4

/-- KeyChunkMatrixStore.ftl:108, the loop. -/
def grow_loop1 {α : Type} (d : α) :
    Nat → Int → JM (MatrixStore α) Unit
  | 0, _ => JM.throw .diverge
  | n + 1, i => do
    let s3 ← get
    if (decide (i < (s3.chunks.len : Int))) = true then do
      let v4 ← newArr s3.chunkSize d
      wr MatrixStore.chunks (fun self a => { self with chunks := a }) i v4
      let v5 := i32 (i + 1)
      let i := v5
      grow_loop1 d n i
    else do
      pure ()

/-- KeyChunkMatrixStore.ftl:103-112 `grow`. -/
def grow {α : Type} (d : α) (fuel : Nat) (row : Int) : JM (MatrixStore α) Unit := do
  let s1 ← get
  let rawSize := (i32 (row * s1.numFields))
  let requiredChunks := (ceilDiv rawSize s1.chunkSize)
  let oldLen := (s1.chunks.len : Int)
  let v2 ← copyOf s1.chunks requiredChunks (Arr.create 0 d)
  modify fun self => { self with chunks := v2 }
  let i := oldLen
  grow_loop1 d fuel i
  let s6 ← get
  let v7 := (i32 (Int.tdiv (i32 ((s6.chunks.len : Int) * s6.chunkSize)) s6.numFields))
  modify fun self => { self with capacity := v7 }
  pure ()

/-- KeyChunkMatrixStore.ftl:82-91 `setElem`. -/
def setElem {α : Type} (d : α) (fuel : Nat) (row : Int) (field : Int) (value : α) : JM (MatrixStore α) Unit := do
  let s1 ← get
  Gen.RangeCheckException.assertWithinRange 0 (i32 (s1.numFields - 1)) field
  let s2 ← get
  (if (decide (row ≥ s2.capacity)) = true then do
      grow d fuel (i32 (row + 1))
      pure ()
    else pure ())
  let s3 ← get
  let absoluteIx := (i32 ((i32 (row * s3.numFields)) + field))
  let offset := (and32 absoluteIx s3.chunkMask)
  let chunk := (shr32 absoluteIx s3.shift)
  let v4 ← rd MatrixStore.chunks chunk
  let v5 ← wrA v4 offset value
  wr MatrixStore.chunks (fun self a => { self with chunks := a }) chunk v5
  pure ()

/-- KeyChunkMatrixStore.ftl:94-96 `getCapacity`. -/
def getCapacity {α : Type} (d : α) : JM (MatrixStore α) Int := do
  let s1 ← get
  pure s1.capacity

/-- KeyChunkMatrixStore.ftl:99-101 `numChunks`. -/
def numChunks {α : Type} (d : α) : JM (MatrixStore α) Int := do
  let s1 ← get
  pure (s1.chunks.len : Int)

/-- KeyChunkMatrixStore.ftl:36-46 `init`. -/
def init {α : Type} (d : α) (initialSize : Int) (chunkSize : Int) (numFields : Int) : JM (MatrixStore α) Unit := do
  assertValidConfig d initialSize chunkSize numFields
  let v1 ← Gen.NumUtils.nextPowerOf2 chunkSize
  modify fun self => { self with chunkSize := v1 }
  let v2 := (i32 (chunkSize - 1))
  modify fun self => { self with chunkMask := v2 }
  let s3 ← get
  let v4 := (numberOfTrailingZeros s3.chunkSize)
  modify fun self => { self with shift := v4 }
  modify fun self => { self with numFields := numFields }
  let rawSize := (i32 (initialSize * numFields))
  let s5 ← get
  let requiredChunks := (ceilDiv rawSize s5.chunkSize)
  let v6 ← newArr2 requiredChunks s5.chunkSize d
  modify fun self => { self with chunks := v6 }
  let s7 ← get
  let v8 := (i32 (Int.tdiv (i32 ((s7.chunks.len : Int) * s7.chunkSize)) numFields))
  modify fun self => { self with capacity := v8 }
  pure ()
end Verif.Gen.KeyChunkMatrixStore

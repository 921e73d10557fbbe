import Verif.Gen.Prelude
import Verif.Gen.NumUtils
import Verif.Gen.CapacityCalculator
import Verif.Gen.RangeCheckException
import Verif.Gen.InitializationException
import Verif.Model.Stores
/-!
GENERATED by tools/j2l/translate.py from store/KeyChunkStore.ftl.  Do not edit: the translator is the only
reading of the Java text here.  Lean/Verif/Link proves that these definitions agree with the model.
-/
set_option linter.unusedVariables false
namespace Verif.Gen.KeyChunkStore
open Verif

/-- KeyChunkStore.ftl:37-44 `getElem`. -/
def getElem {α : Type} (d : α) (index : Int) : JM (ChunkStore α) α := do
  let s1 ← get
  if (decide (index ≥ s1.capacity)) = true then do
    pure d
  else do
    let offset := (and32 index s1.chunkMask)
    let chunk := (shr32 index s1.shift)
    let v2 ← rd ChunkStore.chunks chunk
    let v3 ← rdA v2 offset
    pure v3

/-- KeyChunkStore.ftl:75, the loop. -/
def grow_loop1 {α : Type} (d : α) :
    Nat → Int → JM (ChunkStore α) Unit
  | 0, _ => JM.throw .diverge
  | n + 1, i => do
    let s3 ← get
    if (decide (i < (s3.chunks.len : Int))) = true then do
      let v4 ← newArr s3.chunkSize d
      wr ChunkStore.chunks (fun self a => { self with chunks := a }) i v4
      let v5 := i32 (i + 1)
      let i := v5
      grow_loop1 d n i
    else do
      pure ()

/-- KeyChunkStore.ftl:71-79 `grow`. -/
def grow {α : Type} (d : α) (fuel : Nat) (index : Int) : JM (ChunkStore α) Unit := do
  let s1 ← get
  let requiredChunks := (ceilDiv index s1.chunkSize)
  let oldLen := (s1.chunks.len : Int)
  let v2 ← copyOf s1.chunks requiredChunks (Arr.create 0 d)
  modify fun self => { self with chunks := v2 }
  let i := oldLen
  grow_loop1 d fuel i
  let s6 ← get
  let v7 := (i32 ((s6.chunks.len : Int) * s6.chunkSize))
  modify fun self => { self with capacity := v7 }
  pure ()

/-- KeyChunkStore.ftl:51-59 `setElem`. -/
def setElem {α : Type} (d : α) (fuel : Nat) (index : Int) (value : α) : JM (ChunkStore α) Unit := do
  let s1 ← get
  (if (decide (index ≥ s1.capacity)) = true then do
      grow d fuel (i32 (index + 1))
      pure ()
    else pure ())
  let s2 ← get
  let v3 := (max s2.limit index)
  modify fun self => { self with limit := v3 }
  let s4 ← get
  let offset := (and32 index s4.chunkMask)
  let chunk := (shr32 index s4.shift)
  let v5 ← rd ChunkStore.chunks chunk
  let v6 ← wrA v5 offset value
  wr ChunkStore.chunks (fun self a => { self with chunks := a }) chunk v6
  pure ()

/-- KeyChunkStore.ftl:62-64 `getCapacity`. -/
def getCapacity {α : Type} (d : α) : JM (ChunkStore α) Int := do
  let s1 ← get
  pure s1.capacity

/-- KeyChunkStore.ftl:67-69 `numChunks`. -/
def numChunks {α : Type} (d : α) : JM (ChunkStore α) Int := do
  let s1 ← get
  pure (s1.chunks.len : Int)

/-- KeyChunkStore.ftl:25-32 `init`. -/
def init {α : Type} (d : α) (initialSize : Int) (chunkSize : Int) : JM (ChunkStore α) Unit := do
  let v1 ← Gen.NumUtils.nextPowerOf2 chunkSize
  modify fun self => { self with chunkSize := v1 }
  let v2 := (i32 (chunkSize - 1))
  modify fun self => { self with chunkMask := v2 }
  let s3 ← get
  let v4 := (numberOfTrailingZeros s3.chunkSize)
  modify fun self => { self with shift := v4 }
  let s5 ← get
  let requiredChunks := (ceilDiv initialSize s5.chunkSize)
  let v6 ← newArr2 requiredChunks s5.chunkSize d
  modify fun self => { self with chunks := v6 }
  let s7 ← get
  let v8 := (i32 ((s7.chunks.len : Int) * s7.chunkSize))
  modify fun self => { self with capacity := v8 }
  pure ()
end Verif.Gen.KeyChunkStore

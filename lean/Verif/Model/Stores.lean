import Verif.Model.Arrays
/-!
Models `collections/src/main/templates/com/bytefacets/collections/store/KeyChunkStore.ftl`,
`KeyChunkMatrixStore.ftl`, and the checks of `RangeCheckException.java` and
`InitializationException.java`.
-/
namespace Verif

/-- Java `x & y` on `int`. -/
def and32 (x y : Int) : Int := (BitVec.ofInt 32 x &&& BitVec.ofInt 32 y).toInt

/-- Java `x >> n` on `int`: floor division by `2^(n mod 32)`. -/
def shr32 (x n : Int) : Int := x / (2 ^ (n % 32).toNat : Nat)

/-- JDK `Long.numberOfTrailingZeros` (on a value of `int` widened to `long`), computed over at
most `fuel` bits. -/
def ntzLoop : Nat → Int → Int
  | 0, _ => 0
  | fuel + 1, x => if x % 2 ≠ 0 then 0 else 1 + ntzLoop fuel (x / 2)

/-- JDK `Long.numberOfTrailingZeros`: 64 for 0. -/
def numberOfTrailingZeros (x : Int) : Int := ntzLoop 64 x

/-- `(int) Math.ceil((double) a / (double) b)`.  Both are exact in a double, and so is the
quotient because every caller divides by a power of two. -/
def ceilDiv (a b : Int) : Int := -((-a) / b)

/-- KeyChunkStore.ftl:18-23, the fields (`limit` is written but never read). -/
structure ChunkStore (α : Type) where
  chunkSize : Int
  chunkMask : Int
  shift : Int
  chunks : Arr (Arr α)
  capacity : Int
  limit : Int

namespace ChunkStore
variable {α : Type}

/-- KeyChunkStore.ftl:25-32, the constructor.  Creating `new T[n][m]` throws for a negative `n`
or `m`. -/
def new (initialSize chunkSize : Int) (d : α) : Except Err (ChunkStore α) :=
  let cs := nextPowerOf2 chunkSize
  let requiredChunks := ceilDiv initialSize cs
  if requiredChunks < 0 ∨ cs < 0 then .error .negativeArraySize
  else .ok {
    chunkSize := cs
    chunkMask := i32 (chunkSize - 1)
    shift := numberOfTrailingZeros cs
    chunks := Arr.create requiredChunks (Arr.create cs d)
    capacity := i32 (requiredChunks * cs)
    limit := 0 }

/-- KeyChunkStore.ftl:71-79 `grow`.  `Arrays.copyOf` followed by the loop that puts a fresh chunk
in every new cell. -/
def grow (d : α) (index : Int) : JM (ChunkStore α) Unit := do
  let s ← get
  let requiredChunks := ceilDiv index s.chunkSize
  let chunks ← copyOf s.chunks requiredChunks (Arr.create s.chunkSize d)
  modify fun t => { t with chunks := chunks, capacity := i32 (chunks.len * t.chunkSize) }

/-- KeyChunkStore.ftl:37-44 `get`. -/
def getAt (d : α) (index : Int) : JM (ChunkStore α) α := do
  let s ← get
  if index ≥ s.capacity then pure d
  else
    let offset := and32 index s.chunkMask
    let chunk := shr32 index s.shift
    let c ← rd ChunkStore.chunks chunk
    rdA c offset

/-- KeyChunkStore.ftl:51-59 `set`. -/
def setAt (d : α) (index : Int) (value : α) : JM (ChunkStore α) Unit := do
  let s ← get
  JM.when (index ≥ s.capacity) (grow d (i32 (index + 1)))
  modify fun t => { t with limit := max t.limit index }
  let s ← get
  let offset := and32 index s.chunkMask
  let chunk := shr32 index s.shift
  let c ← rd ChunkStore.chunks chunk
  if 0 ≤ offset ∧ offset < c.len then
    wr ChunkStore.chunks (fun t a => { t with chunks := a }) chunk (c.set offset value)
  else JM.throw .indexOutOfBounds

/-- KeyChunkStore.ftl:62-64 `getCapacity`. -/
def getCapacity : JM (ChunkStore α) Int := do return (← get).capacity

inductive Op (α : Type)
  | get (index : Int) | set (index : Int) (v : α)

/-- Dispatch of one public call; `set` returns nothing (`none`). -/
def step (d : α) : Op α → JM (ChunkStore α) (Option α)
  | .get i => do return some (← getAt d i)
  | .set i v => do setAt d i v; pure none

end ChunkStore

/-- KeyChunkMatrixStore.ftl:20-26, the fields. -/
structure MatrixStore (α : Type) where
  chunkSize : Int
  chunkMask : Int
  shift : Int
  numFields : Int
  chunks : Arr (Arr α)
  capacity : Int

/-- RangeCheckException.java:10-18 `assertWithinRange`. -/
def assertWithinRange {σ : Type} (min max value : Int) : JM σ Unit :=
  if value < min ∨ value > max then JM.throw .rangeCheck else pure ()

namespace MatrixStore
variable {α : Type}

/-- KeyChunkMatrixStore.ftl:36-46 (constructor) and 48-52 `assertValidConfig`,
InitializationException.java:10-15 `assertMinimum`. -/
def new (initialSize chunkSize numFields : Int) (d : α) : Except Err (MatrixStore α) :=
  if initialSize < 1 then .error .initialization
  else if chunkSize < 2 then .error .initialization
  else if numFields < 1 then .error .initialization
  else
    let cs := nextPowerOf2 chunkSize
    let rawSize := i32 (initialSize * numFields)
    let requiredChunks := ceilDiv rawSize cs
    if requiredChunks < 0 ∨ cs < 0 then .error .negativeArraySize
    else .ok {
      chunkSize := cs
      chunkMask := i32 (chunkSize - 1)
      shift := numberOfTrailingZeros cs
      numFields := numFields
      chunks := Arr.create requiredChunks (Arr.create cs d)
      capacity := Int.tdiv (i32 (requiredChunks * cs)) numFields }

/-- KeyChunkMatrixStore.ftl:103-112 `grow`. -/
def grow (d : α) (row : Int) : JM (MatrixStore α) Unit := do
  let s ← get
  let rawSize := i32 (row * s.numFields)
  let requiredChunks := ceilDiv rawSize s.chunkSize
  let chunks ← copyOf s.chunks requiredChunks (Arr.create s.chunkSize d)
  modify fun t =>
    { t with chunks := chunks, capacity := Int.tdiv (i32 (chunks.len * t.chunkSize)) t.numFields }

/-- KeyChunkMatrixStore.ftl:65-74 `get`. -/
def getAt (d : α) (row field : Int) : JM (MatrixStore α) α := do
  let s ← get
  assertWithinRange 0 (s.numFields - 1) field
  if row ≥ s.capacity then pure d
  else
    let absoluteIx := i32 (i32 (row * s.numFields) + field)
    let offset := and32 absoluteIx s.chunkMask
    let chunk := shr32 absoluteIx s.shift
    let c ← rd MatrixStore.chunks chunk
    rdA c offset

/-- KeyChunkMatrixStore.ftl:82-91 `set`. -/
def setAt (d : α) (row field : Int) (value : α) : JM (MatrixStore α) Unit := do
  let s ← get
  assertWithinRange 0 (s.numFields - 1) field
  JM.when (row ≥ s.capacity) (grow d (i32 (row + 1)))
  let s ← get
  let absoluteIx := i32 (i32 (row * s.numFields) + field)
  let offset := and32 absoluteIx s.chunkMask
  let chunk := shr32 absoluteIx s.shift
  let c ← rd MatrixStore.chunks chunk
  if 0 ≤ offset ∧ offset < c.len then
    wr MatrixStore.chunks (fun t a => { t with chunks := a }) chunk (c.set offset value)
  else JM.throw .indexOutOfBounds

/-- KeyChunkMatrixStore.ftl:94-96 `getCapacity`. -/
def getCapacity : JM (MatrixStore α) Int := do return (← get).capacity

inductive Op (α : Type)
  | get (row field : Int) | set (row field : Int) (v : α)

/-- Dispatch of one public call; `set` returns nothing (`none`). -/
def step (d : α) : Op α → JM (MatrixStore α) (Option α)
  | .get r f => do return some (← getAt d r f)
  | .set r f v => do setAt d r f v; pure none

end MatrixStore
end Verif

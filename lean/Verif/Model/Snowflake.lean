import Verif.Java
/-!
Models `collections/src/main/java/com/bytefacets/collections/id/Snowflake.java`.

Java `long` is `BitVec 64`; `<` on longs is `BitVec.slt`.  The clock is the list of readings it will
deliver (each call of `clock.getAsLong()` consumes one); when the list is exhausted the call is
still blocked, which is the outcome `diverge`.  `nextId` is `synchronized`, so concurrent callers
behave like some sequence of calls.  Not modelled: `toString`, the default node-name supplier
(network interfaces, secure random): the node name's `hashCode` is an arbitrary int.
-/
namespace Verif

/-- Snowflake.java:27-32, the fields, plus the readings the clock has not delivered yet. -/
structure Snowflake where
  nodeId : BitVec 64
  customEpoch : BitVec 64
  lastTimestamp : BitVec 64
  sequence : BitVec 64
  clock : List (BitVec 64)

namespace Snowflake

/-- Snowflake.java:21 `maxNodeId = (1L << 10) - 1` -/
def maxNodeId : BitVec 64 := (1#64 <<< 10) - 1#64
/-- Snowflake.java:22 `maxSequence = (1L << 12) - 1` -/
def maxSequence : BitVec 64 := (1#64 <<< 12) - 1#64

/-- Snowflake.java:35-43, the constructor. -/
def new (nodeId customEpoch : BitVec 64) (clock : List (BitVec 64)) : Except Err Snowflake :=
  if nodeId.slt 0#64 ∨ maxNodeId.slt nodeId then .error .illegalArgument
  else .ok { nodeId := nodeId, customEpoch := customEpoch, lastTimestamp := -1#64,
             sequence := 0#64, clock := clock }

/-- Snowflake.java:103-105 `createNodeId`; the `int` hash is widened to `long` before the mask. -/
def createNodeId (nameHash : BitVec 32) : BitVec 64 := nameHash.signExtend 64 &&& maxNodeId

/-- Snowflake.java:90-92 `timestamp`. -/
def timestamp : JM Snowflake (BitVec 64) := ⟨fun s =>
  match s.clock with
  | [] => .err .diverge s
  | c :: cs => .ok (c - s.customEpoch) { s with clock := cs }⟩

/-- Snowflake.java:95-101 `waitNextMillis`: the loop, over the readings left. -/
def waitLoop (epoch last : BitVec 64) : List (BitVec 64) → Option (BitVec 64 × List (BitVec 64))
  | [] => none
  | c :: cs => if c - epoch = last then waitLoop epoch last cs else some (c - epoch, cs)

/-- Snowflake.java:95-101 `waitNextMillis`.  The loop condition is tested first; it fails at once
only if `currentTimestamp` differs from `lastTimestamp`. -/
def waitNextMillis (currentTimestamp : BitVec 64) : JM Snowflake (BitVec 64) := ⟨fun s =>
  if currentTimestamp = s.lastTimestamp then
    match waitLoop s.customEpoch s.lastTimestamp s.clock with
    | none => .err .diverge { s with clock := [] }
    | some (t, cs) => .ok t { s with clock := cs }
  else .ok currentTimestamp s⟩

/-- Snowflake.java:81-84, the id expression. -/
def compose (ts node seq : BitVec 64) : BitVec 64 := (ts <<< 22) ||| (node <<< 12) ||| seq

/-- Snowflake.java:61-87 `nextId`. -/
def nextId : JM Snowflake (BitVec 64) := do
  let currentTimestamp ← timestamp
  let s ← get
  if currentTimestamp.slt s.lastTimestamp then JM.throw .illegalState
  else if currentTimestamp = s.lastTimestamp then do
    modify fun t => { t with sequence := (t.sequence + 1#64) &&& maxSequence }
    let s ← get
    if s.sequence = 0#64 then do
      let ts ← waitNextMillis currentTimestamp
      modify fun t => { t with lastTimestamp := ts }
      let s ← get
      pure (compose ts s.nodeId s.sequence)
    else do
      modify fun t => { t with lastTimestamp := currentTimestamp }
      let s ← get
      pure (compose currentTimestamp s.nodeId s.sequence)
  else do
    modify fun t => { t with sequence := 0#64 }
    modify fun t => { t with lastTimestamp := currentTimestamp }
    let s ← get
    pure (compose currentTimestamp s.nodeId s.sequence)

/-- Snowflake.java:107-116 `parse`: the three longs of the returned array. -/
def parse (s : Snowflake) (id : BitVec 64) : BitVec 64 × BitVec 64 × BitVec 64 :=
  let maskNodeId := ((1#64 <<< 10) - 1#64) <<< 12
  let maskSequence := (1#64 <<< 12) - 1#64
  ((id.sshiftRight 22) + s.customEpoch, (id &&& maskNodeId).sshiftRight 12, id &&& maskSequence)

end Snowflake
end Verif

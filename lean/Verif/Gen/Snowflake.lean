import Verif.Gen.Jdk
/-!
GENERATED by tools/j2l/translate.py from id/Snowflake.java.  Do not edit: the translator is the only
reading of the Java text here.  Lean/Verif/Link proves that these definitions agree with the model.
-/
set_option linter.unusedVariables false
namespace Verif.Gen.Ids
open Verif

namespace Snowflake

/-- Snowflake.java:21 `maxNodeId` -/
def maxNodeId : BitVec 64 :=
  ((1#64 <<< 10) - 1#64)

/-- Snowflake.java:35-43, constructor -/
def init3 (nodeId : BitVec 64) (customEpoch : BitVec 64) (epochMillisProvider : List (BitVec 64)) : JM Snowflake Unit := do
  modify fun self => { self with lastTimestamp := (-1#64) }
  modify fun self => { self with sequence := 0#64 }
  if ((nodeId.slt 0#64) || (maxNodeId.slt nodeId)) then
    JM.throw Err.illegalArgument
  else
    modify fun self => { self with nodeId := nodeId }
    modify fun self => { self with customEpoch := customEpoch }
    modify fun self => { self with clock := epochMillisProvider }
    pure ()

/-- Snowflake.java:25 `DEFAULT_CUSTOM_EPOCH` -/
def DEFAULT_CUSTOM_EPOCH : BitVec 64 :=
  1676731200000#64

/-- Snowflake.java:46-48, constructor -/
def init2 (nodeId : BitVec 64) (epochMillisProvider : List (BitVec 64)) : JM Snowflake Unit := do
  init3 nodeId DEFAULT_CUSTOM_EPOCH epochMillisProvider

/-- Snowflake.java:103-105 `createNodeId` -/
def createNodeId (uniqueNodeNameSupplier : BitVec 32) : BitVec 64 :=
  ((uniqueNodeNameSupplier.signExtend 64) &&& maxNodeId)

/-- Snowflake.java:51-55 `snowflake` -/
def snowflake2 (epochMillisProvider : List (BitVec 64)) (uniqueNodeNameSupplier : BitVec 32) : JM Snowflake Unit := do
  init3 (createNodeId uniqueNodeNameSupplier) DEFAULT_CUSTOM_EPOCH epochMillisProvider

/-- Snowflake.java:90-92 `timestamp` -/
def timestamp : JM Snowflake (BitVec 64) := do
  let x1 ← Jdk.getAsLong
  let x2 ← get
  pure (x1 - x2.customEpoch)

/-- Snowflake.java:22 `maxSequence` -/
def maxSequence : BitVec 64 :=
  ((1#64 <<< 12) - 1#64)

/-- The loop at line 97. -/
def waitNextMillis_loop : Nat → BitVec 64 → JM Snowflake (BitVec 64)
  | 0, _ => JM.throw .diverge
  | fuel + 1, nextTimestamp => do
    let x1 ← get
    if (nextTimestamp == x1.lastTimestamp) then do
      let x2 ← timestamp
      let nextTimestamp := x2
      waitNextMillis_loop fuel nextTimestamp
    else pure nextTimestamp

/-- Snowflake.java:95-101 `waitNextMillis` -/
def waitNextMillis (fuel : Nat) (currentTimestamp : BitVec 64) : JM Snowflake (BitVec 64) := do
  let nextTimestamp := currentTimestamp
  let nextTimestamp ← waitNextMillis_loop fuel nextTimestamp
  pure nextTimestamp

/-- Snowflake.java:61-87 `nextId` -/
def nextId (fuel : Nat) : JM Snowflake (BitVec 64) := do
  let x1 ← timestamp
  let currentTimestamp := x1
  let x2 ← get
  if (currentTimestamp.slt x2.lastTimestamp) then
    JM.throw Err.illegalState
  else
    let x3 ← get
    if (currentTimestamp == x3.lastTimestamp) then
      let x4 ← get
      modify fun self => { self with sequence := ((x4.sequence + 1#64) &&& maxSequence) }
      let x5 ← get
      if (x5.sequence == 0#64) then
        let x6 ← waitNextMillis fuel currentTimestamp
        let currentTimestamp := x6
        modify fun self => { self with lastTimestamp := currentTimestamp }
        let x7 ← get
        let x8 ← get
        let id := (((currentTimestamp <<< 22) ||| (x7.nodeId <<< 12)) ||| x8.sequence)
        pure id
      else
        modify fun self => { self with lastTimestamp := currentTimestamp }
        let x9 ← get
        let x10 ← get
        let id := (((currentTimestamp <<< 22) ||| (x9.nodeId <<< 12)) ||| x10.sequence)
        pure id
    else
      modify fun self => { self with sequence := 0#64 }
      modify fun self => { self with lastTimestamp := currentTimestamp }
      let x11 ← get
      let x12 ← get
      let id := (((currentTimestamp <<< 22) ||| (x11.nodeId <<< 12)) ||| x12.sequence)
      pure id

/-- Snowflake.java:107-116 `parse` -/
def parse (id : BitVec 64) : JM Snowflake (List (BitVec 64)) := do
  let maskNodeId := (((1#64 <<< 10) - 1#64) <<< 12)
  let maskSequence := ((1#64 <<< 12) - 1#64)
  let x1 ← get
  let timestamp := ((id.sshiftRight 22) + x1.customEpoch)
  let nodeId := ((id &&& maskNodeId).sshiftRight 12)
  let sequence := (id &&& maskSequence)
  pure [timestamp, nodeId, sequence]

end Snowflake
end Verif.Gen.Ids

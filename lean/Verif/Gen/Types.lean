import Verif.Gen.Jdk
/-!
GENERATED by tools/j2l/translate.py from types/*.java.  Do not edit: the translator is the only
reading of the Java text here.  Lean/Verif/Link proves that these definitions agree with the model.
-/
set_option linter.unusedVariables false
namespace Verif.Gen.Types
open Verif

namespace Pack

/-- Pack.java:8-13 `packToLong` -/
def packToLong (hi : BitVec 32) (lo : BitVec 32) : BitVec 64 :=
  let ret := (hi.signExtend 64)
  let ret := (ret <<< 32)
  let ret := (ret ||| ((lo.signExtend 64) &&& 4294967295#64))
  ret

/-- Pack.java:15-17 `unpackHiInt` -/
def unpackHiInt (value : BitVec 64) : BitVec 32 :=
  ((value >>> 32).setWidth 32)

/-- Pack.java:19-21 `unpackLoInt` -/
def unpackLoInt (value : BitVec 64) : BitVec 32 :=
  (value.setWidth 32)

/-- Pack.java:28-33 `packToInt` -/
def packToInt2 (hi : BitVec 16) (lo : BitVec 16) : BitVec 32 :=
  let ret := (hi.signExtend 32)
  let ret := (ret <<< 16)
  let ret := (((ret.signExtend 64) ||| ((lo.signExtend 64) &&& 65535#64)).setWidth 32)
  ret

/-- Pack.java:44-49 `packToShort` -/
def packToShort (hi : BitVec 8) (lo : BitVec 8) : BitVec 16 :=
  let ret := (hi.signExtend 16)
  let ret := (((ret.signExtend 32) <<< 8).setWidth 16)
  let ret := (((ret.signExtend 64) ||| ((lo.signExtend 64) &&& 255#64)).setWidth 16)
  ret

/-- Pack.java:23-25 `packToInt` -/
def packToInt4 (b1 : BitVec 8) (b2 : BitVec 8) (b3 : BitVec 8) (b4 : BitVec 8) : BitVec 32 :=
  (packToInt2 (packToShort b1 b2) (packToShort b3 b4))

/-- Pack.java:35-37 `unpackHiShort` -/
def unpackHiShort (value : BitVec 32) : BitVec 16 :=
  ((value >>> 16).setWidth 16)

/-- Pack.java:39-41 `unpackLoShort` -/
def unpackLoShort (value : BitVec 32) : BitVec 16 :=
  (value.setWidth 16)

/-- Pack.java:51-53 `unpackHiByte` -/
def unpackHiByte (value : BitVec 16) : BitVec 8 :=
  (((value.signExtend 32) >>> 8).setWidth 8)

/-- Pack.java:55-57 `unpackLoByte` -/
def unpackLoByte (value : BitVec 16) : BitVec 8 :=
  (value.setWidth 8)

end Pack

namespace ByteType

/-- ByteType.java:6 `DEFAULT` -/
def DEFAULT : BitVec 8 :=
  0#8

/-- ByteType.java:14 `EqImpl` -/
def EqImpl (a : BitVec 8) (b : BitVec 8) : Bool :=
  ((a.signExtend 32) == (b.signExtend 32))

/-- ByteType.java:20 `Asc` -/
def Asc (a : BitVec 8) (b : BitVec 8) : BitVec 32 :=
  ((a.signExtend 32) - (b.signExtend 32))

/-- ByteType.java:21 `Desc` -/
def Desc (a : BitVec 8) (b : BitVec 8) : BitVec 32 :=
  ((b.signExtend 32) - (a.signExtend 32))

/-- ByteType.java:22 `AbsAsc` -/
def AbsAsc (a : BitVec 8) (b : BitVec 8) : BitVec 32 :=
  ((Jdk.absInt (a.signExtend 32)) - (Jdk.absInt (b.signExtend 32)))

/-- ByteType.java:23 `AbsDesc` -/
def AbsDesc (a : BitVec 8) (b : BitVec 8) : BitVec 32 :=
  ((Jdk.absInt (b.signExtend 32)) - (Jdk.absInt (a.signExtend 32)))

/-- ByteType.java:39 `IS_EQ` -/
def IS_EQ (a : BitVec 8) (b : BitVec 8) : Bool :=
  ((a.signExtend 32) == (b.signExtend 32))

/-- ByteType.java:40 `IS_NEQ` -/
def IS_NEQ (a : BitVec 8) (b : BitVec 8) : Bool :=
  ((a.signExtend 32) != (b.signExtend 32))

/-- ByteType.java:41 `IS_LT` -/
def IS_LT (a : BitVec 8) (b : BitVec 8) : Bool :=
  ((a.signExtend 32).slt (b.signExtend 32))

/-- ByteType.java:42 `IS_GT` -/
def IS_GT (a : BitVec 8) (b : BitVec 8) : Bool :=
  ((b.signExtend 32).slt (a.signExtend 32))

/-- ByteType.java:43 `IS_LTE` -/
def IS_LTE (a : BitVec 8) (b : BitVec 8) : Bool :=
  ((a.signExtend 32).sle (b.signExtend 32))

/-- ByteType.java:44 `IS_GTE` -/
def IS_GTE (a : BitVec 8) (b : BitVec 8) : Bool :=
  ((b.signExtend 32).sle (a.signExtend 32))

/-- ByteType.java:62 `HashImpl` -/
def HashImpl (v : BitVec 8) : BitVec 32 :=
  (v.signExtend 32)

/-- ByteType.java:25-33 `comparatorFor` -/
def comparatorFor : Cmp.CompareMethod → Except Err (BitVec 8 → BitVec 8 → BitVec 32)
  | .ascending => .ok Asc
  | .descending => .ok Desc
  | .ascendingAbsolute => .ok AbsAsc
  | .descendingAbsolute => .ok AbsDesc

/-- ByteType.java:46-56 `predicateFor` -/
def predicateFor : Cmp.PredicateMethod → Except Err (BitVec 8 → BitVec 8 → Bool)
  | .eq => .ok IS_EQ
  | .neq => .ok IS_NEQ
  | .lt => .ok IS_LT
  | .lte => .ok IS_LTE
  | .gt => .ok IS_GT
  | .gte => .ok IS_GTE

/-- ByteType.java:64-66 `castToInt` -/
def castToInt (value : BitVec 8) : BitVec 32 :=
  (value.signExtend 32)

/-- ByteType.java:68-70 `castToByte` -/
def castToByte (value : BitVec 32) : BitVec 8 :=
  ((value &&& 255#32).setWidth 8)

/-- ByteType.java:72-74 `unbox` -/
def unbox (value : Convert.JObj) : Except Err (BitVec 8) := do
  if (value != .null) then
    let x3 ← Jdk.asNumber value
    let x4 ← Jdk.byteValue x3
    pure x4
  else
    pure DEFAULT

/-- ByteType.java:76-78 `box` -/
def box (value : BitVec 8) : Convert.JObj :=
  (.num (.byte value))

/-- ByteType.java:80-82 `parseString` -/
def parseString (value : Option Convert.JString) : Except Err (BitVec 8) := do
  let x1 ← Jdk.parseIntegral 8 value
  pure x1

/-- ByteType.java:84-86 `enableBits` -/
def enableBits (flag : BitVec 8) (bits : BitVec 8) : BitVec 8 :=
  (((flag.signExtend 32) ||| (bits.signExtend 32)).setWidth 8)

/-- ByteType.java:88-90 `disableBits` -/
def disableBits (flag : BitVec 8) (bits : BitVec 8) : BitVec 8 :=
  (((flag.signExtend 32) &&& (~~~(bits.signExtend 32))).setWidth 8)

/-- ByteType.java:92-95 `writeLE` -/
def writeLE (pos : BitVec 32) (value : BitVec 8) : JM Codec.Bytes (BitVec 32) := do
  Codec.wrB pos.toInt value
  pure (pos + 1#32)

/-- ByteType.java:97-100 `writeBE` -/
def writeBE (pos : BitVec 32) (value : BitVec 8) : JM Codec.Bytes (BitVec 32) := do
  Codec.wrB pos.toInt value
  pure (pos + 1#32)

/-- ByteType.java:102-104 `readLE` -/
def readLE (pos : BitVec 32) : JM Codec.Bytes (BitVec 8) := do
  let x1 ← Codec.rdB pos.toInt
  pure x1

/-- ByteType.java:106-108 `readBE` -/
def readBE (pos : BitVec 32) : JM Codec.Bytes (BitVec 8) := do
  let x1 ← Codec.rdB pos.toInt
  pure x1

/-- ByteType.java:110-126 `convert` -/
def convert (value : Convert.JObj) : Except Err (BitVec 8) := do
  if (value == .null) then
    pure DEFAULT
  else
    Jdk.getClass value
    if (Jdk.isNumber value) then
      let x1 ← Jdk.asNumber value
      let x2 ← Jdk.byteValue x1
      pure x2
    else
      if (Jdk.isString value) then
        let x3 ← Jdk.asString value
        let x4 ← parseString x3
        pure x4
      else
        if (Jdk.isBoolean value) then
          let x5 ← Jdk.asBoolean value
          let x6 ← Jdk.unboxBoolean x5
          pure ((if x6 then 1#32 else 0#32).setWidth 8)
        else
          throw Err.illegalArgument

end ByteType

namespace ShortType

/-- ShortType.java:6 `DEFAULT` -/
def DEFAULT : BitVec 16 :=
  0#16

/-- ShortType.java:14 `EqImpl` -/
def EqImpl (a : BitVec 16) (b : BitVec 16) : Bool :=
  ((a.signExtend 32) == (b.signExtend 32))

/-- ShortType.java:20 `Asc` -/
def Asc (a : BitVec 16) (b : BitVec 16) : BitVec 32 :=
  ((a.signExtend 32) - (b.signExtend 32))

/-- ShortType.java:21 `Desc` -/
def Desc (a : BitVec 16) (b : BitVec 16) : BitVec 32 :=
  ((b.signExtend 32) - (a.signExtend 32))

/-- ShortType.java:22 `AbsAsc` -/
def AbsAsc (a : BitVec 16) (b : BitVec 16) : BitVec 32 :=
  ((Jdk.absInt (a.signExtend 32)) - (Jdk.absInt (b.signExtend 32)))

/-- ShortType.java:23 `AbsDesc` -/
def AbsDesc (a : BitVec 16) (b : BitVec 16) : BitVec 32 :=
  ((Jdk.absInt (b.signExtend 32)) - (Jdk.absInt (a.signExtend 32)))

/-- ShortType.java:39 `IS_EQ` -/
def IS_EQ (a : BitVec 16) (b : BitVec 16) : Bool :=
  ((a.signExtend 32) == (b.signExtend 32))

/-- ShortType.java:40 `IS_NEQ` -/
def IS_NEQ (a : BitVec 16) (b : BitVec 16) : Bool :=
  ((a.signExtend 32) != (b.signExtend 32))

/-- ShortType.java:41 `IS_LT` -/
def IS_LT (a : BitVec 16) (b : BitVec 16) : Bool :=
  ((a.signExtend 32).slt (b.signExtend 32))

/-- ShortType.java:42 `IS_GT` -/
def IS_GT (a : BitVec 16) (b : BitVec 16) : Bool :=
  ((b.signExtend 32).slt (a.signExtend 32))

/-- ShortType.java:43 `IS_LTE` -/
def IS_LTE (a : BitVec 16) (b : BitVec 16) : Bool :=
  ((a.signExtend 32).sle (b.signExtend 32))

/-- ShortType.java:44 `IS_GTE` -/
def IS_GTE (a : BitVec 16) (b : BitVec 16) : Bool :=
  ((b.signExtend 32).sle (a.signExtend 32))

/-- ShortType.java:62 `HashImpl` -/
def HashImpl (v : BitVec 16) : BitVec 32 :=
  (v.signExtend 32)

/-- ShortType.java:25-33 `comparatorFor` -/
def comparatorFor : Cmp.CompareMethod → Except Err (BitVec 16 → BitVec 16 → BitVec 32)
  | .ascending => .ok Asc
  | .descending => .ok Desc
  | .ascendingAbsolute => .ok AbsAsc
  | .descendingAbsolute => .ok AbsDesc

/-- ShortType.java:46-56 `predicateFor` -/
def predicateFor : Cmp.PredicateMethod → Except Err (BitVec 16 → BitVec 16 → Bool)
  | .eq => .ok IS_EQ
  | .neq => .ok IS_NEQ
  | .lt => .ok IS_LT
  | .lte => .ok IS_LTE
  | .gt => .ok IS_GT
  | .gte => .ok IS_GTE

/-- ShortType.java:64-66 `castToInt` -/
def castToInt (value : BitVec 16) : BitVec 32 :=
  (value.signExtend 32)

/-- ShortType.java:68-70 `castToShort` -/
def castToShort (value : BitVec 32) : BitVec 16 :=
  (value.setWidth 16)

/-- ShortType.java:72-74 `unbox` -/
def unbox (value : Convert.JObj) : Except Err (BitVec 16) := do
  if (value != .null) then
    let x3 ← Jdk.asNumber value
    let x4 ← Jdk.shortValue x3
    pure x4
  else
    pure DEFAULT

/-- ShortType.java:76-78 `box` -/
def box (value : BitVec 16) : Convert.JObj :=
  (.num (.short value))

/-- ShortType.java:80-82 `parseString` -/
def parseString (value : Option Convert.JString) : Except Err (BitVec 16) := do
  let x1 ← Jdk.parseIntegral 16 value
  pure x1

/-- ShortType.java:84-86 `enableBits` -/
def enableBits (flag : BitVec 16) (bits : BitVec 16) : BitVec 16 :=
  (((flag.signExtend 32) ||| (bits.signExtend 32)).setWidth 16)

/-- ShortType.java:88-90 `disableBits` -/
def disableBits (flag : BitVec 16) (bits : BitVec 16) : BitVec 16 :=
  (((flag.signExtend 32) &&& (~~~(bits.signExtend 32))).setWidth 16)

/-- ShortType.java:92-96 `writeLE` -/
def writeLE (pos : BitVec 32) (value : BitVec 16) : JM Codec.Bytes (BitVec 32) := do
  Codec.wrB (pos + 1#32).toInt (((value.signExtend 32).sshiftRight 8).setWidth 8)
  Codec.wrB pos.toInt (((value.signExtend 32) &&& 255#32).setWidth 8)
  pure (pos + 2#32)

/-- ShortType.java:98-102 `writeBE` -/
def writeBE (pos : BitVec 32) (value : BitVec 16) : JM Codec.Bytes (BitVec 32) := do
  Codec.wrB pos.toInt (((value.signExtend 32).sshiftRight 8).setWidth 8)
  Codec.wrB (pos + 1#32).toInt (((value.signExtend 32) &&& 255#32).setWidth 8)
  pure (pos + 2#32)

/-- ShortType.java:104-106 `readLE` -/
def readLE (pos : BitVec 32) : JM Codec.Bytes (BitVec 16) := do
  let x1 ← Codec.rdB (pos + 1#32).toInt
  let x2 ← Codec.rdB pos.toInt
  pure (((((x1.signExtend 32) &&& 255#32) <<< 8) ||| ((x2.signExtend 32) &&& 255#32)).setWidth 16)

/-- ShortType.java:108-110 `readBE` -/
def readBE (pos : BitVec 32) : JM Codec.Bytes (BitVec 16) := do
  let x1 ← Codec.rdB pos.toInt
  let x2 ← Codec.rdB (pos + 1#32).toInt
  pure (((((x1.signExtend 32) &&& 255#32) <<< 8) ||| ((x2.signExtend 32) &&& 255#32)).setWidth 16)

/-- ShortType.java:112-128 `convert` -/
def convert (value : Convert.JObj) : Except Err (BitVec 16) := do
  if (value == .null) then
    pure DEFAULT
  else
    Jdk.getClass value
    if (Jdk.isNumber value) then
      let x1 ← Jdk.asNumber value
      let x2 ← Jdk.shortValue x1
      pure x2
    else
      if (Jdk.isString value) then
        let x3 ← Jdk.asString value
        let x4 ← parseString x3
        pure x4
      else
        if (Jdk.isBoolean value) then
          let x5 ← Jdk.asBoolean value
          let x6 ← Jdk.unboxBoolean x5
          pure ((if x6 then 1#32 else 0#32).setWidth 16)
        else
          throw Err.illegalArgument

end ShortType

namespace CharType

/-- CharType.java:6 `DEFAULT` -/
def DEFAULT : BitVec 16 :=
  0#16

/-- CharType.java:7 `TRUE` -/
def TRUE : BitVec 16 :=
  116#16

/-- CharType.java:8 `FALSE` -/
def FALSE : BitVec 16 :=
  102#16

/-- CharType.java:16 `EqImpl` -/
def EqImpl (a : BitVec 16) (b : BitVec 16) : Bool :=
  ((a.setWidth 32) == (b.setWidth 32))

/-- CharType.java:22 `Asc` -/
def Asc (a : BitVec 16) (b : BitVec 16) : BitVec 32 :=
  ((a.setWidth 32) - (b.setWidth 32))

/-- CharType.java:23 `Desc` -/
def Desc (a : BitVec 16) (b : BitVec 16) : BitVec 32 :=
  ((b.setWidth 32) - (a.setWidth 32))

/-- CharType.java:24 `AbsAsc` -/
def AbsAsc (a : BitVec 16) (b : BitVec 16) : BitVec 32 :=
  ((Jdk.absInt (a.setWidth 32)) - (Jdk.absInt (b.setWidth 32)))

/-- CharType.java:25 `AbsDesc` -/
def AbsDesc (a : BitVec 16) (b : BitVec 16) : BitVec 32 :=
  ((Jdk.absInt (b.setWidth 32)) - (Jdk.absInt (a.setWidth 32)))

/-- CharType.java:41 `IS_EQ` -/
def IS_EQ (a : BitVec 16) (b : BitVec 16) : Bool :=
  ((a.setWidth 32) == (b.setWidth 32))

/-- CharType.java:42 `IS_NEQ` -/
def IS_NEQ (a : BitVec 16) (b : BitVec 16) : Bool :=
  ((a.setWidth 32) != (b.setWidth 32))

/-- CharType.java:43 `IS_LT` -/
def IS_LT (a : BitVec 16) (b : BitVec 16) : Bool :=
  ((a.setWidth 32).slt (b.setWidth 32))

/-- CharType.java:44 `IS_GT` -/
def IS_GT (a : BitVec 16) (b : BitVec 16) : Bool :=
  ((b.setWidth 32).slt (a.setWidth 32))

/-- CharType.java:45 `IS_LTE` -/
def IS_LTE (a : BitVec 16) (b : BitVec 16) : Bool :=
  ((a.setWidth 32).sle (b.setWidth 32))

/-- CharType.java:46 `IS_GTE` -/
def IS_GTE (a : BitVec 16) (b : BitVec 16) : Bool :=
  ((b.setWidth 32).sle (a.setWidth 32))

/-- CharType.java:64 `HashImpl` -/
def HashImpl (v : BitVec 16) : BitVec 32 :=
  (v.setWidth 32)

/-- CharType.java:27-35 `comparatorFor` -/
def comparatorFor : Cmp.CompareMethod → Except Err (BitVec 16 → BitVec 16 → BitVec 32)
  | .ascending => .ok Asc
  | .descending => .ok Desc
  | .ascendingAbsolute => .ok AbsAsc
  | .descendingAbsolute => .ok AbsDesc

/-- CharType.java:48-58 `predicateFor` -/
def predicateFor : Cmp.PredicateMethod → Except Err (BitVec 16 → BitVec 16 → Bool)
  | .eq => .ok IS_EQ
  | .neq => .ok IS_NEQ
  | .lt => .ok IS_LT
  | .lte => .ok IS_LTE
  | .gt => .ok IS_GT
  | .gte => .ok IS_GTE

/-- CharType.java:66-68 `castToInt` -/
def castToInt (value : BitVec 16) : BitVec 32 :=
  (value.setWidth 32)

/-- CharType.java:70-72 `castToChar` -/
def castToChar (value : BitVec 32) : BitVec 16 :=
  (value.setWidth 16)

/-- CharType.java:74-76 `unbox` -/
def unbox (value : Convert.JObj) : Except Err (BitVec 16) := do
  if (value != .null) then
    let x2 ← Jdk.asCharacter value
    let x3 ← Jdk.unboxCharacter x2
    pure x3
  else
    pure DEFAULT

/-- CharType.java:78-80 `box` -/
def box (value : BitVec 16) : Convert.JObj :=
  (.char value)

/-- CharType.java:82-84 `parseString` -/
def parseString (value : Option Convert.JString) : Except Err (BitVec 16) := do
  let x5 ← if (value != none) then (do let x4 ← Jdk.length value; pure ((0#32).slt x4)) else pure false
  if x5 then
    let x6 ← Jdk.charAt value 0#32
    pure x6
  else
    pure DEFAULT

/-- CharType.java:86-102 `convert` -/
def convert (value : Convert.JObj) : Except Err (BitVec 16) := do
  if (value == .null) then
    pure DEFAULT
  else
    Jdk.getClass value
    if (Jdk.isNumber value) then
      let x1 ← Jdk.asNumber value
      let x2 ← Jdk.intValue x1
      pure (x2.setWidth 16)
    else
      if (Jdk.isString value) then
        let x3 ← Jdk.asString value
        let x4 ← parseString x3
        pure x4
      else
        if (Jdk.isBoolean value) then
          let x5 ← Jdk.asBoolean value
          let x6 ← Jdk.unboxBoolean x5
          pure (if x6 then TRUE else FALSE)
        else
          throw Err.illegalArgument

/-- CharType.java:104-108 `writeLE` -/
def writeLE (pos : BitVec 32) (value : BitVec 16) : JM Codec.Bytes (BitVec 32) := do
  Codec.wrB (pos + 1#32).toInt (((value.setWidth 32).sshiftRight 8).setWidth 8)
  Codec.wrB pos.toInt (((value.setWidth 32) &&& 255#32).setWidth 8)
  pure (pos + 2#32)

/-- CharType.java:110-114 `writeBE` -/
def writeBE (pos : BitVec 32) (value : BitVec 16) : JM Codec.Bytes (BitVec 32) := do
  Codec.wrB pos.toInt (((value.setWidth 32).sshiftRight 8).setWidth 8)
  Codec.wrB (pos + 1#32).toInt (((value.setWidth 32) &&& 255#32).setWidth 8)
  pure (pos + 2#32)

/-- CharType.java:116-118 `readLE` -/
def readLE (pos : BitVec 32) : JM Codec.Bytes (BitVec 16) := do
  let x1 ← Codec.rdB (pos + 1#32).toInt
  let x2 ← Codec.rdB pos.toInt
  pure (((((x1.signExtend 32) &&& 255#32) <<< 8) ||| ((x2.signExtend 32) &&& 255#32)).setWidth 16)

/-- CharType.java:120-122 `readBE` -/
def readBE (pos : BitVec 32) : JM Codec.Bytes (BitVec 16) := do
  let x1 ← Codec.rdB pos.toInt
  let x2 ← Codec.rdB (pos + 1#32).toInt
  pure (((((x1.signExtend 32) &&& 255#32) <<< 8) ||| ((x2.signExtend 32) &&& 255#32)).setWidth 16)

end CharType

namespace IntType

/-- IntType.java:10 `DEFAULT` -/
def DEFAULT : BitVec 32 :=
  0#32

/-- IntType.java:18 `EqImpl` -/
def EqImpl (a : BitVec 32) (b : BitVec 32) : Bool :=
  (a == b)

/-- IntType.java:24 `Asc` -/
def Asc (a : BitVec 32) (b : BitVec 32) : BitVec 32 :=
  (a - b)

/-- IntType.java:25 `Desc` -/
def Desc (a : BitVec 32) (b : BitVec 32) : BitVec 32 :=
  (b - a)

/-- IntType.java:26 `AbsAsc` -/
def AbsAsc (a : BitVec 32) (b : BitVec 32) : BitVec 32 :=
  ((Jdk.absInt a) - (Jdk.absInt b))

/-- IntType.java:27 `AbsDesc` -/
def AbsDesc (a : BitVec 32) (b : BitVec 32) : BitVec 32 :=
  ((Jdk.absInt b) - (Jdk.absInt a))

/-- IntType.java:43 `IS_EQ` -/
def IS_EQ (a : BitVec 32) (b : BitVec 32) : Bool :=
  (a == b)

/-- IntType.java:44 `IS_NEQ` -/
def IS_NEQ (a : BitVec 32) (b : BitVec 32) : Bool :=
  (a != b)

/-- IntType.java:45 `IS_LT` -/
def IS_LT (a : BitVec 32) (b : BitVec 32) : Bool :=
  (a.slt b)

/-- IntType.java:46 `IS_GT` -/
def IS_GT (a : BitVec 32) (b : BitVec 32) : Bool :=
  (b.slt a)

/-- IntType.java:47 `IS_LTE` -/
def IS_LTE (a : BitVec 32) (b : BitVec 32) : Bool :=
  (a.sle b)

/-- IntType.java:48 `IS_GTE` -/
def IS_GTE (a : BitVec 32) (b : BitVec 32) : Bool :=
  (b.sle a)

/-- IntType.java:66 `HashImpl` -/
def HashImpl (v : BitVec 32) : BitVec 32 :=
  v

/-- IntType.java:29-37 `comparatorFor` -/
def comparatorFor : Cmp.CompareMethod → Except Err (BitVec 32 → BitVec 32 → BitVec 32)
  | .ascending => .ok Asc
  | .descending => .ok Desc
  | .ascendingAbsolute => .ok AbsAsc
  | .descendingAbsolute => .ok AbsDesc

/-- IntType.java:50-60 `predicateFor` -/
def predicateFor : Cmp.PredicateMethod → Except Err (BitVec 32 → BitVec 32 → Bool)
  | .eq => .ok IS_EQ
  | .neq => .ok IS_NEQ
  | .lt => .ok IS_LT
  | .lte => .ok IS_LTE
  | .gt => .ok IS_GT
  | .gte => .ok IS_GTE

/-- IntType.java:68-70 `castToInt` -/
def castToInt (value : BitVec 32) : BitVec 32 :=
  value

/-- IntType.java:72-74 `unbox` -/
def unbox (value : Convert.JObj) : Except Err (BitVec 32) := do
  if (value != .null) then
    let x3 ← Jdk.asNumber value
    let x4 ← Jdk.intValue x3
    pure x4
  else
    pure DEFAULT

/-- IntType.java:76-78 `box` -/
def box (value : BitVec 32) : Convert.JObj :=
  (.num (.int value))

/-- IntType.java:80-82 `parseString` -/
def parseString (value : Option Convert.JString) : Except Err (BitVec 32) := do
  let x1 ← Jdk.parseIntegral 32 value
  pure x1

/-- IntType.java:84-86 `enableBits` -/
def enableBits (flag : BitVec 32) (bits : BitVec 32) : BitVec 32 :=
  (flag ||| bits)

/-- IntType.java:88-90 `disableBits` -/
def disableBits (flag : BitVec 32) (bits : BitVec 32) : BitVec 32 :=
  (flag &&& (~~~bits))

/-- IntType.java:92-98 `writeLE` -/
def writeLE (pos : BitVec 32) (value : BitVec 32) : JM Codec.Bytes (BitVec 32) := do
  Codec.wrB (pos + 3#32).toInt ((value.sshiftRight 24).setWidth 8)
  Codec.wrB (pos + 2#32).toInt ((value.sshiftRight 16).setWidth 8)
  Codec.wrB (pos + 1#32).toInt ((value.sshiftRight 8).setWidth 8)
  Codec.wrB pos.toInt ((value &&& 255#32).setWidth 8)
  pure (pos + 4#32)

/-- IntType.java:100-106 `writeBE` -/
def writeBE (pos : BitVec 32) (value : BitVec 32) : JM Codec.Bytes (BitVec 32) := do
  Codec.wrB pos.toInt ((value.sshiftRight 24).setWidth 8)
  Codec.wrB (pos + 1#32).toInt ((value.sshiftRight 16).setWidth 8)
  Codec.wrB (pos + 2#32).toInt ((value.sshiftRight 8).setWidth 8)
  Codec.wrB (pos + 3#32).toInt ((value &&& 255#32).setWidth 8)
  pure (pos + 4#32)

/-- IntType.java:109-114 `readLE` -/
def readLE (pos : BitVec 32) : JM Codec.Bytes (BitVec 32) := do
  let x1 ← Codec.rdB (pos + 3#32).toInt
  let x2 ← Codec.rdB (pos + 2#32).toInt
  let x3 ← Codec.rdB (pos + 1#32).toInt
  let x4 ← Codec.rdB pos.toInt
  pure ((((((x1.signExtend 32) &&& 255#32) <<< 24) ||| (((x2.signExtend 32) &&& 255#32) <<< 16)) ||| (((x3.signExtend 32) &&& 255#32) <<< 8)) ||| ((x4.signExtend 32) &&& 255#32))

/-- IntType.java:117-122 `readBE` -/
def readBE (pos : BitVec 32) : JM Codec.Bytes (BitVec 32) := do
  let x1 ← Codec.rdB pos.toInt
  let x2 ← Codec.rdB (pos + 1#32).toInt
  let x3 ← Codec.rdB (pos + 2#32).toInt
  let x4 ← Codec.rdB (pos + 3#32).toInt
  pure ((((((x1.signExtend 32) &&& 255#32) <<< 24) ||| (((x2.signExtend 32) &&& 255#32) <<< 16)) ||| (((x3.signExtend 32) &&& 255#32) <<< 8)) ||| ((x4.signExtend 32) &&& 255#32))

/-- IntType.java:176-178 `toYYYMMDD` -/
def toYYYMMDD (year : BitVec 32) (month : BitVec 32) (day : BitVec 32) : BitVec 32 :=
  (((year * 10000#32) + (month * 100#32)) + day)

/-- IntType.java:148-150 `fromLocalDate` -/
def fromLocalDate (date : Dates.LDate) : BitVec 32 :=
  (toYYYMMDD (BitVec.ofInt 32 date.year) (BitVec.ofInt 32 date.month) (BitVec.ofInt 32 date.day))

/-- IntType.java:180-182 `toHHMMSS` -/
def toHHMMSS (hour : BitVec 32) (minute : BitVec 32) (second : BitVec 32) : BitVec 32 :=
  (((hour * 10000#32) + (minute * 100#32)) + second)

/-- IntType.java:159-161 `fromLocalTime` -/
def fromLocalTime (time : Dates.LTime) : BitVec 32 :=
  (toHHMMSS (BitVec.ofInt 32 time.hour) (BitVec.ofInt 32 time.minute) (BitVec.ofInt 32 time.second))

/-- IntType.java:124-146 `convert` -/
def convert (value : Convert.JObj) : Except Err (BitVec 32) := do
  if (value == .null) then
    pure DEFAULT
  else
    Jdk.getClass value
    if (Jdk.isNumber value) then
      let x1 ← Jdk.asNumber value
      let x2 ← Jdk.intValue x1
      pure x2
    else
      if (Jdk.isString value) then
        let x3 ← Jdk.asString value
        let x4 ← parseString x3
        pure x4
      else
        if (Jdk.isLocalDate value) then
          let x5 ← Jdk.asLocalDate value
          pure (fromLocalDate x5)
        else
          if (Jdk.isLocalTime value) then
            let x6 ← Jdk.asLocalTime value
            pure (fromLocalTime x6)
          else
            if (Jdk.isBoolean value) then
              let x7 ← Jdk.asBoolean value
              let x8 ← Jdk.unboxBoolean x7
              pure (if x8 then 1#32 else 0#32)
            else
              throw Err.illegalArgument

/-- IntType.java:152-157 `toLocalDate` -/
def toLocalDate (yyyyMMdd : BitVec 32) : Except Err Dates.LDate := do
  let year := (yyyyMMdd.sdiv 10000#32)
  let month := ((yyyyMMdd.sdiv 100#32).srem 100#32)
  let day := (yyyyMMdd.srem 100#32)
  let x1 ← Jdk.dateOf year month day
  pure x1

/-- IntType.java:164-167 `fromSqlDate` -/
def fromSqlDate (date : Dates.SqlDate) : BitVec 32 :=
  (toYYYMMDD ((BitVec.ofInt 32 date.year) + 1900#32) ((BitVec.ofInt 32 date.month) + 1#32) (BitVec.ofInt 32 date.date))

/-- IntType.java:169-174 `toLocalTime` -/
def toLocalTime (hhMMss : BitVec 32) : Except Err Dates.LTime := do
  let hours := (hhMMss.sdiv 10000#32)
  let minutes := ((hhMMss.sdiv 100#32).srem 100#32)
  let seconds := (hhMMss.srem 100#32)
  let x1 ← Jdk.timeOf hours minutes seconds
  pure x1

end IntType

namespace LongType

/-- LongType.java:6 `DEFAULT` -/
def DEFAULT : BitVec 64 :=
  0#64

/-- LongType.java:14 `EqImpl` -/
def EqImpl (a : BitVec 64) (b : BitVec 64) : Bool :=
  (a == b)

/-- LongType.java:20 `Asc` -/
def Asc (a : BitVec 64) (b : BitVec 64) : BitVec 32 :=
  (Jdk.longCompare a b)

/-- LongType.java:21 `Desc` -/
def Desc (a : BitVec 64) (b : BitVec 64) : BitVec 32 :=
  (Jdk.longCompare b a)

/-- LongType.java:22 `AbsAsc` -/
def AbsAsc (a : BitVec 64) (b : BitVec 64) : BitVec 32 :=
  (Jdk.longCompare (Jdk.absLong a) (Jdk.absLong b))

/-- LongType.java:23 `AbsDesc` -/
def AbsDesc (a : BitVec 64) (b : BitVec 64) : BitVec 32 :=
  (Jdk.longCompare (Jdk.absLong b) (Jdk.absLong a))

/-- LongType.java:39 `IS_EQ` -/
def IS_EQ (a : BitVec 64) (b : BitVec 64) : Bool :=
  (a == b)

/-- LongType.java:40 `IS_NEQ` -/
def IS_NEQ (a : BitVec 64) (b : BitVec 64) : Bool :=
  (a != b)

/-- LongType.java:41 `IS_LT` -/
def IS_LT (a : BitVec 64) (b : BitVec 64) : Bool :=
  (a.slt b)

/-- LongType.java:42 `IS_GT` -/
def IS_GT (a : BitVec 64) (b : BitVec 64) : Bool :=
  (b.slt a)

/-- LongType.java:43 `IS_LTE` -/
def IS_LTE (a : BitVec 64) (b : BitVec 64) : Bool :=
  (a.sle b)

/-- LongType.java:44 `IS_GTE` -/
def IS_GTE (a : BitVec 64) (b : BitVec 64) : Bool :=
  (b.sle a)

/-- LongType.java:62 `HashImpl` -/
def HashImpl (a : BitVec 64) : BitVec 32 :=
  (KeyTypes.longHash a)

/-- LongType.java:25-33 `comparatorFor` -/
def comparatorFor : Cmp.CompareMethod → Except Err (BitVec 64 → BitVec 64 → BitVec 32)
  | .ascending => .ok Asc
  | .descending => .ok Desc
  | .ascendingAbsolute => .ok AbsAsc
  | .descendingAbsolute => .ok AbsDesc

/-- LongType.java:46-56 `predicateFor` -/
def predicateFor : Cmp.PredicateMethod → Except Err (BitVec 64 → BitVec 64 → Bool)
  | .eq => .ok IS_EQ
  | .neq => .ok IS_NEQ
  | .lt => .ok IS_LT
  | .lte => .ok IS_LTE
  | .gt => .ok IS_GT
  | .gte => .ok IS_GTE

/-- LongType.java:64-66 `castToInt` -/
def castToInt (value : BitVec 64) : BitVec 32 :=
  (value.setWidth 32)

/-- LongType.java:68-70 `castToLong` -/
def castToLong (value : BitVec 32) : BitVec 64 :=
  (value.signExtend 64)

/-- LongType.java:72-74 `unbox` -/
def unbox (value : Convert.JObj) : Except Err (BitVec 64) := do
  if (value != .null) then
    let x3 ← Jdk.asNumber value
    let x4 ← Jdk.longValue x3
    pure x4
  else
    pure DEFAULT

/-- LongType.java:76-78 `box` -/
def box (value : BitVec 64) : Convert.JObj :=
  (.num (.long value))

/-- LongType.java:80-82 `parseString` -/
def parseString (value : Option Convert.JString) : Except Err (BitVec 64) := do
  let x1 ← Jdk.parseIntegral 64 value
  pure x1

/-- LongType.java:84-86 `enableBits` -/
def enableBits (flag : BitVec 64) (bits : BitVec 64) : BitVec 64 :=
  (flag ||| bits)

/-- LongType.java:88-90 `disableBits` -/
def disableBits (flag : BitVec 64) (bits : BitVec 64) : BitVec 64 :=
  (flag &&& (~~~bits))

/-- LongType.java:92-102 `writeLE` -/
def writeLE (pos : BitVec 32) (value : BitVec 64) : JM Codec.Bytes (BitVec 32) := do
  Codec.wrB (pos + 7#32).toInt ((value.sshiftRight 56).setWidth 8)
  Codec.wrB (pos + 6#32).toInt ((value.sshiftRight 48).setWidth 8)
  Codec.wrB (pos + 5#32).toInt ((value.sshiftRight 40).setWidth 8)
  Codec.wrB (pos + 4#32).toInt ((value.sshiftRight 32).setWidth 8)
  Codec.wrB (pos + 3#32).toInt ((value.sshiftRight 24).setWidth 8)
  Codec.wrB (pos + 2#32).toInt ((value.sshiftRight 16).setWidth 8)
  Codec.wrB (pos + 1#32).toInt ((value.sshiftRight 8).setWidth 8)
  Codec.wrB pos.toInt ((value &&& 255#64).setWidth 8)
  pure (pos + 8#32)

/-- LongType.java:104-114 `writeBE` -/
def writeBE (pos : BitVec 32) (value : BitVec 64) : JM Codec.Bytes (BitVec 32) := do
  Codec.wrB pos.toInt ((value.sshiftRight 56).setWidth 8)
  Codec.wrB (pos + 1#32).toInt ((value.sshiftRight 48).setWidth 8)
  Codec.wrB (pos + 2#32).toInt ((value.sshiftRight 40).setWidth 8)
  Codec.wrB (pos + 3#32).toInt ((value.sshiftRight 32).setWidth 8)
  Codec.wrB (pos + 4#32).toInt ((value.sshiftRight 24).setWidth 8)
  Codec.wrB (pos + 5#32).toInt ((value.sshiftRight 16).setWidth 8)
  Codec.wrB (pos + 6#32).toInt ((value.sshiftRight 8).setWidth 8)
  Codec.wrB (pos + 7#32).toInt ((value &&& 255#64).setWidth 8)
  pure (pos + 8#32)

/-- LongType.java:117-126 `readLE` -/
def readLE (pos : BitVec 32) : JM Codec.Bytes (BitVec 64) := do
  let x1 ← Codec.rdB (pos + 7#32).toInt
  let x2 ← Codec.rdB (pos + 6#32).toInt
  let x3 ← Codec.rdB (pos + 5#32).toInt
  let x4 ← Codec.rdB (pos + 4#32).toInt
  let x5 ← Codec.rdB (pos + 3#32).toInt
  let x6 ← Codec.rdB (pos + 2#32).toInt
  let x7 ← Codec.rdB (pos + 1#32).toInt
  let x8 ← Codec.rdB pos.toInt
  pure ((((((((((x1.signExtend 64) &&& 255#64) <<< 56) ||| (((x2.signExtend 64) &&& 255#64) <<< 48)) ||| (((x3.signExtend 64) &&& 255#64) <<< 40)) ||| (((x4.signExtend 64) &&& 255#64) <<< 32)) ||| (((x5.signExtend 64) &&& 255#64) <<< 24)) ||| (((x6.signExtend 64) &&& 255#64) <<< 16)) ||| (((x7.signExtend 64) &&& 255#64) <<< 8)) ||| ((x8.signExtend 64) &&& 255#64))

/-- LongType.java:129-138 `readBE` -/
def readBE (pos : BitVec 32) : JM Codec.Bytes (BitVec 64) := do
  let x1 ← Codec.rdB pos.toInt
  let x2 ← Codec.rdB (pos + 1#32).toInt
  let x3 ← Codec.rdB (pos + 2#32).toInt
  let x4 ← Codec.rdB (pos + 3#32).toInt
  let x5 ← Codec.rdB (pos + 4#32).toInt
  let x6 ← Codec.rdB (pos + 5#32).toInt
  let x7 ← Codec.rdB (pos + 6#32).toInt
  let x8 ← Codec.rdB (pos + 7#32).toInt
  pure ((((((((((x1.signExtend 64) &&& 255#64) <<< 56) ||| (((x2.signExtend 64) &&& 255#64) <<< 48)) ||| (((x3.signExtend 64) &&& 255#64) <<< 40)) ||| (((x4.signExtend 64) &&& 255#64) <<< 32)) ||| (((x5.signExtend 64) &&& 255#64) <<< 24)) ||| (((x6.signExtend 64) &&& 255#64) <<< 16)) ||| (((x7.signExtend 64) &&& 255#64) <<< 8)) ||| ((x8.signExtend 64) &&& 255#64))

/-- LongType.java:140-156 `convert` -/
def convert (value : Convert.JObj) : Except Err (BitVec 64) := do
  if (value == .null) then
    pure DEFAULT
  else
    Jdk.getClass value
    if (Jdk.isNumber value) then
      let x1 ← Jdk.asNumber value
      let x2 ← Jdk.longValue x1
      pure x2
    else
      if (Jdk.isString value) then
        let x3 ← Jdk.asString value
        let x4 ← parseString x3
        pure x4
      else
        if (Jdk.isBoolean value) then
          let x5 ← Jdk.asBoolean value
          let x6 ← Jdk.unboxBoolean x5
          pure (((if x6 then 1#32 else 0#32).setWidth 16).signExtend 64)
        else
          throw Err.illegalArgument

end LongType

namespace FloatType

/-- FloatType.java:6 `DEFAULT` -/
def DEFAULT : BitVec 32 :=
  (Convert.intToFloat (0#32).toInt)

/-- FloatType.java:14 `EqImpl` -/
def EqImpl (a : BitVec 32) (b : BitVec 32) : Bool :=
  ((Floats.decode32 a).eq (Floats.decode32 b))

/-- FloatType.java:20 `Asc` -/
def Asc (a : BitVec 32) (b : BitVec 32) : BitVec 32 :=
  (Jdk.floatCompare a b)

/-- FloatType.java:21 `Desc` -/
def Desc (a : BitVec 32) (b : BitVec 32) : BitVec 32 :=
  (Jdk.floatCompare b a)

/-- FloatType.java:22 `AbsAsc` -/
def AbsAsc (a : BitVec 32) (b : BitVec 32) : BitVec 32 :=
  (Jdk.floatCompare (Floats.abs32 a) (Floats.abs32 b))

/-- FloatType.java:23 `AbsDesc` -/
def AbsDesc (a : BitVec 32) (b : BitVec 32) : BitVec 32 :=
  (Jdk.floatCompare (Floats.abs32 b) (Floats.abs32 a))

/-- FloatType.java:39 `IS_EQ` -/
def IS_EQ (a : BitVec 32) (b : BitVec 32) : Bool :=
  ((Floats.decode32 a).eq (Floats.decode32 b))

/-- FloatType.java:40 `IS_NEQ` -/
def IS_NEQ (a : BitVec 32) (b : BitVec 32) : Bool :=
  (!(Floats.decode32 a).eq (Floats.decode32 b))

/-- FloatType.java:41 `IS_LT` -/
def IS_LT (a : BitVec 32) (b : BitVec 32) : Bool :=
  ((Floats.decode32 a).lt (Floats.decode32 b))

/-- FloatType.java:42 `IS_GT` -/
def IS_GT (a : BitVec 32) (b : BitVec 32) : Bool :=
  ((Floats.decode32 b).lt (Floats.decode32 a))

/-- FloatType.java:43 `IS_LTE` -/
def IS_LTE (a : BitVec 32) (b : BitVec 32) : Bool :=
  ((Floats.decode32 a).le (Floats.decode32 b))

/-- FloatType.java:44 `IS_GTE` -/
def IS_GTE (a : BitVec 32) (b : BitVec 32) : Bool :=
  ((Floats.decode32 b).le (Floats.decode32 a))

/-- FloatType.java:62 `HashImpl` -/
def HashImpl (a : BitVec 32) : BitVec 32 :=
  (KeyTypes.floatHash a)

/-- FloatType.java:25-33 `comparatorFor` -/
def comparatorFor : Cmp.CompareMethod → Except Err (BitVec 32 → BitVec 32 → BitVec 32)
  | .ascending => .ok Asc
  | .descending => .ok Desc
  | .ascendingAbsolute => .ok AbsAsc
  | .descendingAbsolute => .ok AbsDesc

/-- FloatType.java:46-56 `predicateFor` -/
def predicateFor : Cmp.PredicateMethod → Except Err (BitVec 32 → BitVec 32 → Bool)
  | .eq => .ok IS_EQ
  | .neq => .ok IS_NEQ
  | .lt => .ok IS_LT
  | .lte => .ok IS_LTE
  | .gt => .ok IS_GT
  | .gte => .ok IS_GTE

/-- FloatType.java:64-66 `castToInt` -/
def castToInt (value : BitVec 32) : BitVec 32 :=
  (Convert.floatToInt value)

/-- FloatType.java:68-70 `castToFloat` -/
def castToFloat (value : BitVec 32) : BitVec 32 :=
  (Convert.intToFloat value.toInt)

/-- FloatType.java:72-74 `unbox` -/
def unbox (value : Convert.JObj) : Except Err (BitVec 32) := do
  if (value != .null) then
    let x3 ← Jdk.asNumber value
    let x4 ← Jdk.floatValue x3
    pure x4
  else
    pure DEFAULT

/-- FloatType.java:76-78 `box` -/
def box (value : BitVec 32) : Convert.JObj :=
  (.num (.float value))

/-- FloatType.java:80-82 `parseString` -/
def parseString (env : Jdk.Env) (value : Option Convert.JString) : Except Err (BitVec 32) := do
  let x1 ← env.parseFloat value
  pure x1

/-- FloatType.java:84-86 `writeLE` -/
def writeLE (pos : BitVec 32) (value : BitVec 32) : JM Codec.Bytes (BitVec 32) := do
  let x1 ← IntType.writeLE pos value
  pure x1

/-- FloatType.java:88-90 `writeBE` -/
def writeBE (pos : BitVec 32) (value : BitVec 32) : JM Codec.Bytes (BitVec 32) := do
  let x1 ← IntType.writeBE pos value
  pure x1

/-- FloatType.java:92-94 `readLE` -/
def readLE (pos : BitVec 32) : JM Codec.Bytes (BitVec 32) := do
  let x1 ← IntType.readLE pos
  pure x1

/-- FloatType.java:96-98 `readBE` -/
def readBE (pos : BitVec 32) : JM Codec.Bytes (BitVec 32) := do
  let x1 ← IntType.readBE pos
  pure x1

/-- FloatType.java:100-116 `convert` -/
def convert (env : Jdk.Env) (value : Convert.JObj) : Except Err (BitVec 32) := do
  if (value == .null) then
    pure DEFAULT
  else
    Jdk.getClass value
    if (Jdk.isNumber value) then
      let x1 ← Jdk.asNumber value
      let x2 ← Jdk.floatValue x1
      pure x2
    else
      if (Jdk.isString value) then
        let x3 ← Jdk.asString value
        let x4 ← parseString env x3
        pure x4
      else
        if (Jdk.isBoolean value) then
          let x5 ← Jdk.asBoolean value
          let x6 ← Jdk.unboxBoolean x5
          pure (Convert.intToFloat ((if x6 then 1#32 else 0#32).setWidth 16).toInt)
        else
          throw Err.illegalArgument

end FloatType

namespace DoubleType

/-- DoubleType.java:6 `DEFAULT` -/
def DEFAULT : BitVec 64 :=
  (Convert.intToDouble (0#32).toInt)

/-- DoubleType.java:14 `EqImpl` -/
def EqImpl (a : BitVec 64) (b : BitVec 64) : Bool :=
  ((Floats.decode64 a).eq (Floats.decode64 b))

/-- DoubleType.java:15 `EqEpsilon` -/
def EqEpsilon (a : BitVec 64) (b : BitVec 64) : Bool :=
  ((Floats.sub64 (Floats.decode64 a) (Floats.decode64 b)).abs.lt (Floats.decode64 0x3DDB7CDFD9D7BDBB#64))

/-- DoubleType.java:21 `Asc` -/
def Asc (a : BitVec 64) (b : BitVec 64) : BitVec 32 :=
  (BitVec.ofInt 32 (Convert.toIntegral 1074 32 (Jdk.signum (Floats.sub64 (Floats.decode64 a) (Floats.decode64 b)))))

/-- DoubleType.java:22 `Desc` -/
def Desc (a : BitVec 64) (b : BitVec 64) : BitVec 32 :=
  (BitVec.ofInt 32 (Convert.toIntegral 1074 32 (Jdk.signum (Floats.sub64 (Floats.decode64 b) (Floats.decode64 a)))))

/-- DoubleType.java:23 `AbsAsc` -/
def AbsAsc (a : BitVec 64) (b : BitVec 64) : BitVec 32 :=
  (Asc (Floats.abs64 a) (Floats.abs64 b))

/-- DoubleType.java:24 `AbsDesc` -/
def AbsDesc (a : BitVec 64) (b : BitVec 64) : BitVec 32 :=
  (Desc (Floats.abs64 a) (Floats.abs64 b))

/-- DoubleType.java:40 `IS_EQ` -/
def IS_EQ (a : BitVec 64) (b : BitVec 64) : Bool :=
  ((Floats.decode64 a).eq (Floats.decode64 b))

/-- DoubleType.java:41 `IS_NEQ` -/
def IS_NEQ (a : BitVec 64) (b : BitVec 64) : Bool :=
  (!(Floats.decode64 a).eq (Floats.decode64 b))

/-- DoubleType.java:42 `IS_LT` -/
def IS_LT (a : BitVec 64) (b : BitVec 64) : Bool :=
  ((Floats.decode64 a).lt (Floats.decode64 b))

/-- DoubleType.java:43 `IS_GT` -/
def IS_GT (a : BitVec 64) (b : BitVec 64) : Bool :=
  ((Floats.decode64 b).lt (Floats.decode64 a))

/-- DoubleType.java:44 `IS_LTE` -/
def IS_LTE (a : BitVec 64) (b : BitVec 64) : Bool :=
  ((Floats.decode64 a).le (Floats.decode64 b))

/-- DoubleType.java:45 `IS_GTE` -/
def IS_GTE (a : BitVec 64) (b : BitVec 64) : Bool :=
  ((Floats.decode64 b).le (Floats.decode64 a))

/-- DoubleType.java:63 `HashImpl` -/
def HashImpl (a : BitVec 64) : BitVec 32 :=
  (KeyTypes.doubleHash a)

/-- DoubleType.java:26-34 `comparatorFor` -/
def comparatorFor : Cmp.CompareMethod → Except Err (BitVec 64 → BitVec 64 → BitVec 32)
  | .ascending => .ok Asc
  | .descending => .ok Desc
  | .ascendingAbsolute => .ok AbsAsc
  | .descendingAbsolute => .ok AbsDesc

/-- DoubleType.java:47-57 `predicateFor` -/
def predicateFor : Cmp.PredicateMethod → Except Err (BitVec 64 → BitVec 64 → Bool)
  | .eq => .ok IS_EQ
  | .neq => .ok IS_NEQ
  | .lt => .ok IS_LT
  | .lte => .ok IS_LTE
  | .gt => .ok IS_GT
  | .gte => .ok IS_GTE

/-- DoubleType.java:65-67 `castToInt` -/
def castToInt (value : BitVec 64) : BitVec 32 :=
  (Convert.doubleToInt value)

/-- DoubleType.java:69-71 `castToDouble` -/
def castToDouble (value : BitVec 32) : BitVec 64 :=
  (Convert.intToDouble value.toInt)

/-- DoubleType.java:73-75 `unbox` -/
def unbox (value : Convert.JObj) : Except Err (BitVec 64) := do
  if (value != .null) then
    let x3 ← Jdk.asNumber value
    let x4 ← Jdk.doubleValue x3
    pure x4
  else
    pure DEFAULT

/-- DoubleType.java:77-79 `box` -/
def box (value : BitVec 64) : Convert.JObj :=
  (.num (.double value))

/-- DoubleType.java:81-83 `parseString` -/
def parseString (env : Jdk.Env) (value : Option Convert.JString) : Except Err (BitVec 64) := do
  let x1 ← env.parseDouble value
  pure x1

/-- DoubleType.java:85-87 `writeLE` -/
def writeLE (pos : BitVec 32) (value : BitVec 64) : JM Codec.Bytes (BitVec 32) := do
  let x1 ← LongType.writeLE pos value
  pure x1

/-- DoubleType.java:89-91 `writeBE` -/
def writeBE (pos : BitVec 32) (value : BitVec 64) : JM Codec.Bytes (BitVec 32) := do
  let x1 ← LongType.writeBE pos value
  pure x1

/-- DoubleType.java:93-95 `readLE` -/
def readLE (pos : BitVec 32) : JM Codec.Bytes (BitVec 64) := do
  let x1 ← LongType.readLE pos
  pure x1

/-- DoubleType.java:97-99 `readBE` -/
def readBE (pos : BitVec 32) : JM Codec.Bytes (BitVec 64) := do
  let x1 ← LongType.readBE pos
  pure x1

/-- DoubleType.java:101-117 `convert` -/
def convert (env : Jdk.Env) (value : Convert.JObj) : Except Err (BitVec 64) := do
  if (value == .null) then
    pure DEFAULT
  else
    Jdk.getClass value
    if (Jdk.isNumber value) then
      let x1 ← Jdk.asNumber value
      let x2 ← Jdk.doubleValue x1
      pure x2
    else
      if (Jdk.isString value) then
        let x3 ← Jdk.asString value
        let x4 ← parseString env x3
        pure x4
      else
        if (Jdk.isBoolean value) then
          let x5 ← Jdk.asBoolean value
          let x6 ← Jdk.unboxBoolean x5
          pure (Convert.intToDouble ((if x6 then 1#32 else 0#32).setWidth 16).toInt)
        else
          throw Err.illegalArgument

end DoubleType

namespace BoolType

/-- BoolType.java:6 `DEFAULT` -/
def DEFAULT : Bool :=
  false

/-- BoolType.java:14 `EqImpl` -/
def EqImpl (a : Bool) (b : Bool) : Bool :=
  (a == b)

/-- BoolType.java:20 `Asc` -/
def Asc (a : Bool) (b : Bool) : BitVec 32 :=
  (if (a != b) then (if a then (-1#32) else 1#32) else 0#32)

/-- BoolType.java:21 `Desc` -/
def Desc (a : Bool) (b : Bool) : BitVec 32 :=
  (if (a != b) then (if a then 1#32 else (-1#32)) else 0#32)

/-- BoolType.java:35 `IS_EQ` -/
def IS_EQ (a : Bool) (b : Bool) : Bool :=
  (a == b)

/-- BoolType.java:36 `IS_NEQ` -/
def IS_NEQ (a : Bool) (b : Bool) : Bool :=
  (a != b)

/-- BoolType.java:50 `HashImpl` -/
def HashImpl (v : Bool) : BitVec 32 :=
  (if v then 1#32 else 0#32)

/-- BoolType.java:23-29 `comparatorFor` -/
def comparatorFor : Cmp.CompareMethod → Except Err (Bool → Bool → BitVec 32)
  | .ascending => .ok Asc
  | .descending => .ok Desc
  | _ => .error .illegalState

/-- BoolType.java:38-44 `predicateFor` -/
def predicateFor : Cmp.PredicateMethod → Except Err (Bool → Bool → Bool)
  | .eq => .ok IS_EQ
  | .neq => .ok IS_NEQ
  | _ => .error .illegalState

/-- BoolType.java:52-54 `castToInt` -/
def castToInt (value : Bool) : BitVec 32 :=
  (if value then 1#32 else 0#32)

/-- BoolType.java:56-58 `castToBool` -/
def castToBool (value : BitVec 32) : Bool :=
  (value != 0#32)

/-- BoolType.java:60-62 `unbox` -/
def unbox (value : Convert.JObj) : Except Err Bool := do
  if (value != .null) then
    let x2 ← Jdk.asBoolean value
    let x3 ← Jdk.unboxBoolean x2
    pure x3
  else
    pure DEFAULT

/-- BoolType.java:64-66 `box` -/
def box (value : Bool) : Convert.JObj :=
  (.bool value)

/-- BoolType.java:68-70 `parseString` -/
def parseString (value : Option Convert.JString) : Bool :=
  (Jdk.parseBoolean value)

/-- BoolType.java:72-75 `writeLE` -/
def writeLE (pos : BitVec 32) (value : Bool) : JM Codec.Bytes (BitVec 32) := do
  Codec.wrB pos.toInt ((if value then 1#32 else 0#32).setWidth 8)
  pure (pos + 1#32)

/-- BoolType.java:77-80 `writeBE` -/
def writeBE (pos : BitVec 32) (value : Bool) : JM Codec.Bytes (BitVec 32) := do
  Codec.wrB pos.toInt ((if value then 1#32 else 0#32).setWidth 8)
  pure (pos + 1#32)

/-- BoolType.java:82-84 `readLE` -/
def readLE (pos : BitVec 32) : JM Codec.Bytes Bool := do
  let x1 ← Codec.rdB pos.toInt
  pure ((x1.signExtend 32) == 1#32)

/-- BoolType.java:86-88 `readBE` -/
def readBE (pos : BitVec 32) : JM Codec.Bytes Bool := do
  let x1 ← Codec.rdB pos.toInt
  pure ((x1.signExtend 32) == 1#32)

/-- BoolType.java:90-106 `convert` -/
def convert (value : Convert.JObj) : Except Err Bool := do
  if (value == .null) then
    pure DEFAULT
  else
    Jdk.getClass value
    if (Jdk.isBoolean value) then
      let x1 ← Jdk.asBoolean value
      let x2 ← Jdk.unboxBoolean x1
      pure x2
    else
      if (Jdk.isString value) then
        let x3 ← Jdk.asString value
        pure (parseString x3)
      else
        if (Jdk.isNumber value) then
          let x4 ← Jdk.asNumber value
          let x5 ← Jdk.intValue x4
          pure (x5 != 0#32)
        else
          throw Err.illegalArgument

end BoolType

namespace StringType

/-- StringType.java:18 `EqImpl` -/
def EqImpl {α : Type} (J : Jdk.Refs α) (a : Option Nat) (b : Option Nat) : Bool :=
  (Jdk.objectsEquals J a b)

/-- StringType.java:35-44 `nullableCompare` -/
def nullableCompare (a : Option Nat) (b : Option Nat) (method : Option Nat → Option Nat → Except Err (BitVec 32)) : Except Err (BitVec 32) := do
  if (a == b) then
    pure 0#32
  else
    if (a == none) then
      pure 1#32
    else
      let x1 ← method a b
      pure x1

/-- StringType.java:24 `Asc` -/
def Asc {α : Type} (J : Jdk.Refs α) (a : Option Nat) (b : Option Nat) : Except Err (BitVec 32) := do
  let x1 ← nullableCompare a b (Jdk.compareTo J)
  pure x1

/-- StringType.java:25 `Desc` -/
def Desc {α : Type} (J : Jdk.Refs α) (a : Option Nat) (b : Option Nat) : Except Err (BitVec 32) := do
  let x1 ← nullableCompare b a (Jdk.compareTo J)
  pure x1

/-- StringType.java:26 `AscInsensitive` -/
def AscInsensitive {α : Type} (J : Jdk.Refs α) (a : Option Nat) (b : Option Nat) : Except Err (BitVec 32) := do
  let x1 ← nullableCompare a b (Jdk.compareToIgnoreCase J)
  pure x1

/-- StringType.java:28 `DescInsensitive` -/
def DescInsensitive {α : Type} (J : Jdk.Refs α) (a : Option Nat) (b : Option Nat) : Except Err (BitVec 32) := do
  let x1 ← nullableCompare b a (Jdk.compareToIgnoreCase J)
  pure x1

/-- StringType.java:60 `IS_EQ` -/
def IS_EQ {α : Type} (J : Jdk.Refs α) (a : Option Nat) (b : Option Nat) : Bool :=
  (Jdk.objectsEquals J a b)

/-- StringType.java:61 `IS_NEQ` -/
def IS_NEQ {α : Type} (J : Jdk.Refs α) (a : Option Nat) (b : Option Nat) : Bool :=
  (!(Jdk.objectsEquals J a b))

/-- StringType.java:62 `IS_LT` -/
def IS_LT {α : Type} (J : Jdk.Refs α) (a : Option Nat) (b : Option Nat) : Except Err Bool := do
  let x1 ← Asc J a b
  pure (x1.slt 0#32)

/-- StringType.java:63 `IS_GT` -/
def IS_GT {α : Type} (J : Jdk.Refs α) (a : Option Nat) (b : Option Nat) : Except Err Bool := do
  let x1 ← Asc J a b
  pure ((0#32).slt x1)

/-- StringType.java:64 `IS_LTE` -/
def IS_LTE {α : Type} (J : Jdk.Refs α) (a : Option Nat) (b : Option Nat) : Except Err Bool := do
  let x1 ← Asc J a b
  pure (x1.sle 0#32)

/-- StringType.java:65 `IS_GTE` -/
def IS_GTE {α : Type} (J : Jdk.Refs α) (a : Option Nat) (b : Option Nat) : Except Err Bool := do
  let x1 ← Asc J a b
  pure ((0#32).sle x1)

/-- StringType.java:83 `HashImpl` -/
def HashImpl {α : Type} (J : Jdk.Refs α) (v : Option Nat) : Except Err (BitVec 32) := do
  if (v != none) then
    let x2 ← Jdk.hashCode J v
    pure x2
  else
    pure 0#32

/-- StringType.java:46-54 `comparatorFor` -/
def comparatorFor {α : Type} (J : Jdk.Refs α) : Cmp.CompareMethod → Except Err (Option Nat → Option Nat → Except Err (BitVec 32))
  | .ascending => .ok (Asc J)
  | .descending => .ok (Desc J)
  | .ascendingAbsolute => .ok (AscInsensitive J)
  | .descendingAbsolute => .ok (DescInsensitive J)

/-- StringType.java:67-77 `predicateFor` -/
def predicateFor {α : Type} (J : Jdk.Refs α) : Cmp.PredicateMethod → Except Err (Option Nat → Option Nat → Except Err (Bool))
  | .eq => .ok (fun a b => .ok (IS_EQ J a b))
  | .neq => .ok (fun a b => .ok (IS_NEQ J a b))
  | .lt => .ok (IS_LT J)
  | .lte => .ok (IS_LTE J)
  | .gt => .ok (IS_GT J)
  | .gte => .ok (IS_GTE J)

/-- StringType.java:85-87 `castToInt` -/
def castToInt (value : Option Convert.JString) : Except Err (BitVec 32) := do
  let x1 ← Jdk.parseIntegral 32 value
  pure x1

/-- StringType.java:89-91 `castToString` -/
def castToString (value : BitVec 32) : Option Convert.JString :=
  (Jdk.intToString value)

/-- StringType.java:93-95 `unbox` -/
def unbox (value : Convert.JObj) : Except Err (Option Convert.JString) := do
  let x1 ← Jdk.asString value
  pure x1

/-- StringType.java:97-99 `box` -/
def box (value : Option Convert.JString) : Option Convert.JString :=
  value

/-- StringType.java:101-103 `parseString` -/
def parseString (value : Option Convert.JString) : Option Convert.JString :=
  value

/-- StringType.java:105-107 `convert` -/
def convert (env : Jdk.Env) (value : Convert.JObj) : Except Err (Option Convert.JString) := do
  if (value != .null) then
    let x2 ← Jdk.toString env value
    pure x2
  else
    pure none

end StringType

namespace GenericType

/-- GenericType.java:17 `EqImpl` -/
def EqImpl {α : Type} (J : Jdk.Refs α) (a : Option Nat) (b : Option Nat) : Bool :=
  (Jdk.objectsEquals J a b)

/-- GenericType.java:30-39 `nullableCompare` -/
def nullableCompare {α : Type} (J : Jdk.Refs α) (a : Option Nat) (b : Option Nat) : Except Err (BitVec 32) := do
  if (a == b) then
    pure 0#32
  else
    if (a == none) then
      pure 1#32
    else
      let aCmp := a
      let x1 ← Jdk.compareTo J aCmp b
      pure x1

/-- GenericType.java:23 `Asc` -/
def Asc {α : Type} (J : Jdk.Refs α) (a : Option Nat) (b : Option Nat) : Except Err (BitVec 32) := do
  let x1 ← nullableCompare J a b
  pure x1

/-- GenericType.java:24 `Desc` -/
def Desc {α : Type} (J : Jdk.Refs α) (a : Option Nat) (b : Option Nat) : Except Err (BitVec 32) := do
  let x1 ← nullableCompare J b a
  pure x1

/-- GenericType.java:45 `IS_EQ` -/
def IS_EQ {α : Type} (J : Jdk.Refs α) (a : Option Nat) (b : Option Nat) : Bool :=
  (Jdk.objectsEquals J a b)

/-- GenericType.java:46 `IS_NEQ` -/
def IS_NEQ {α : Type} (J : Jdk.Refs α) (a : Option Nat) (b : Option Nat) : Bool :=
  (!(Jdk.objectsEquals J a b))

/-- GenericType.java:60 `HashImpl` -/
def HashImpl {α : Type} (J : Jdk.Refs α) (v : Option Nat) : Except Err (BitVec 32) := do
  if (v != none) then
    let x2 ← Jdk.hashCode J v
    pure x2
  else
    pure 0#32

/-- GenericType.java:48-54 `predicateFor` -/
def predicateFor {α : Type} (J : Jdk.Refs α) : Cmp.PredicateMethod → Except Err (Option Nat → Option Nat → Bool)
  | .eq => .ok (IS_EQ J)
  | .neq => .ok (IS_NEQ J)
  | _ => .error .illegalState

/-- GenericType.java:62-64 `castToInt` -/
def castToInt (env : Jdk.Env) (value : Convert.JObj) : Except Err (BitVec 32) := do
  let x1 ← Jdk.toString env value
  let x2 ← Jdk.parseIntegral 32 x1
  pure x2

/-- GenericType.java:66-68 `castToGeneric` -/
def castToGeneric (value : BitVec 32) : Convert.JObj :=
  (.num (.int value))

/-- GenericType.java:70-72 `unbox` -/
def unbox (value : Convert.JObj) : Convert.JObj :=
  value

/-- GenericType.java:74-76 `box` -/
def box (value : Convert.JObj) : Convert.JObj :=
  value

/-- GenericType.java:78-80 `parseString` -/
def parseString (value : Option Convert.JString) : Convert.JObj :=
  (Jdk.ofString value)

/-- GenericType.java:82-84 `convert` -/
def convert (value : Convert.JObj) : Convert.JObj :=
  value

end GenericType
end Verif.Gen.Types

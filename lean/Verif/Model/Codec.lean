import Verif.Java
/-!
Models the `writeLE/writeBE/readLE/readBE` methods of `types/ByteType.java`, `BoolType.java`,
`ShortType.java`, `CharType.java`, `IntType.java`, `LongType.java`, `FloatType.java` and
`DoubleType.java` (all in `collections/src/main/java/com/bytefacets/collections/types`).

The object state is the `byte[]`.  Index arithmetic `pos + k` wraps like a Java `int`.  A float or
double is represented by its raw bits, so `floatToRawIntBits`/`intBitsToFloat` and the double
versions are the identity here (JDK behaviour, trusted).
-/
namespace Verif.Codec
open Verif

/-- A Java `byte[]`. -/
abbrev Bytes := Arr (BitVec 8)

/-- `array[i] = v` -/
def wrB (i : Int) (v : BitVec 8) : JM Bytes Unit := wr id (fun _ a => a) (i32 i) v
/-- `array[i]` -/
def rdB (i : Int) : JM Bytes (BitVec 8) := rd id (i32 i)

/-- ByteType.java:92-95 -/
def byteWriteLE (pos : Int) (v : BitVec 8) : JM Bytes Int := do
  wrB pos v
  return i32 (pos + 1)
/-- ByteType.java:97-100 -/
def byteWriteBE (pos : Int) (v : BitVec 8) : JM Bytes Int := do
  wrB pos v
  return i32 (pos + 1)
/-- ByteType.java:102-104 -/
def byteReadLE (pos : Int) : JM Bytes (BitVec 8) := rdB pos
/-- ByteType.java:106-108 -/
def byteReadBE (pos : Int) : JM Bytes (BitVec 8) := rdB pos

/-- BoolType.java:72-75 -/
def boolWriteLE (pos : Int) (v : Bool) : JM Bytes Int := do
  wrB pos (if v then 1#8 else 0#8)
  return i32 (pos + 1)
/-- BoolType.java:77-80 -/
def boolWriteBE (pos : Int) (v : Bool) : JM Bytes Int := do
  wrB pos (if v then 1#8 else 0#8)
  return i32 (pos + 1)
/-- BoolType.java:82-84 -/
def boolReadLE (pos : Int) : JM Bytes Bool := do
  let b ← rdB pos
  return b == 1#8
/-- BoolType.java:86-88 -/
def boolReadBE (pos : Int) : JM Bytes Bool := do
  let b ← rdB pos
  return b == 1#8

/-- ShortType.java:92-96; the `short` is promoted to `int` (sign-extended). -/
def shortWriteLE (pos : Int) (v : BitVec 16) : JM Bytes Int := do
  wrB (pos + 1) (((v.signExtend 32).sshiftRight 8).setWidth 8)
  wrB pos ((v.signExtend 32 &&& 0xff#32).setWidth 8)
  return i32 (pos + 2)
/-- ShortType.java:98-102 -/
def shortWriteBE (pos : Int) (v : BitVec 16) : JM Bytes Int := do
  wrB pos (((v.signExtend 32).sshiftRight 8).setWidth 8)
  wrB (pos + 1) ((v.signExtend 32 &&& 0xff#32).setWidth 8)
  return i32 (pos + 2)
/-- `array[i] & 0xff` as an `int` -/
def ub32 (b : BitVec 8) : BitVec 32 := b.signExtend 32 &&& 0xff#32
/-- ShortType.java:104-106 -/
def shortReadLE (pos : Int) : JM Bytes (BitVec 16) := do
  let b1 ← rdB (pos + 1)
  let b0 ← rdB pos
  return (((ub32 b1) <<< 8) ||| ub32 b0).setWidth 16
/-- ShortType.java:108-110 -/
def shortReadBE (pos : Int) : JM Bytes (BitVec 16) := do
  let b0 ← rdB pos
  let b1 ← rdB (pos + 1)
  return (((ub32 b0) <<< 8) ||| ub32 b1).setWidth 16

/-- CharType.java:104-108; a `char` is promoted to `int` by zero extension. -/
def charWriteLE (pos : Int) (v : BitVec 16) : JM Bytes Int := do
  wrB (pos + 1) (((v.setWidth 32).sshiftRight 8).setWidth 8)
  wrB pos ((v.setWidth 32 &&& 0xff#32).setWidth 8)
  return i32 (pos + 2)
/-- CharType.java:110-114 -/
def charWriteBE (pos : Int) (v : BitVec 16) : JM Bytes Int := do
  wrB pos (((v.setWidth 32).sshiftRight 8).setWidth 8)
  wrB (pos + 1) ((v.setWidth 32 &&& 0xff#32).setWidth 8)
  return i32 (pos + 2)
/-- CharType.java:116-118 -/
def charReadLE (pos : Int) : JM Bytes (BitVec 16) := do
  let b1 ← rdB (pos + 1)
  let b0 ← rdB pos
  return (((ub32 b1) <<< 8) ||| ub32 b0).setWidth 16
/-- CharType.java:120-122 -/
def charReadBE (pos : Int) : JM Bytes (BitVec 16) := do
  let b0 ← rdB pos
  let b1 ← rdB (pos + 1)
  return (((ub32 b0) <<< 8) ||| ub32 b1).setWidth 16

/-- IntType.java:92-98 -/
def intWriteLE (pos : Int) (v : BitVec 32) : JM Bytes Int := do
  wrB (pos + 3) ((v.sshiftRight 24).setWidth 8)
  wrB (pos + 2) ((v.sshiftRight 16).setWidth 8)
  wrB (pos + 1) ((v.sshiftRight 8).setWidth 8)
  wrB pos ((v &&& 0xff#32).setWidth 8)
  return i32 (pos + 4)
/-- IntType.java:100-106 -/
def intWriteBE (pos : Int) (v : BitVec 32) : JM Bytes Int := do
  wrB pos ((v.sshiftRight 24).setWidth 8)
  wrB (pos + 1) ((v.sshiftRight 16).setWidth 8)
  wrB (pos + 2) ((v.sshiftRight 8).setWidth 8)
  wrB (pos + 3) ((v &&& 0xff#32).setWidth 8)
  return i32 (pos + 4)
/-- IntType.java:109-114 -/
def intReadLE (pos : Int) : JM Bytes (BitVec 32) := do
  let b3 ← rdB (pos + 3)
  let b2 ← rdB (pos + 2)
  let b1 ← rdB (pos + 1)
  let b0 ← rdB pos
  return (ub32 b3 <<< 24) ||| (ub32 b2 <<< 16) ||| (ub32 b1 <<< 8) ||| ub32 b0
/-- IntType.java:117-122 -/
def intReadBE (pos : Int) : JM Bytes (BitVec 32) := do
  let b0 ← rdB pos
  let b1 ← rdB (pos + 1)
  let b2 ← rdB (pos + 2)
  let b3 ← rdB (pos + 3)
  return (ub32 b0 <<< 24) ||| (ub32 b1 <<< 16) ||| (ub32 b2 <<< 8) ||| ub32 b3

/-- LongType.java:92-102 -/
def longWriteLE (pos : Int) (v : BitVec 64) : JM Bytes Int := do
  wrB (pos + 7) ((v.sshiftRight 56).setWidth 8)
  wrB (pos + 6) ((v.sshiftRight 48).setWidth 8)
  wrB (pos + 5) ((v.sshiftRight 40).setWidth 8)
  wrB (pos + 4) ((v.sshiftRight 32).setWidth 8)
  wrB (pos + 3) ((v.sshiftRight 24).setWidth 8)
  wrB (pos + 2) ((v.sshiftRight 16).setWidth 8)
  wrB (pos + 1) ((v.sshiftRight 8).setWidth 8)
  wrB pos ((v &&& 0xff#64).setWidth 8)
  return i32 (pos + 8)
/-- LongType.java:104-114 -/
def longWriteBE (pos : Int) (v : BitVec 64) : JM Bytes Int := do
  wrB pos ((v.sshiftRight 56).setWidth 8)
  wrB (pos + 1) ((v.sshiftRight 48).setWidth 8)
  wrB (pos + 2) ((v.sshiftRight 40).setWidth 8)
  wrB (pos + 3) ((v.sshiftRight 32).setWidth 8)
  wrB (pos + 4) ((v.sshiftRight 24).setWidth 8)
  wrB (pos + 5) ((v.sshiftRight 16).setWidth 8)
  wrB (pos + 6) ((v.sshiftRight 8).setWidth 8)
  wrB (pos + 7) ((v &&& 0xff#64).setWidth 8)
  return i32 (pos + 8)
/-- `(long) array[i] & 0xff` -/
def ub64 (b : BitVec 8) : BitVec 64 := b.signExtend 64 &&& 0xff#64
/-- LongType.java:117-126 -/
def longReadLE (pos : Int) : JM Bytes (BitVec 64) := do
  let b7 ← rdB (pos + 7)
  let b6 ← rdB (pos + 6)
  let b5 ← rdB (pos + 5)
  let b4 ← rdB (pos + 4)
  let b3 ← rdB (pos + 3)
  let b2 ← rdB (pos + 2)
  let b1 ← rdB (pos + 1)
  let b0 ← rdB pos
  return (ub64 b7 <<< 56) ||| (ub64 b6 <<< 48) ||| (ub64 b5 <<< 40) ||| (ub64 b4 <<< 32)
    ||| (ub64 b3 <<< 24) ||| (ub64 b2 <<< 16) ||| (ub64 b1 <<< 8) ||| ub64 b0
/-- LongType.java:129-138 -/
def longReadBE (pos : Int) : JM Bytes (BitVec 64) := do
  let b0 ← rdB pos
  let b1 ← rdB (pos + 1)
  let b2 ← rdB (pos + 2)
  let b3 ← rdB (pos + 3)
  let b4 ← rdB (pos + 4)
  let b5 ← rdB (pos + 5)
  let b6 ← rdB (pos + 6)
  let b7 ← rdB (pos + 7)
  return (ub64 b0 <<< 56) ||| (ub64 b1 <<< 48) ||| (ub64 b2 <<< 40) ||| (ub64 b3 <<< 32)
    ||| (ub64 b4 <<< 24) ||| (ub64 b5 <<< 16) ||| (ub64 b6 <<< 8) ||| ub64 b7

/-- FloatType.java:84-98: the int codec on the raw bits. -/
def floatWriteLE (pos : Int) (bits : BitVec 32) : JM Bytes Int := intWriteLE pos bits
@[inherit_doc floatWriteLE]
def floatWriteBE (pos : Int) (bits : BitVec 32) : JM Bytes Int := intWriteBE pos bits
@[inherit_doc floatWriteLE]
def floatReadLE (pos : Int) : JM Bytes (BitVec 32) := intReadLE pos
@[inherit_doc floatWriteLE]
def floatReadBE (pos : Int) : JM Bytes (BitVec 32) := intReadBE pos

/-- DoubleType.java:85-99: the long codec on the raw bits. -/
def doubleWriteLE (pos : Int) (bits : BitVec 64) : JM Bytes Int := longWriteLE pos bits
@[inherit_doc doubleWriteLE]
def doubleWriteBE (pos : Int) (bits : BitVec 64) : JM Bytes Int := longWriteBE pos bits
@[inherit_doc doubleWriteLE]
def doubleReadLE (pos : Int) : JM Bytes (BitVec 64) := longReadLE pos
@[inherit_doc doubleWriteLE]
def doubleReadBE (pos : Int) : JM Bytes (BitVec 64) := longReadBE pos

/-- A value of one of the encodable types. -/
inductive Val
  | byte (v : BitVec 8) | bool (v : Bool) | short (v : BitVec 16) | char (v : BitVec 16)
  | int (v : BitVec 32) | long (v : BitVec 64) | float (bits : BitVec 32) | double (bits : BitVec 64)
  deriving DecidableEq

/-- The encodable types. -/
inductive Ty
  | byte | bool | short | char | int | long | float | double
  deriving DecidableEq

/-- The type of a value. -/
def Val.ty : Val → Ty
  | .byte _ => .byte | .bool _ => .bool | .short _ => .short | .char _ => .char
  | .int _ => .int | .long _ => .long | .float _ => .float | .double _ => .double

/-- Dispatch of a write call to the method of the value's type and the byte order. -/
def write (big : Bool) (pos : Int) : Val → JM Bytes Int
  | .byte v => if big then byteWriteBE pos v else byteWriteLE pos v
  | .bool v => if big then boolWriteBE pos v else boolWriteLE pos v
  | .short v => if big then shortWriteBE pos v else shortWriteLE pos v
  | .char v => if big then charWriteBE pos v else charWriteLE pos v
  | .int v => if big then intWriteBE pos v else intWriteLE pos v
  | .long v => if big then longWriteBE pos v else longWriteLE pos v
  | .float v => if big then floatWriteBE pos v else floatWriteLE pos v
  | .double v => if big then doubleWriteBE pos v else doubleWriteLE pos v

/-- Dispatch of a read call to the method of the type and the byte order. -/
def read (big : Bool) (pos : Int) : Ty → JM Bytes Val
  | .byte => .byte <$> if big then byteReadBE pos else byteReadLE pos
  | .bool => .bool <$> if big then boolReadBE pos else boolReadLE pos
  | .short => .short <$> if big then shortReadBE pos else shortReadLE pos
  | .char => .char <$> if big then charReadBE pos else charReadLE pos
  | .int => .int <$> if big then intReadBE pos else intReadLE pos
  | .long => .long <$> if big then longReadBE pos else longReadLE pos
  | .float => .float <$> if big then floatReadBE pos else floatReadLE pos
  | .double => .double <$> if big then doubleReadBE pos else doubleReadLE pos

end Verif.Codec

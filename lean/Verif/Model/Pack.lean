/-!
Models `collections/src/main/java/com/bytefacets/collections/types/Pack.java` and the bit-flag
helpers of the integer types.  Java `byte/short/int/long` are `BitVec 8/16/32/64`; promotions are
`signExtend`, narrowing casts are `setWidth`, `>>>` is `>>>`, `>>` is `sshiftRight`.
-/
namespace Verif.Pack

/-- Pack.java:8-13 `packToLong(int, int)`. -/
def packToLong (hi lo : BitVec 32) : BitVec 64 :=
  let ret := hi.signExtend 64
  let ret := ret <<< 32
  ret ||| (lo.signExtend 64 &&& 0x00000000FFFFFFFF#64)

/-- Pack.java:15-17 `unpackHiInt`. -/
def unpackHiInt (value : BitVec 64) : BitVec 32 := (value >>> 32).setWidth 32

/-- Pack.java:19-21 `unpackLoInt`. -/
def unpackLoInt (value : BitVec 64) : BitVec 32 := value.setWidth 32

/-- Pack.java:28-33 `packToInt(short, short)`.  The mask is a `long`, so the compound assignment
computes in 64 bits and narrows. -/
def packToInt (hi lo : BitVec 16) : BitVec 32 :=
  let ret := hi.signExtend 32
  let ret := ret <<< 16
  (ret.signExtend 64 ||| (lo.signExtend 64 &&& 0x0000FFFF#64)).setWidth 32

/-- Pack.java:35-37 `unpackHiShort`. -/
def unpackHiShort (value : BitVec 32) : BitVec 16 := (value >>> 16).setWidth 16

/-- Pack.java:39-41 `unpackLoShort`. -/
def unpackLoShort (value : BitVec 32) : BitVec 16 := value.setWidth 16

/-- Pack.java:44-49 `packToShort(byte, byte)`.  `ret <<= 8` computes in `int` and narrows to
`short`; `|=` with a `long` mask computes in `long` and narrows. -/
def packToShort (hi lo : BitVec 8) : BitVec 16 :=
  let ret := hi.signExtend 16
  let ret := (ret.signExtend 32 <<< 8).setWidth 16
  (ret.signExtend 64 ||| (lo.signExtend 64 &&& 0x00FF#64)).setWidth 16

/-- Pack.java:51-53 `unpackHiByte`; the `short` is promoted to `int` before the shift. -/
def unpackHiByte (value : BitVec 16) : BitVec 8 := (value.signExtend 32 >>> 8).setWidth 8

/-- Pack.java:55-57 `unpackLoByte`. -/
def unpackLoByte (value : BitVec 16) : BitVec 8 := value.setWidth 8

/-- Pack.java:23-25 `packToInt(byte, byte, byte, byte)`. -/
def packBytesToInt (b1 b2 b3 b4 : BitVec 8) : BitVec 32 :=
  packToInt (packToShort b1 b2) (packToShort b3 b4)

end Verif.Pack

namespace Verif.Flags

/-- IntType.java:84-86, LongType.java:84-86 `enableBits` (width 32 or 64: no promotion). -/
def enableBits {w : Nat} (flag bits : BitVec w) : BitVec w := flag ||| bits

/-- IntType.java:88-90, LongType.java:88-90 `disableBits`. -/
def disableBits {w : Nat} (flag bits : BitVec w) : BitVec w := flag &&& ~~~bits

/-- ByteType.java:84-86, ShortType.java:84-86 `enableBits`: computed in `int`, narrowed back. -/
def enableBitsNarrow {w : Nat} (flag bits : BitVec w) : BitVec w :=
  (flag.signExtend 32 ||| bits.signExtend 32).setWidth w

/-- ByteType.java:88-90, ShortType.java:88-90 `disableBits`. -/
def disableBitsNarrow {w : Nat} (flag bits : BitVec w) : BitVec w :=
  (flag.signExtend 32 &&& ~~~(bits.signExtend 32)).setWidth w

end Verif.Flags

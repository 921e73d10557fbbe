import Verif.Model.Index
/-!
Models the `EqImpl` and `HashImpl` functions of
`collections/src/main/java/com/bytefacets/collections/types/*Type.java`, the key equality and hash
functions the generated sets and maps use (BaseKeyIndex.ftl:18-19).

Primitive values are their bits. The JDK's `Double.hashCode`, `Float.hashCode`, `Long.hashCode` and
the IEEE `==` are modelled from their specifications.
-/
namespace Verif.KeyTypes

/-- A double's bits are a NaN: exponent all ones, fraction not zero. -/
def isNaN64 (b : BitVec 64) : Bool :=
  decide ((b &&& 0x7fffffffffffffff#64).toNat > (0x7ff0000000000000#64).toNat)

/-- A float's bits are a NaN. -/
def isNaN32 (b : BitVec 32) : Bool := decide ((b &&& 0x7fffffff#32).toNat > (0x7f800000#32).toNat)

/-- +0.0 or -0.0 -/
def isZero64 (b : BitVec 64) : Bool := b == 0#64 || b == 0x8000000000000000#64

/-- +0.0f or -0.0f -/
def isZero32 (b : BitVec 32) : Bool := b == 0#32 || b == 0x80000000#32

/-- DoubleType.java:14 `EqImpl`, Java's `a == b` on doubles: NaN equals nothing, the two zeros are
equal, all other values have one representation. -/
def doubleEq (a b : BitVec 64) : Bool :=
  !isNaN64 a && !isNaN64 b && (a == b || (isZero64 a && isZero64 b))

/-- FloatType.java:14 `EqImpl`. -/
def floatEq (a b : BitVec 32) : Bool :=
  !isNaN32 a && !isNaN32 b && (a == b || (isZero32 a && isZero32 b))

/-- LongType.java:62 `Long::hashCode`: `(int) (value ^ (value >>> 32))`. -/
def longHash (b : BitVec 64) : BitVec 32 := (b ^^^ (b >>> 32)).setWidth 32

/-- DoubleType.java:63 `Double::hashCode`: of `doubleToLongBits`, which maps all NaNs to one. -/
def doubleHash (b : BitVec 64) : BitVec 32 :=
  longHash (if isNaN64 b then 0x7ff8000000000000#64 else b)

/-- FloatType.java:62 `Float::hashCode`: `floatToIntBits`. -/
def floatHash (b : BitVec 32) : BitVec 32 := if isNaN32 b then 0x7fc00000#32 else b

/-- LongType.java:14 `EqImpl` -/
def longEq (a b : BitVec 64) : Bool := a == b

/-- IntType.java:18 `EqImpl`, IntType.java:66 `HashImpl` -/
def intEq (a b : BitVec 32) : Bool := a == b
def intHash (b : BitVec 32) : BitVec 32 := b

/-- ShortType.java:14, 62: the hash is the sign-extended value. -/
def shortEq (a b : BitVec 16) : Bool := a == b
def shortHash (b : BitVec 16) : BitVec 32 := b.signExtend 32

/-- CharType.java:16, 64: the hash is the zero-extended value. -/
def charEq (a b : BitVec 16) : Bool := a == b
def charHash (b : BitVec 16) : BitVec 32 := b.setWidth 32

/-- ByteType.java:14, 62: the hash is the sign-extended value. -/
def byteEq (a b : BitVec 8) : Bool := a == b
def byteHash (b : BitVec 8) : BitVec 32 := b.signExtend 32

/-- BoolType.java:14, 50. -/
def boolEq (a b : Bool) : Bool := a == b
def boolHash (b : Bool) : BitVec 32 := if b then 1 else 0

/-- GenericType.java:17, StringType.java:18 `Objects::equals` on references (`none` is null), where
`same` is `==` on references and `equals` the object's method. -/
def objectsEq {α : Type} (same equals : α → α → Bool) : Option α → Option α → Bool
  | none, none => true
  | some a, some b => same a b || equals a b
  | _, _ => false

/-- GenericType.java:60, StringType.java:83 `v != null ? v.hashCode() : 0`. -/
def objectsHash {α : Type} (hashCode : α → BitVec 32) : Option α → BitVec 32
  | none => 0
  | some a => hashCode a

end Verif.KeyTypes

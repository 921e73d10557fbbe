import Verif.Model.Compare
import Verif.Model.KeyTypes
/-!
Models the comparators and predicates of
`collections/src/main/java/com/bytefacets/collections/types/DoubleType.java` and `FloatType.java`.

A double or float is its bits.  IEEE 754 arithmetic is modelled from the standard (and the Java
Language Specification, 4.2.4, 5.1.3, 15.18.2), not from library code: a finite double is an integer
multiple of `2^-1074` and a finite float one of `2^-149`, so a finite value is an `Int` in that unit.
Subtraction is exact subtraction followed by rounding to nearest, ties to even.  The sign of a zero
result is not kept: nothing modelled here depends on it.
-/
namespace Verif.Floats

/-- A floating-point value: NaN, an infinity, or an integer in units of the smallest positive value. -/
inductive FVal
  | nan
  | inf (neg : Bool)
  | fin (x : Int)
  deriving DecidableEq, Repr

/-- The value of the bits of a double (IEEE 754 binary64; JDK `Double.longBitsToDouble`). -/
def decode64 (b : BitVec 64) : FVal :=
  let neg : Bool := decide (2 ^ 63 ≤ b.toNat)
  let e : Nat := b.toNat / 2 ^ 52 % 2 ^ 11
  let m : Nat := b.toNat % 2 ^ 52
  if e = 2047 then (if m = 0 then .inf neg else .nan)
  else
    let n : Nat := if e = 0 then m else (2 ^ 52 + m) * 2 ^ (e - 1)
    .fin (if neg then -(n : Int) else n)

/-- The value of the bits of a float (IEEE 754 binary32; JDK `Float.intBitsToFloat`). -/
def decode32 (b : BitVec 32) : FVal :=
  let neg : Bool := decide (2 ^ 31 ≤ b.toNat)
  let e : Nat := b.toNat / 2 ^ 23 % 2 ^ 8
  let m : Nat := b.toNat % 2 ^ 23
  if e = 255 then (if m = 0 then .inf neg else .nan)
  else
    let n : Nat := if e = 0 then m else (2 ^ 23 + m) * 2 ^ (e - 1)
    .fin (if neg then -(n : Int) else n)

/-- Round the magnitude `n` to `p` significant bits, to nearest, ties to even. -/
def roundNat (p n : Nat) : Nat :=
  let k := Nat.log2 n + 1 - p
  let q := n / 2 ^ k
  let r := n % 2 ^ k
  (if 2 ^ k < 2 * r ∨ (2 * r = 2 ^ k ∧ q % 2 = 1) then q + 1 else q) * 2 ^ k

/-- Round an exact result to a floating-point format with `p` significant bits whose infinity starts
at `top` units. -/
def roundTo (p top : Nat) (x : Int) : FVal :=
  let m := roundNat p x.natAbs
  if top ≤ m then .inf (x < 0) else .fin (if x < 0 then -m else m)

/-- `2^1024` in units of `2^-1074`. -/
def top64 : Nat := 2 ^ 2098
/-- `2^128` in units of `2^-149`. -/
def top32 : Nat := 2 ^ 277

/-- `a - b` on doubles. -/
def sub64 : FVal → FVal → FVal
  | .nan, _ => .nan
  | _, .nan => .nan
  | .inf s, .inf t => if s = t then .nan else .inf s
  | .inf s, .fin _ => .inf s
  | .fin _, .inf t => .inf (!t)
  | .fin x, .fin y => roundTo 53 top64 (x - y)

/-- `(int) Math.signum(x)`: `signum` is NaN for NaN, `(int) NaN` is 0. -/
def signumInt : FVal → Int
  | .nan => 0
  | .inf neg => if neg then -1 else 1
  | .fin x => if x < 0 then -1 else if x = 0 then 0 else 1

/-- `a < b` (false if one is NaN). -/
def FVal.lt : FVal → FVal → Bool
  | .nan, _ => false
  | _, .nan => false
  | .inf s, .inf t => s && !t
  | .inf s, .fin _ => s
  | .fin _, .inf t => !t
  | .fin x, .fin y => x < y

/-- `a == b` (false if one is NaN). -/
def FVal.eq : FVal → FVal → Bool
  | .nan, _ => false
  | _, .nan => false
  | .inf s, .inf t => s == t
  | .fin x, .fin y => x == y
  | _, _ => false

/-- `a <= b` -/
def FVal.le (a b : FVal) : Bool := a.lt b || a.eq b

/-- `Math.abs(double)`: clears the sign bit. -/
def abs64 (b : BitVec 64) : BitVec 64 := b &&& 0x7fffffffffffffff#64
/-- `Math.abs(float)`. -/
def abs32 (b : BitVec 32) : BitVec 32 := b &&& 0x7fffffff#32

/-- DoubleType.java:21 `Asc = (int) Math.signum(a - b)`. -/
def dAsc (a b : BitVec 64) : Int := signumInt (sub64 (decode64 a) (decode64 b))
/-- DoubleType.java:22 `Desc = (int) Math.signum(b - a)`. -/
def dDesc (a b : BitVec 64) : Int := signumInt (sub64 (decode64 b) (decode64 a))
/-- DoubleType.java:23 `AbsAsc`. -/
def dAbsAsc (a b : BitVec 64) : Int := dAsc (abs64 a) (abs64 b)
/-- DoubleType.java:24 `AbsDesc`. -/
def dAbsDesc (a b : BitVec 64) : Int := dDesc (abs64 a) (abs64 b)

/-- DoubleType.java:26-34 `comparatorFor`. -/
def dComparatorFor : Cmp.CompareMethod → BitVec 64 → BitVec 64 → Int
  | .ascending => dAsc | .descending => dDesc
  | .ascendingAbsolute => dAbsAsc | .descendingAbsolute => dAbsDesc

/-- The value of the literal `1e-10` (bits 0x3DDB7CDFD9D7BDBB). -/
def epsilon : FVal := decode64 0x3DDB7CDFD9D7BDBB#64

/-- `Math.abs` of a computed value. -/
def FVal.abs : FVal → FVal
  | .nan => .nan
  | .inf _ => .inf false
  | .fin x => .fin x.natAbs

/-- DoubleType.java:15 `EqEpsilon = Math.abs(a - b) < 1e-10`. -/
def dEqEpsilon (a b : BitVec 64) : Bool := (sub64 (decode64 a) (decode64 b)).abs.lt epsilon

/-- The predicates of DoubleType.java:40-45 and FloatType.java:39-44 on values. -/
def predFor : Cmp.PredicateMethod → FVal → FVal → Bool
  | .eq => fun a b => a.eq b
  | .neq => fun a b => !a.eq b
  | .lt => fun a b => a.lt b
  | .lte => fun a b => a.le b
  | .gt => fun a b => b.lt a
  | .gte => fun a b => b.le a

/-- DoubleType.java:40-57 `IS_EQ .. IS_GTE`, `predicateFor`. -/
def dPredicateFor (m : Cmp.PredicateMethod) (a b : BitVec 64) : Bool := predFor m (decode64 a) (decode64 b)
/-- FloatType.java:39-56 `IS_EQ .. IS_GTE`, `predicateFor`. -/
def fPredicateFor (m : Cmp.PredicateMethod) (a b : BitVec 32) : Bool := predFor m (decode32 a) (decode32 b)

/-- JDK `Float.floatToIntBits` as a signed int: all NaNs are mapped to one. -/
def floatToIntBits (b : BitVec 32) : Int := (KeyTypes.floatHash b).toInt

/-- JDK `Float.compare` (FloatType.java:20 `Asc`): `<`, then `>`, then the bits as ints. -/
def fAsc (a b : BitVec 32) : Int :=
  if (decode32 a).lt (decode32 b) then -1
  else if (decode32 b).lt (decode32 a) then 1
  else if floatToIntBits a = floatToIntBits b then 0
  else if floatToIntBits a < floatToIntBits b then -1 else 1
/-- FloatType.java:21 `Desc`. -/
def fDesc (a b : BitVec 32) : Int := fAsc b a
/-- FloatType.java:22 `AbsAsc`. -/
def fAbsAsc (a b : BitVec 32) : Int := fAsc (abs32 a) (abs32 b)
/-- FloatType.java:23 `AbsDesc`. -/
def fAbsDesc (a b : BitVec 32) : Int := fAsc (abs32 b) (abs32 a)

/-- FloatType.java:25-33 `comparatorFor`. -/
def fComparatorFor : Cmp.CompareMethod → BitVec 32 → BitVec 32 → Int
  | .ascending => fAsc | .descending => fDesc
  | .ascendingAbsolute => fAbsAsc | .descendingAbsolute => fAbsDesc

end Verif.Floats

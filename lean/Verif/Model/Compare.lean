import Verif.Java
/-!
Models the comparators and predicates of `types/*Type.java`
(`collections/src/main/java/com/bytefacets/collections/types`).  A `byte/short/char/int/long` is the
`Int` of its value (the theorems carry the range); `int` arithmetic wraps (`i32`), `long`
arithmetic wraps (`i64`).
-/
namespace Verif.Cmp
open Verif

/-- Value of a 64-bit two's complement `long` holding the mathematical result `x`. -/
def i64 (x : Int) : Int := (x + 9223372036854775808) % 18446744073709551616 - 9223372036854775808

/-- `Math.abs(int)`: `Integer.MIN_VALUE` stays negative. -/
def abs32 (x : Int) : Int := if x < 0 then i32 (-x) else x
/-- `Math.abs(long)`. -/
def abs64 (x : Int) : Int := if x < 0 then i64 (-x) else x
/-- JDK `Long.compare`. -/
def longCompare (x y : Int) : Int := if x < y then -1 else if x = y then 0 else 1

/-- ByteType.java:20, ShortType.java:20, CharType.java:22, IntType.java:24 `Asc = a - b`
(computed in `int` for all four types). -/
def asc32 (a b : Int) : Int := i32 (a - b)
/-- ByteType.java:21, ShortType.java:21, CharType.java:23, IntType.java:25 `Desc = b - a`. -/
def desc32 (a b : Int) : Int := i32 (b - a)
/-- ByteType.java:22, ShortType.java:22, CharType.java:24, IntType.java:26 `AbsAsc`. -/
def absAsc32 (a b : Int) : Int := i32 (abs32 a - abs32 b)
/-- ByteType.java:23, ShortType.java:23, CharType.java:25, IntType.java:27 `AbsDesc`. -/
def absDesc32 (a b : Int) : Int := i32 (abs32 b - abs32 a)
/-- LongType.java:20 -/
def asc64 (a b : Int) : Int := longCompare a b
/-- LongType.java:21 -/
def desc64 (a b : Int) : Int := longCompare b a
/-- LongType.java:22 -/
def absAsc64 (a b : Int) : Int := longCompare (abs64 a) (abs64 b)
/-- LongType.java:23 -/
def absDesc64 (a b : Int) : Int := longCompare (abs64 b) (abs64 a)
/-- BoolType.java:20 -/
def ascBool (a b : Bool) : Int := if a ≠ b then (if a then -1 else 1) else 0
/-- BoolType.java:21 -/
def descBool (a b : Bool) : Int := if a ≠ b then (if a then 1 else -1) else 0

/-- types/CompareMethod.java -/
inductive CompareMethod | ascending | descending | ascendingAbsolute | descendingAbsolute
/-- types/PredicateMethod.java -/
inductive PredicateMethod | eq | neq | lt | lte | gt | gte

/-- IntType.java:29-37 `comparatorFor` (the same switch in Byte, Short and CharType). -/
def comparatorFor32 : CompareMethod → Int → Int → Int
  | .ascending => asc32 | .descending => desc32
  | .ascendingAbsolute => absAsc32 | .descendingAbsolute => absDesc32
/-- LongType.java:25-33 `comparatorFor`. -/
def comparatorFor64 : CompareMethod → Int → Int → Int
  | .ascending => asc64 | .descending => desc64
  | .ascendingAbsolute => absAsc64 | .descendingAbsolute => absDesc64

/-- `IS_EQ .. IS_GTE` and `predicateFor` of ByteType.java:39-56, ShortType.java:39-56,
CharType.java:41-58, IntType.java:43-60, LongType.java:39-56. -/
def predicateFor : PredicateMethod → Int → Int → Bool
  | .eq => fun a b => a == b
  | .neq => fun a b => a != b
  | .lt => fun a b => a < b
  | .lte => fun a b => a ≤ b
  | .gt => fun a b => b < a
  | .gte => fun a b => b ≤ a

/-- StringType.java:35-44 / GenericType.java:30-39 `nullableCompare`.  References are `Option Nat`
(`none` = null) into a heap `h`; `cmp` is `compareTo` of the values, and `x.compareTo(null)` throws
NullPointerException (JDK contract of `Comparable`). -/
def nullableCompare {α : Type} (h : Nat → α) (cmp : α → α → Int) (a b : Option Nat) :
    Except Err Int :=
  if a = b then .ok 0
  else match a, b with
    | none, _ => .ok 1
    | some _, none => .error .nullPointer
    | some x, some y => .ok (cmp (h x) (h y))

/-- StringType.java:24,26, GenericType.java:23 `Asc`, `AscInsensitive`. -/
def ascRef {α : Type} (h : Nat → α) (cmp : α → α → Int) (a b : Option Nat) : Except Err Int :=
  nullableCompare h cmp a b
/-- StringType.java:25,28, GenericType.java:24 `Desc`, `DescInsensitive`. -/
def descRef {α : Type} (h : Nat → α) (cmp : α → α → Int) (a b : Option Nat) : Except Err Int :=
  nullableCompare h cmp b a

/-- StringType.java:60,18 `Objects::equals` given value equality `eqv`. -/
def objectsEquals {α : Type} (h : Nat → α) (eqv : α → α → Bool) (a b : Option Nat) : Bool :=
  match a, b with
  | none, none => true
  | some x, some y => x == y || eqv (h x) (h y)
  | _, _ => false

/-- StringType.java:60-78 `IS_EQ .. IS_GTE` and `predicateFor`: the order predicates go through `Asc`. -/
def stringPredicateFor {α : Type} (h : Nat → α) (cmp : α → α → Int) (eqv : α → α → Bool) :
    PredicateMethod → Option Nat → Option Nat → Except Err Bool
  | .eq => fun a b => .ok (objectsEquals h eqv a b)
  | .neq => fun a b => .ok (!objectsEquals h eqv a b)
  | .lt => fun a b => (ascRef h cmp a b).map fun c => c < 0
  | .lte => fun a b => (ascRef h cmp a b).map fun c => c ≤ 0
  | .gt => fun a b => (ascRef h cmp a b).map fun c => 0 < c
  | .gte => fun a b => (ascRef h cmp a b).map fun c => 0 ≤ c

end Verif.Cmp

import Verif.Model.Floats
import Verif.Model.Dates
/-!
Models `castTo*`, `box`, `unbox`, `convert` and `parseString` of
`collections/src/main/java/com/bytefacets/collections/types/*Type.java`.

Java objects are `JObj`: null, the boxed primitives, strings (UTF-16 code units), `LocalDate`,
`LocalTime`, or `other` for an object of any other class.  `Number`s other than the six boxed types
(`BigInteger`, `AtomicLong`, ...) are not modelled.  The JDK methods `Number.xxxValue`, the primitive
conversions (JLS 5.1.2, 5.1.3), `Integer.parseInt` and friends and `toString` of the integer types are
modelled from their specifications; `parseInt` knows ASCII digits only.  `Double.parseDouble`,
`Float.parseFloat` and `toString` of floating-point values are parameters.
-/
namespace Verif.Convert
open Floats

/-- A Java string: its UTF-16 code units. -/
abbrev JString := List (BitVec 16)

/-- A boxed number. -/
inductive Num
  | byte (v : BitVec 8)
  | short (v : BitVec 16)
  | int (v : BitVec 32)
  | long (v : BitVec 64)
  | float (v : BitVec 32)
  | double (v : BitVec 64)
  deriving DecidableEq

/-- A reference to a Java object. -/
inductive JObj
  | null
  | num (n : Num)
  | bool (b : Bool)
  | char (c : BitVec 16)
  | string (s : JString)
  | localDate (d : Dates.LDate)
  | localTime (t : Dates.LTime)
  | other
  deriving DecidableEq

/-! ### primitive conversions -/

/-- Narrowing of a floating-point value in units of `2^-u` to an integer type with `w` bits (JLS 5.1.3): NaN
gives 0, otherwise round towards zero and saturate. -/
def toIntegral (u w : Nat) : FVal → Int
  | .nan => 0
  | .inf neg => if neg then -2 ^ (w - 1) else 2 ^ (w - 1) - 1
  | .fin x =>
    let t := x.tdiv (2 ^ u)
    if t < -2 ^ (w - 1) then -2 ^ (w - 1) else if 2 ^ (w - 1) - 1 < t then 2 ^ (w - 1) - 1 else t

/-- `(int) float`, `(int) double`, `(long) float`, `(long) double`. -/
def floatToInt (b : BitVec 32) : BitVec 32 := BitVec.ofInt 32 (toIntegral 149 32 (decode32 b))
@[inherit_doc floatToInt]
def doubleToInt (b : BitVec 64) : BitVec 32 := BitVec.ofInt 32 (toIntegral 1074 32 (decode64 b))
@[inherit_doc floatToInt]
def floatToLong (b : BitVec 32) : BitVec 64 := BitVec.ofInt 64 (toIntegral 149 64 (decode32 b))
@[inherit_doc floatToInt]
def doubleToLong (b : BitVec 64) : BitVec 64 := BitVec.ofInt 64 (toIntegral 1074 64 (decode64 b))

/-- Bits of the floating-point number with sign `neg` and the representable magnitude `n`, for a format with
`w` fraction bits whose infinity starts at `top`; `signBit` is `2^(width-1)`. -/
def encode (w top signBit : Nat) (neg : Bool) (n : Nat) : Nat :=
  let n := min n top
  let m := if n < 2 ^ w then n else
    let k := Nat.log2 n - w
    (k + 1) * 2 ^ w + (n / 2 ^ k - 2 ^ w)
  m + if neg then signBit else 0

/-- The double with the given sign and magnitude (rounded to nearest even if necessary). -/
def mkDouble (neg : Bool) (n : Nat) : BitVec 64 := BitVec.ofNat 64 (encode 52 top64 (2 ^ 63) neg (roundNat 53 n))
/-- The float with the given sign and magnitude (rounded to nearest even if necessary). -/
def mkFloat (neg : Bool) (n : Nat) : BitVec 32 := BitVec.ofNat 32 (encode 23 top32 (2 ^ 31) neg (roundNat 24 n))

/-- Widening of an integer to `double` (JLS 5.1.2). -/
def intToDouble (x : Int) : BitVec 64 := mkDouble (x < 0) (x.natAbs * 2 ^ 1074)
/-- Widening of an integer to `float` (JLS 5.1.2). -/
def intToFloat (x : Int) : BitVec 32 := mkFloat (x < 0) (x.natAbs * 2 ^ 149)

/-- Widening `float` to `double`: exact. -/
def floatToDouble (b : BitVec 32) : BitVec 64 :=
  match decode32 b with
  | .nan => 0x7ff8000000000000#64
  | .inf neg => mkDouble neg top64
  | .fin x => mkDouble (decide (2 ^ 31 ≤ b.toNat)) (x.natAbs * 2 ^ 925)

/-- Narrowing `double` to `float`: round to nearest even among the floats.  `k` is the number of low bits
(in units of `2^-1074`) that a float has no place for. -/
def doubleToFloat (b : BitVec 64) : BitVec 32 :=
  match decode64 b with
  | .nan => 0x7fc00000#32
  | .inf neg => mkFloat neg top32
  | .fin x =>
    let n := x.natAbs
    let k := max (Nat.log2 n + 1 - 24) 925
    let q := n / 2 ^ k
    let r := n % 2 ^ k
    let q := if 2 ^ k < 2 * r ∨ (2 * r = 2 ^ k ∧ q % 2 = 1) then q + 1 else q
    mkFloat (decide (2 ^ 63 ≤ b.toNat)) (q * 2 ^ (k - 925))

/-! ### JDK `Number` -/

/-- JDK `Number.longValue`. -/
def Num.longValue : Num → BitVec 64
  | .byte v => v.signExtend 64
  | .short v => v.signExtend 64
  | .int v => v.signExtend 64
  | .long v => v
  | .float v => floatToLong v
  | .double v => doubleToLong v
/-- JDK `Number.intValue`. -/
def Num.intValue : Num → BitVec 32
  | .byte v => v.signExtend 32
  | .short v => v.signExtend 32
  | .int v => v
  | .long v => v.setWidth 32
  | .float v => floatToInt v
  | .double v => doubleToInt v
/-- JDK `Number.shortValue`; a floating-point number is narrowed to int first. -/
def Num.shortValue : Num → BitVec 16
  | .byte v => v.signExtend 16
  | .short v => v
  | .int v => v.setWidth 16
  | .long v => v.setWidth 16
  | .float v => (floatToInt v).setWidth 16
  | .double v => (doubleToInt v).setWidth 16
/-- JDK `Number.byteValue`. -/
def Num.byteValue : Num → BitVec 8
  | .byte v => v
  | .short v => v.setWidth 8
  | .int v => v.setWidth 8
  | .long v => v.setWidth 8
  | .float v => (floatToInt v).setWidth 8
  | .double v => (doubleToInt v).setWidth 8
/-- JDK `Number.doubleValue`. -/
def Num.doubleValue : Num → BitVec 64
  | .byte v => intToDouble v.toInt
  | .short v => intToDouble v.toInt
  | .int v => intToDouble v.toInt
  | .long v => intToDouble v.toInt
  | .float v => floatToDouble v
  | .double v => v
/-- JDK `Number.floatValue`. -/
def Num.floatValue : Num → BitVec 32
  | .byte v => intToFloat v.toInt
  | .short v => intToFloat v.toInt
  | .int v => intToFloat v.toInt
  | .long v => intToFloat v.toInt
  | .float v => v
  | .double v => doubleToFloat v

/-! ### JDK parsing and formatting of integers -/

/-- Value of an ASCII decimal digit. -/
def digit? (c : BitVec 16) : Option Nat := if 48 ≤ c.toNat ∧ c.toNat ≤ 57 then some (c.toNat - 48) else none

/-- Value of a non-empty sequence of digits, `acc` being the value of what was read before. -/
def digits? (acc : Nat) : JString → Option Nat
  | [] => some acc
  | c :: cs => match digit? c with
    | none => none
    | some d => digits? (acc * 10 + d) cs

/-- The number a decimal string denotes: an optional sign and at least one digit. -/
def decimal? : JString → Option Int
  | [] => none
  | c :: cs =>
    if c = 45#16 then (if cs = [] then none else (digits? 0 cs).map fun n : Nat => -(n : Int))
    else if c = 43#16 then (if cs = [] then none else (digits? 0 cs).map fun n : Nat => (n : Int))
    else (digits? 0 (c :: cs)).map fun n : Nat => (n : Int)

/-- JDK `Byte.parseByte`, `Short.parseShort`, `Integer.parseInt`, `Long.parseLong` (width `w`). -/
def parseIntegral (w : Nat) (s : JString) : Except Err (BitVec w) :=
  match decimal? s with
  | none => .error .numberFormat
  | some x => if -2 ^ (w - 1) ≤ x ∧ x < 2 ^ (w - 1) then .ok (BitVec.ofInt w x) else .error .numberFormat

/-- Decimal digits of a natural number. -/
def showNat (n : Nat) : JString :=
  if n < 10 then [BitVec.ofNat 16 (48 + n)] else showNat (n / 10) ++ [BitVec.ofNat 16 (48 + n % 10)]

/-- JDK `toString` of the integer types. -/
def showInt (x : Int) : JString := if x < 0 then 45#16 :: showNat x.natAbs else showNat x.natAbs

/-- JDK `Character.toLowerCase` on ASCII letters. -/
def lower (c : BitVec 16) : BitVec 16 := if 65 ≤ c.toNat ∧ c.toNat ≤ 90 then c + 32#16 else c

/-- The string "true" -/
def trueString : JString := [116#16, 114#16, 117#16, 101#16]
/-- The string "false" -/
def falseString : JString := [102#16, 97#16, 108#16, 115#16, 101#16]

/-- JDK `Boolean.parseBoolean`: `"true".equalsIgnoreCase(s)` (ASCII case folding). -/
def parseBoolean (s : JString) : Bool := s.map lower == trueString

/-! ### `parseString` -/

/-- ByteType.java:80-82, ShortType.java:80-82, IntType.java:80-82, LongType.java:80-82. -/
def byteParse (s : JString) : Except Err (BitVec 8) := parseIntegral 8 s
@[inherit_doc byteParse] def shortParse (s : JString) : Except Err (BitVec 16) := parseIntegral 16 s
@[inherit_doc byteParse] def intParse (s : JString) : Except Err (BitVec 32) := parseIntegral 32 s
@[inherit_doc byteParse] def longParse (s : JString) : Except Err (BitVec 64) := parseIntegral 64 s
/-- CharType.java:82-84 (the argument is never null here). -/
def charParse (s : JString) : BitVec 16 := if 0 < s.length then s.headD 0 else 0
/-- BoolType.java:68-70. -/
def boolParse (s : JString) : Bool := parseBoolean s

/-! ### `convert` -/

/-- ByteType.java:110-127. -/
def byteConvert : JObj → Except Err (BitVec 8)
  | .null => .ok 0
  | .num n => .ok n.byteValue
  | .string s => byteParse s
  | .bool b => .ok (if b then 1 else 0)
  | _ => .error .illegalArgument

/-- ShortType.java:112-129. -/
def shortConvert : JObj → Except Err (BitVec 16)
  | .null => .ok 0
  | .num n => .ok n.shortValue
  | .string s => shortParse s
  | .bool b => .ok (if b then 1 else 0)
  | _ => .error .illegalArgument

/-- IntType.java:124-146. -/
def intConvert : JObj → Except Err (BitVec 32)
  | .null => .ok 0
  | .num n => .ok n.intValue
  | .string s => intParse s
  | .localDate d => .ok (BitVec.ofInt 32 (Dates.fromLocalDate d))
  | .localTime t => .ok (BitVec.ofInt 32 (Dates.fromLocalTime t))
  | .bool b => .ok (if b then 1 else 0)
  | _ => .error .illegalArgument

/-- LongType.java:140-157. -/
def longConvert : JObj → Except Err (BitVec 64)
  | .null => .ok 0
  | .num n => .ok n.longValue
  | .string s => longParse s
  | .bool b => .ok (if b then 1 else 0)
  | _ => .error .illegalArgument

/-- CharType.java:86-102; `TRUE = 't'`, `FALSE = 'f'` (CharType.java:7-8). -/
def charConvert : JObj → Except Err (BitVec 16)
  | .null => .ok 0
  | .num n => .ok (n.intValue.setWidth 16)
  | .string s => .ok (charParse s)
  | .bool b => .ok (if b then 116 else 102)
  | _ => .error .illegalArgument

/-- BoolType.java:90-106. -/
def boolConvert : JObj → Except Err Bool
  | .null => .ok false
  | .bool b => .ok b
  | .string s => .ok (boolParse s)
  | .num n => .ok (n.intValue != 0)
  | _ => .error .illegalArgument

/-- FloatType.java:100-117, given JDK `Float.parseFloat`. -/
def floatConvert (parse : JString → Except Err (BitVec 32)) : JObj → Except Err (BitVec 32)
  | .null => .ok 0
  | .num n => .ok n.floatValue
  | .string s => parse s
  | .bool b => .ok (intToFloat (if b then 1 else 0))
  | _ => .error .illegalArgument

/-- DoubleType.java:101-118, given JDK `Double.parseDouble`. -/
def doubleConvert (parse : JString → Except Err (BitVec 64)) : JObj → Except Err (BitVec 64)
  | .null => .ok 0
  | .num n => .ok n.doubleValue
  | .string s => parse s
  | .bool b => .ok (intToDouble (if b then 1 else 0))
  | _ => .error .illegalArgument

/-- StringType.java:105-107: `value.toString()`, null for null; `toStr` is the `toString` of objects other
than integers, booleans, characters and strings. -/
def stringConvert (toStr : JObj → JString) : JObj → Option JString
  | .null => none
  | .num (.byte v) => some (showInt v.toInt)
  | .num (.short v) => some (showInt v.toInt)
  | .num (.int v) => some (showInt v.toInt)
  | .num (.long v) => some (showInt v.toInt)
  | .bool b => some (if b then trueString else falseString)
  | .char c => some [c]
  | .string s => some s
  | o => some (toStr o)

/-! ### `unbox` -/

/-- ByteType.java:72-74; the cast `(Number) value` fails for other classes. -/
def byteUnbox : JObj → Except Err (BitVec 8)
  | .null => .ok 0 | .num n => .ok n.byteValue | _ => .error .classCast
/-- ShortType.java:72-74. -/
def shortUnbox : JObj → Except Err (BitVec 16)
  | .null => .ok 0 | .num n => .ok n.shortValue | _ => .error .classCast
/-- IntType.java:72-74. -/
def intUnbox : JObj → Except Err (BitVec 32)
  | .null => .ok 0 | .num n => .ok n.intValue | _ => .error .classCast
/-- LongType.java:72-74. -/
def longUnbox : JObj → Except Err (BitVec 64)
  | .null => .ok 0 | .num n => .ok n.longValue | _ => .error .classCast
/-- FloatType.java:72-74. -/
def floatUnbox : JObj → Except Err (BitVec 32)
  | .null => .ok 0 | .num n => .ok n.floatValue | _ => .error .classCast
/-- DoubleType.java:73-75. -/
def doubleUnbox : JObj → Except Err (BitVec 64)
  | .null => .ok 0 | .num n => .ok n.doubleValue | _ => .error .classCast
/-- CharType.java:74-76: `(Character) value`. -/
def charUnbox : JObj → Except Err (BitVec 16)
  | .null => .ok 0 | .char c => .ok c | _ => .error .classCast
/-- BoolType.java:60-62: `(Boolean) value`. -/
def boolUnbox : JObj → Except Err Bool
  | .null => .ok false | .bool b => .ok b | _ => .error .classCast

/-! ### `box`: ByteType.java:76, ShortType.java:76, IntType.java:76, LongType.java:76, FloatType.java:76,
DoubleType.java:77, CharType.java:78, BoolType.java:64 -/

/-- autoboxing -/
def byteBox (v : BitVec 8) : JObj := .num (.byte v)
@[inherit_doc byteBox] def shortBox (v : BitVec 16) : JObj := .num (.short v)
@[inherit_doc byteBox] def intBox (v : BitVec 32) : JObj := .num (.int v)
@[inherit_doc byteBox] def longBox (v : BitVec 64) : JObj := .num (.long v)
@[inherit_doc byteBox] def floatBox (v : BitVec 32) : JObj := .num (.float v)
@[inherit_doc byteBox] def doubleBox (v : BitVec 64) : JObj := .num (.double v)
@[inherit_doc byteBox] def charBox (v : BitVec 16) : JObj := .char v
@[inherit_doc byteBox] def boolBox (v : Bool) : JObj := .bool v

/-! ### `castTo*` -/

/-- ByteType.java:64-66, 68-70. -/
def byteCastToInt (v : BitVec 8) : BitVec 32 := v.signExtend 32
@[inherit_doc byteCastToInt] def castToByte (v : BitVec 32) : BitVec 8 := (v &&& 0xff#32).setWidth 8
/-- ShortType.java:64-66, 68-70. -/
def shortCastToInt (v : BitVec 16) : BitVec 32 := v.signExtend 32
@[inherit_doc shortCastToInt] def castToShort (v : BitVec 32) : BitVec 16 := v.setWidth 16
/-- CharType.java:66-68, 70-72. -/
def charCastToInt (v : BitVec 16) : BitVec 32 := v.setWidth 32
@[inherit_doc charCastToInt] def castToChar (v : BitVec 32) : BitVec 16 := v.setWidth 16
/-- LongType.java:64-66, 68-70. -/
def longCastToInt (v : BitVec 64) : BitVec 32 := v.setWidth 32
@[inherit_doc longCastToInt] def castToLong (v : BitVec 32) : BitVec 64 := v.signExtend 64
/-- BoolType.java:52-54, 56-58. -/
def boolCastToInt (v : Bool) : BitVec 32 := if v then 1 else 0
@[inherit_doc boolCastToInt] def castToBool (v : BitVec 32) : Bool := v != 0
/-- FloatType.java:64-66, 68-70. -/
def floatCastToInt (v : BitVec 32) : BitVec 32 := floatToInt v
@[inherit_doc floatCastToInt] def castToFloat (v : BitVec 32) : BitVec 32 := intToFloat v.toInt
/-- DoubleType.java:65-67, 69-71. -/
def doubleCastToInt (v : BitVec 64) : BitVec 32 := doubleToInt v
@[inherit_doc doubleCastToInt] def castToDouble (v : BitVec 32) : BitVec 64 := intToDouble v.toInt
/-- StringType.java:85-87, 89-91. -/
def stringCastToInt (s : JString) : Except Err (BitVec 32) := parseIntegral 32 s
@[inherit_doc stringCastToInt] def castToString (v : BitVec 32) : JString := showInt v.toInt

end Verif.Convert

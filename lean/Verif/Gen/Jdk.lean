import Verif.Model.Codec
import Verif.Model.Convert
import Verif.Model.Snowflake
/-!
The JDK methods that the generated modules `Types` and `Snowflake` call, on bit vectors: written from their
specifications, as in the hand-written model.  Nothing here models a method of `/repo`.
-/
namespace Verif.Gen.Jdk
open Verif Convert

/-- `Math.abs(int)` -/
def absInt (x : BitVec 32) : BitVec 32 := if x.slt 0#32 then -x else x
/-- `Math.abs(long)` -/
def absLong (x : BitVec 64) : BitVec 64 := if x.slt 0#64 then -x else x
/-- `Long.compare` -/
def longCompare (x y : BitVec 64) : BitVec 32 := if x.slt y then -1#32 else if x == y then 0#32 else 1#32
/-- `Float.compare` -/
def floatCompare (a b : BitVec 32) : BitVec 32 := BitVec.ofInt 32 (Floats.fAsc a b)
/-- `Math.signum(double)` of a computed value (the sign of a zero is not kept). -/
def signum : Floats.FVal → Floats.FVal
  | .nan => .nan
  | .inf neg => .fin (if neg then -2 ^ 1074 else 2 ^ 1074)
  | .fin x => .fin (if x < 0 then -2 ^ 1074 else if x = 0 then 0 else 2 ^ 1074)

/-! ### references (`none` is null) -/

/-- Objects with their methods: what a reference points to, `compareTo`, `compareToIgnoreCase`, `equals` and
`hashCode`. -/
structure Refs (α : Type) where
  heap : Nat → α
  compareTo : α → α → BitVec 32
  compareToIgnoreCase : α → α → BitVec 32
  equals : α → α → Bool
  hashCode : α → BitVec 32

/-- `a.cmp(b)`: throws if one of them is null (`Comparable` requires it for `b`). -/
def comparing {α : Type} (h : Nat → α) (cmp : α → α → BitVec 32) : Option Nat → Option Nat → Except Err (BitVec 32)
  | some x, some y => .ok (cmp (h x) (h y))
  | _, _ => .error .nullPointer
/-- `a.compareTo(b)` -/
def compareTo {α : Type} (J : Refs α) : Option Nat → Option Nat → Except Err (BitVec 32) := comparing J.heap J.compareTo
/-- `a.compareToIgnoreCase(b)` -/
def compareToIgnoreCase {α : Type} (J : Refs α) : Option Nat → Option Nat → Except Err (BitVec 32) :=
  comparing J.heap J.compareToIgnoreCase
/-- `a.hashCode()` -/
def hashCode {α : Type} (J : Refs α) : Option Nat → Except Err (BitVec 32)
  | some x => .ok (J.hashCode (J.heap x))
  | none => .error .nullPointer
/-- `Objects.equals(a, b)`: `(a == b) || (a != null && a.equals(b))`. -/
def objectsEquals {α : Type} (J : Refs α) : Option Nat → Option Nat → Bool
  | none, none => true
  | some x, some y => x == y || J.equals (J.heap x) (J.heap y)
  | _, _ => false

/-! ### boxed values and strings -/

/-- The JDK methods that are not modelled. -/
structure Env where
  parseFloat : Option JString → Except Err (BitVec 32)
  parseDouble : Option JString → Except Err (BitVec 64)
  toStr : JObj → JString

/-- A reference to a string as a reference to an object. -/
def ofString : Option JString → JObj
  | none => .null
  | some s => .string s
/-- `o.getClass()`: only whether it throws. -/
def getClass : JObj → Except Err Unit
  | .null => .error .nullPointer
  | _ => .ok ()
/-- `Number.class.isAssignableFrom(o.getClass())` for `o` not null, and so on. -/
def isNumber : JObj → Bool | .num _ => true | _ => false
@[inherit_doc isNumber] def isString : JObj → Bool | .string _ => true | _ => false
@[inherit_doc isNumber] def isBoolean : JObj → Bool | .bool _ => true | _ => false
@[inherit_doc isNumber] def isLocalDate : JObj → Bool | .localDate _ => true | _ => false
@[inherit_doc isNumber] def isLocalTime : JObj → Bool | .localTime _ => true | _ => false
/-- `(Number) o`; null can be cast. -/
def asNumber : JObj → Except Err (Option Num)
  | .null => .ok none
  | .num n => .ok (some n)
  | _ => .error .classCast
/-- `(String) o` -/
def asString : JObj → Except Err (Option JString)
  | .null => .ok none
  | .string s => .ok (some s)
  | _ => .error .classCast
/-- `(Boolean) o` -/
def asBoolean : JObj → Except Err JObj
  | .null => .ok .null
  | .bool b => .ok (.bool b)
  | _ => .error .classCast
/-- `(Character) o` -/
def asCharacter : JObj → Except Err JObj
  | .null => .ok .null
  | .char c => .ok (.char c)
  | _ => .error .classCast
/-- `(LocalDate) o`, used as an object. -/
def asLocalDate : JObj → Except Err Dates.LDate
  | .null => .error .nullPointer
  | .localDate d => .ok d
  | _ => .error .classCast
/-- `(LocalTime) o`, used as an object. -/
def asLocalTime : JObj → Except Err Dates.LTime
  | .null => .error .nullPointer
  | .localTime t => .ok t
  | _ => .error .classCast
/-- Unboxing of a `Boolean`. -/
def unboxBoolean : JObj → Except Err Bool
  | .bool b => .ok b
  | _ => .error .nullPointer
/-- Unboxing of a `Character`. -/
def unboxCharacter : JObj → Except Err (BitVec 16)
  | .char c => .ok c
  | _ => .error .nullPointer
/-- A method of `Number`. -/
def value {α : Type} (f : Num → α) : Option Num → Except Err α
  | some n => .ok (f n)
  | none => .error .nullPointer
def byteValue := value Num.byteValue
def shortValue := value Num.shortValue
def intValue := value Num.intValue
def longValue := value Num.longValue
def floatValue := value Num.floatValue
def doubleValue := value Num.doubleValue
/-- `Integer.parseInt` and its siblings, for `w` bits. -/
def parseIntegral (w : Nat) : Option JString → Except Err (BitVec w)
  | some s => Convert.parseIntegral w s
  | none => .error .numberFormat
/-- `Boolean.parseBoolean` -/
def parseBoolean : Option JString → Bool
  | some s => Convert.parseBoolean s
  | none => false
/-- `s.length()` (of a string that can exist: shorter than `2 ^ 31`) -/
def length : Option JString → Except Err (BitVec 32)
  | some s => .ok (BitVec.ofNat 32 (min s.length (2 ^ 31 - 1)))
  | none => .error .nullPointer
/-- `s.charAt(i)` -/
def charAt : Option JString → BitVec 32 → Except Err (BitVec 16)
  | some s, i => if 0 ≤ i.toInt ∧ i.toInt < s.length then .ok (s.getD i.toInt.toNat 0) else .error .indexOutOfBounds
  | none, _ => .error .nullPointer
/-- `Integer.toString` -/
def intToString (v : BitVec 32) : Option JString := some (showInt v.toInt)
/-- `o.toString()` -/
def toString (env : Env) : JObj → Except Err (Option JString)
  | .null => .error .nullPointer
  | .num (.byte v) => .ok (some (showInt v.toInt))
  | .num (.short v) => .ok (some (showInt v.toInt))
  | .num (.int v) => .ok (some (showInt v.toInt))
  | .num (.long v) => .ok (some (showInt v.toInt))
  | .bool b => .ok (some (if b then trueString else falseString))
  | .char c => .ok (some [c])
  | .string s => .ok (some s)
  | o => .ok (some (env.toStr o))
/-- `LocalDate.of` -/
def dateOf (y m d : BitVec 32) : Except Err Dates.LDate := Dates.dateOf y.toInt m.toInt d.toInt
/-- `LocalTime.of` -/
def timeOf (h m s : BitVec 32) : Except Err Dates.LTime := Dates.timeOf h.toInt m.toInt s.toInt

/-! ### the clock -/

/-- `clock.getAsLong()`: the next reading. -/
def getAsLong : JM Snowflake (BitVec 64) := ⟨fun s =>
  match s.clock with
  | [] => .err .diverge s
  | c :: cs => .ok c { s with clock := cs }⟩

end Verif.Gen.Jdk

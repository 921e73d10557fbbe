import Verif.Spec.Floats
import Verif.Model.Convert
/-! The numerical value of a boxed number, for stating C79: an integer in units of `2^-1074`. -/
namespace Verif.ConvertSpec
open FloatSpec Convert

/-- The numerical value of a boxed number in units of `2^-1074`; none for NaN and the infinities. -/
def value : Num → Option Int
  | .byte v => some (v.toInt * 2 ^ 1074)
  | .short v => some (v.toInt * 2 ^ 1074)
  | .int v => some (v.toInt * 2 ^ 1074)
  | .long v => some (v.toInt * 2 ^ 1074)
  | .float v => if expo32 v = 255 then none else some (num32 v * 2 ^ 925)
  | .double v => if expo64 v = 2047 then none else some (num64 v)

/-- Decimal digits and the number they denote. -/
inductive Digits : JString → Nat → Prop
  | one {d : Nat} : d < 10 → Digits [BitVec.ofNat 16 (48 + d)] d
  | more {s : JString} {n d : Nat} : Digits s n → d < 10 → Digits (s ++ [BitVec.ofNat 16 (48 + d)]) (n * 10 + d)

/-- The text denotes the integer: decimal digits, at least one, with an optional sign in front (43 is `+`, 45 is
`-`). -/
def Denotes (s : JString) (x : Int) : Prop :=
  ∃ t n, Digits t n ∧ ((s = t ∧ x = n) ∨ (s = 43#16 :: t ∧ x = n) ∨ (s = 45#16 :: t ∧ x = -n))

/-- The nearest number that an integer type with `w` bits has. -/
def clamp (w : Nat) (x : Int) : Int := max (-2 ^ (w - 1)) (min (2 ^ (w - 1) - 1) x)

end Verif.ConvertSpec

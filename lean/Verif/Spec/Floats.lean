/-!
What the bits of a Java `double` or `float` mean, for stating C73 - C78.  Independent of the model:
the numerical value is given by the textbook formula, as an integer in units of the smallest positive
value of the type (`2^-1074` for `double`, `2^-149` for `float`).  The formula gives ±2^1024 (±2^128)
for the infinities, which is larger (smaller) than every finite value of the type.
-/
namespace Verif.FloatSpec

/-- exponent field / fraction field / sign of a double -/
def expo64 (b : BitVec 64) : Nat := (b.extractLsb' 52 11).toNat
@[inherit_doc expo64] def frac64 (b : BitVec 64) : Nat := (b.extractLsb' 0 52).toNat
@[inherit_doc expo64] def neg64 (b : BitVec 64) : Bool := b.getLsbD 63

/-- The double is not a number. -/
def IsNaN64 (b : BitVec 64) : Prop := expo64 b = 2047 ∧ frac64 b ≠ 0
/-- The double is a finite number. -/
def Finite64 (b : BitVec 64) : Prop := expo64 b ≠ 2047

/-- Magnitude of a double that is not NaN, in units of `2^-1074`. -/
def mag64 (b : BitVec 64) : Nat :=
  if expo64 b = 0 then frac64 b else (2 ^ 52 + frac64 b) * 2 ^ (expo64 b - 1)
/-- Numerical value of a double that is not NaN, in units of `2^-1074`. -/
def num64 (b : BitVec 64) : Int := if neg64 b then -mag64 b else mag64 b

/-- exponent field / fraction field / sign of a float -/
def expo32 (b : BitVec 32) : Nat := (b.extractLsb' 23 8).toNat
@[inherit_doc expo32] def frac32 (b : BitVec 32) : Nat := (b.extractLsb' 0 23).toNat
@[inherit_doc expo32] def neg32 (b : BitVec 32) : Bool := b.getLsbD 31

/-- The float is not a number. -/
def IsNaN32 (b : BitVec 32) : Prop := expo32 b = 255 ∧ frac32 b ≠ 0
/-- Magnitude of a float that is not NaN, in units of `2^-149`. -/
def mag32 (b : BitVec 32) : Nat :=
  if expo32 b = 0 then frac32 b else (2 ^ 23 + frac32 b) * 2 ^ (expo32 b - 1)
/-- Numerical value of a float that is not NaN, in units of `2^-149`. -/
def num32 (b : BitVec 32) : Int := if neg32 b then -mag32 b else mag32 b

instance (b : BitVec 64) : Decidable (IsNaN64 b) := inferInstanceAs (Decidable (_ ∧ _))
instance (b : BitVec 64) : Decidable (Finite64 b) := inferInstanceAs (Decidable (¬ _))
instance (b : BitVec 32) : Decidable (IsNaN32 b) := inferInstanceAs (Decidable (_ ∧ _))

end Verif.FloatSpec

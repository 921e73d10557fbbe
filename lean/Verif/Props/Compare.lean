import Verif.Model.Compare
/-! # Properties C18 - C20, C67: comparators -/
namespace Verif
open Cmp

/-- A comparison result `c` says what the order of `x` and `y` is. -/
def SignIs (c x y : Int) : Prop := (c < 0 ↔ x < y) ∧ (c = 0 ↔ x = y) ∧ (0 < c ↔ y < x)

/-- The values of a Java integer type. -/
def Byte (x : Int) : Prop := -128 ≤ x ∧ x < 128
@[inherit_doc Byte] def Short (x : Int) : Prop := -32768 ≤ x ∧ x < 32768
@[inherit_doc Byte] def Char (x : Int) : Prop := 0 ≤ x ∧ x < 65536
@[inherit_doc Byte] def Int32 (x : Int) : Prop := -2147483648 ≤ x ∧ x < 2147483648
@[inherit_doc Byte] def Int64 (x : Int) : Prop :=
  -9223372036854775808 ≤ x ∧ x < 9223372036854775808

theorem asc32_iff {a b : Int} (ha : Int32 a) (hb : Int32 b) :
    SignIs (asc32 a b) a b ↔ Int32 (a - b) := by
  unfold SignIs asc32 i32 Int32 at *; omega

/-- C18 for byte, short and char (computed by subtraction in int) and for long. -/
theorem C18_byte (a b : Int) (ha : Byte a) (hb : Byte b) : SignIs (asc32 a b) a b := by
  unfold SignIs asc32 i32 Byte at *; omega
theorem C18_short (a b : Int) (ha : Short a) (hb : Short b) : SignIs (asc32 a b) a b := by
  unfold SignIs asc32 i32 Short at *; omega
theorem C18_char (a b : Int) (ha : Char a) (hb : Char b) : SignIs (asc32 a b) a b := by
  unfold SignIs asc32 i32 Char at *; omega
theorem C18_long (a b : Int) : SignIs (asc64 a b) a b := by
  unfold SignIs asc64 longCompare
  split
  · omega
  · split <;> omega

/-- C18 for int holds exactly for the pairs whose difference is an int (so for all non-negative
ints, for instance); the full statement is false, see `C18_int_refuted`. -/
theorem C18_int_partial (a b : Int) (ha : Int32 a) (hb : Int32 b) :
    SignIs (asc32 a b) a b ↔ Int32 (a - b) := asc32_iff ha hb

/-- C18 refuted for int: subtraction overflows; `Asc` is not even transitive (there is a cycle of
three ints), so it is not an order heaps and sorts can rely on. -/
theorem C18_int_refuted :
    (∃ a b : Int, Int32 a ∧ Int32 b ∧ b < a ∧ asc32 a b < 0) ∧
    (∃ a b c : Int, Int32 a ∧ Int32 b ∧ Int32 c ∧
      asc32 a b < 0 ∧ asc32 b c < 0 ∧ asc32 c a < 0) := by
  refine ⟨⟨2147483647, -1, ?_⟩, ⟨-2000000000, 0, 2000000000, ?_⟩⟩ <;>
    simp [Int32, asc32, i32]

/-- C18: every ascending comparator except int's is a total order on the values of its type:
total, transitive, and zero only on equal arguments. -/
theorem C18_total_order (T : Int → Prop) (c : Int → Int → Int)
    (hc : (T = Byte ∧ c = asc32) ∨ (T = Short ∧ c = asc32) ∨ (T = Char ∧ c = asc32) ∨
      (T = Int64 ∧ c = asc64)) (x y z : Int) (hx : T x) (hy : T y) (hz : T z) :
    (c x y ≤ 0 ∨ c y x ≤ 0) ∧ (c x y ≤ 0 → c y z ≤ 0 → c x z ≤ 0) ∧ (c x y = 0 ↔ x = y) ∧
    (c x y < 0 ↔ 0 < c y x) := by
  have key : ∀ a b, T a → T b → SignIs (c a b) a b := by
    rcases hc with ⟨rfl, rfl⟩ | ⟨rfl, rfl⟩ | ⟨rfl, rfl⟩ | ⟨rfl, rfl⟩
    · exact C18_byte
    · exact C18_short
    · exact C18_char
    · exact fun a b _ _ => C18_long a b
  have h1 := key x y hx hy
  have h2 := key y x hy hx
  have h3 := key y z hy hz
  have h4 := key x z hx hz
  unfold SignIs at *; omega

/-- C18: the predicates say what the order says, for all integer types. -/
theorem C18_predicates (a b : Int) :
    (predicateFor .eq a b = true ↔ a = b) ∧ (predicateFor .neq a b = true ↔ a ≠ b) ∧
    (predicateFor .lt a b = true ↔ a < b) ∧ (predicateFor .lte a b = true ↔ a ≤ b) ∧
    (predicateFor .gt a b = true ↔ b < a) ∧ (predicateFor .gte a b = true ↔ b ≤ a) := by
  simp [predicateFor]

example : Int32 (5 - (-7)) ∧ asc32 5 (-7) = 12 ∧ asc64 (-9223372036854775808) 1 = -1 := by
  simp [Int32, asc32, i32, asc64, longCompare]

/-- C19: `Desc(a, b)` is `Asc(b, a)`, and `AbsDesc(a, b)` is `AbsAsc(b, a)`, for all inputs. -/
theorem C19_desc (a b : Int) :
    comparatorFor32 .descending a b = comparatorFor32 .ascending b a ∧
    comparatorFor64 .descending a b = comparatorFor64 .ascending b a ∧
    comparatorFor32 .descendingAbsolute a b = comparatorFor32 .ascendingAbsolute b a ∧
    comparatorFor64 .descendingAbsolute a b = comparatorFor64 .ascendingAbsolute b a :=
  ⟨rfl, rfl, rfl, rfl⟩

theorem abs32_eq {x : Int} (h : -2147483648 < x ∧ x < 2147483648) : abs32 x = x.natAbs := by
  unfold abs32 i32; split <;> omega

theorem abs64_eq {x : Int} (h : -9223372036854775808 < x ∧ x < 9223372036854775808) :
    abs64 x = x.natAbs := by
  unfold abs64 i64; split <;> omega

/-- C19 for byte, short and char: the absolute comparators order by magnitude. -/
theorem C19_abs_small (a b : Int) (h : (Byte a ∧ Byte b) ∨ (Short a ∧ Short b) ∨ (Char a ∧ Char b)) :
    SignIs (absAsc32 a b) a.natAbs b.natAbs ∧ SignIs (absDesc32 a b) b.natAbs a.natAbs := by
  unfold Byte Short Char at h
  unfold SignIs absAsc32 absDesc32
  rw [abs32_eq (x := a) (by omega), abs32_eq (x := b) (by omega)]
  unfold i32; omega

/-- C19 for int (partial): `AbsAsc` orders by magnitude for every pair of ints except exactly one,
`(Integer.MIN_VALUE, 0)`. -/
theorem C19_abs_int_partial (a b : Int) (ha : Int32 a) (hb : Int32 b) :
    SignIs (absAsc32 a b) a.natAbs b.natAbs ↔ ¬ (a = -2147483648 ∧ b = 0) := by
  unfold Int32 at ha hb
  have hm : abs32 (-2147483648) = -2147483648 := by decide
  unfold SignIs absAsc32
  by_cases h1 : a = -2147483648 <;> by_cases h2 : b = -2147483648
  · subst h1; subst h2; rw [hm]; unfold i32; omega
  · subst h1; rw [hm, abs32_eq (x := b) (by omega)]; unfold i32; omega
  · subst h2; rw [hm, abs32_eq (x := a) (by omega)]; unfold i32; omega
  · rw [abs32_eq (x := a) (by omega), abs32_eq (x := b) (by omega)]; unfold i32; omega

/-- C19 for long (partial): `AbsAsc` orders by magnitude exactly when not exactly one of the two is
`Long.MIN_VALUE` (whose `Math.abs` is negative, so it sorts before everything). -/
theorem C19_abs_long_partial (a b : Int) (ha : Int64 a) (hb : Int64 b) :
    SignIs (absAsc64 a b) a.natAbs b.natAbs ↔
      (a = -9223372036854775808 ↔ b = -9223372036854775808) := by
  unfold Int64 at ha hb
  have hm : abs64 (-9223372036854775808) = -9223372036854775808 := by decide
  unfold absAsc64
  have hs := C18_long (abs64 a) (abs64 b)
  unfold asc64 at hs
  unfold SignIs at hs ⊢
  by_cases h1 : a = -9223372036854775808 <;> by_cases h2 : b = -9223372036854775808
  · subst h1; subst h2; rw [hm] at hs ⊢; omega
  · subst h1; rw [hm, abs64_eq (x := b) (by omega)] at hs ⊢; omega
  · subst h2; rw [hm, abs64_eq (x := a) (by omega)] at hs ⊢; omega
  · rw [abs64_eq (x := a) (by omega), abs64_eq (x := b) (by omega)] at hs ⊢; omega

/-- C19 refuted for the minimum values: `Integer.MIN_VALUE`, the int of largest magnitude, sorts before 0, and
`Long.MIN_VALUE` before every other long, whatever its magnitude. -/
theorem C19_min_value_refuted :
    absAsc32 (-2147483648) 0 < 0 ∧
    ∀ b, Int64 b → b ≠ -9223372036854775808 → absAsc64 (-9223372036854775808) b < 0 := by
  refine ⟨by decide, fun b hb hne => ?_⟩
  unfold Int64 at hb
  have hm : abs64 (-9223372036854775808) = -9223372036854775808 := by decide
  unfold absAsc64 longCompare
  rw [hm, abs64_eq (x := b) (by omega), if_pos (by omega)]
  decide

example : absAsc32 (-5) 3 = 2 ∧ absDesc32 (-5) 3 = -2 := by decide

/-- C20 (partial: the second argument is not null): never throws; null sorts last; equal
references compare equal; otherwise the value comparison decides. -/
theorem C20_nulls_last_partial {α : Type} (h : Nat → α) (cmp : α → α → Int)
    (hrefl : ∀ v, cmp v v = 0) (y : Nat) :
    ascRef h cmp none (some y) = .ok 1 ∧
    (∀ x, ascRef h cmp (some x) (some y) = .ok (cmp (h x) (h y))) ∧
    (∀ a, ∃ c, ascRef h cmp a (some y) = .ok c) ∧ ascRef h cmp none none = .ok 0 := by
  have h2 : ∀ x, ascRef h cmp (some x) (some y) = .ok (cmp (h x) (h y)) := by
    intro x
    unfold ascRef nullableCompare
    by_cases hxy : x = y
    · subst hxy; simp [hrefl]
    · simp [hxy]
  refine ⟨by simp [ascRef, nullableCompare], h2, ?_, by simp [ascRef, nullableCompare]⟩
  intro a
  cases a with
  | none => exact ⟨1, by simp [ascRef, nullableCompare]⟩
  | some x => exact ⟨_, h2 x⟩

/-- C20 refuted: comparing any non-null value with null throws NullPointerException when null is
the second argument of `Asc` (or the first of `Desc`), so sorting a null with `Asc` may fail
although `Asc(null, x) = 1`. -/
theorem C20_null_second_refuted {α : Type} (h : Nat → α) (cmp : α → α → Int) (x : Nat) :
    ascRef h cmp (some x) none = .error .nullPointer ∧
    descRef h cmp none (some x) = .error .nullPointer ∧
    ascRef h cmp none (some x) = .ok 1 ∧ descRef h cmp (some x) none = .ok 1 := by
  simp [ascRef, descRef, nullableCompare]

example : ascRef (fun n => (n : Int)) (fun a b => a - b) (some 3) (some 5) = .ok (-2) ∧
    ascRef (fun n => (n : Int)) (fun a b => a - b) none (some 5) = .ok 1 := by
  simp [ascRef, nullableCompare]

/-- C67: the boolean comparators are opposite total orders; ascending puts true first. -/
theorem C67_bool (a b c : Bool) :
    (ascBool a b = 0 ↔ a = b) ∧ descBool a b = ascBool b a ∧ ascBool a b = - ascBool b a ∧
    (ascBool a b ≤ 0 → ascBool b c ≤ 0 → ascBool a c ≤ 0) ∧ ascBool true false < 0 := by
  cases a <;> cases b <;> cases c <;> simp [ascBool, descBool]

/-- C70: `Objects.equals` based equality of `StringType` and `GenericType`: null equals only null, two
references are equal exactly when their values are (by identity or by `equals`), for a reflexive
`equals`. -/
theorem C70_objects_equal {α : Type} (h : Nat → α) (eqv : α → α → Bool)
    (hrefl : ∀ v, eqv v v = true) (a b : Option Nat) :
    objectsEquals h eqv a b = true ↔
      (a = none ∧ b = none) ∨ ∃ x y, a = some x ∧ b = some y ∧ eqv (h x) (h y) = true := by
  cases a with
  | none => cases b <;> simp [objectsEquals]
  | some x =>
    cases b with
    | none => simp [objectsEquals]
    | some y =>
      simp only [objectsEquals, Bool.or_eq_true, beq_iff_eq, reduceCtorEq, false_and, Option.some.injEq,
        false_or]
      constructor
      · rintro (rfl | h')
        · exact ⟨_, _, rfl, rfl, hrefl _⟩
        · exact ⟨_, _, rfl, rfl, h'⟩
      · rintro ⟨_, _, rfl, rfl, h'⟩
        exact .inr h'

/-- Two different references with equal contents are equal. -/
example : objectsEquals (fun n => n % 10) (fun a b => a == b) (some 3) (some 13) = true ∧
    objectsEquals (fun n => n % 10) (fun a b => a == b) (some 3) none = false := by decide

end Verif

import Verif.Proofs.Floats
import Verif.Props.Compare
/-! # Properties C73 - C77: floating-point comparators, predicates and tolerance -/
namespace Verif
open Floats FloatSpec Cmp

/-- C73: on numbers (everything but NaN, so including infinities, zeros and subnormals) all four double
comparators give exactly the sign of the numerical comparison, although they compute a rounded
difference: no difference is rounded to zero. -/
theorem C73_double_comparators (a b : BitVec 64) (ha : ¬ IsNaN64 a) (hb : ¬ IsNaN64 b) :
    SignIs (dComparatorFor .ascending a b) (num64 a) (num64 b) ∧
    SignIs (dComparatorFor .descending a b) (num64 b) (num64 a) ∧
    SignIs (dComparatorFor .ascendingAbsolute a b) (num64 a).natAbs (num64 b).natAbs ∧
    SignIs (dComparatorFor .descendingAbsolute a b) (num64 b).natAbs (num64 a).natAbs := by
  have key : ∀ {x y : BitVec 64}, ¬ IsNaN64 x → ¬ IsNaN64 y → SignIs (dAsc x y) (num64 x) (num64 y) := by
    intro x y hx hy
    rw [dAsc_eq hx hy]
    unfold SignIs
    split
    · omega
    · split <;> omega
  have ha' : ¬ IsNaN64 (abs64 a) := by rwa [isNaN64_abs]
  have hb' : ¬ IsNaN64 (abs64 b) := by rwa [isNaN64_abs]
  refine ⟨key ha hb, key hb ha, ?_, ?_⟩
  · have := key ha' hb'
    rwa [num64_abs, num64_abs] at this
  · have := key hb' ha'
    rwa [num64_abs, num64_abs] at this

/-- C73: two numbers compare equal only if they are the same double or the two zeros. -/
theorem C73_double_equal (a b : BitVec 64) (ha : ¬ IsNaN64 a) (hb : ¬ IsNaN64 b) :
    dComparatorFor .ascending a b = 0 ↔
      a = b ∨ ((a = 0#64 ∨ a = 0x8000000000000000#64) ∧ (b = 0#64 ∨ b = 0x8000000000000000#64)) := by
  rw [(C73_double_comparators a b ha hb).1.2.1, num64_inj, num64_zero, num64_zero]

/-- 1.0, the double after it, infinity and the smallest positive double are numbers; the two neighbours
of 1.0 differ by less than any of them. -/
example : ¬ IsNaN64 0x3ff0000000000000#64 ∧ ¬ IsNaN64 0x3ff0000000000001#64 ∧ ¬ IsNaN64 0x7ff0000000000000#64 ∧
    ¬ IsNaN64 0x0000000000000001#64 ∧
    dComparatorFor .ascending 0x3ff0000000000000#64 0x3ff0000000000001#64 = -1 ∧
    dComparatorFor .ascending 0x3ff0000000000000#64 0x0000000000000001#64 = 1 ∧
    dComparatorFor .descending 0x3ff0000000000000#64 0x7ff0000000000000#64 = 1 := by decide +kernel

/-- C74, the part that holds: what the comparators say about NaN.  It is equal to everything, in both
directions, for all four comparators. -/
theorem C74_double_nan_partial (m : CompareMethod) (a b : BitVec 64) (h : IsNaN64 a ∨ IsNaN64 b) :
    dComparatorFor m a b = 0 := by
  have key : ∀ {x y : BitVec 64}, IsNaN64 x ∨ IsNaN64 y → dAsc x y = 0 := by
    intro x y h
    unfold dAsc
    rcases h with h | h <;> rw [decode64_nan h]
    · rfl
    · cases decode64 x <;> rfl
  cases m
  · exact key h
  · exact key h.symm
  · exact key (by simpa only [isNaN64_abs] using h)
  · exact key (by simpa only [isNaN64_abs] using h.symm)

example : IsNaN64 0x7ff8000000000000#64 ∧ ¬ IsNaN64 0x7ff0000000000000#64 := by decide

/-- C74 is false: with NaN the double comparators are not transitive.  For *every* two different numbers
`a < b`: `b` is not greater than NaN, NaN is not greater than `a`, but `b` is greater than `a`. -/
theorem C74_double_not_transitive_refuted (a b n : BitVec 64) (ha : ¬ IsNaN64 a) (hb : ¬ IsNaN64 b)
    (hn : IsNaN64 n) (hab : num64 a < num64 b) :
    dComparatorFor .ascending b n ≤ 0 ∧ dComparatorFor .ascending n a ≤ 0 ∧ 0 < dComparatorFor .ascending b a := by
  refine ⟨Int.le_of_eq (C74_double_nan_partial _ _ _ (.inr hn)), Int.le_of_eq (C74_double_nan_partial _ _ _ (.inl hn)), ?_⟩
  exact (C73_double_comparators b a hb ha).1.2.2.2 hab

example : num64 0x3ff0000000000000#64 < num64 0x4000000000000000#64 := by decide +kernel

/-- C75: the ascending float comparator orders numbers by value, -0.0 before 0.0, and NaN after
everything else; it is zero only for identical floats and for two NaNs. -/
theorem C75_float_order (a b : BitVec 32) :
    (¬ IsNaN32 a → ¬ IsNaN32 b → (num32 a < num32 b → fComparatorFor .ascending a b < 0)) ∧
    (¬ IsNaN32 a → IsNaN32 b → fComparatorFor .ascending a b < 0) ∧
    (fComparatorFor .ascending 0x80000000#32 0#32 < 0) ∧
    (fComparatorFor .ascending a b = 0 ↔ a = b ∨ (IsNaN32 a ∧ IsNaN32 b)) := by
  have h1 := a.isLt
  have h2 := b.isLt
  refine ⟨fun ha hb h => ?_, fun ha hb => ?_, by decide, ?_⟩
  · show fAsc a b < 0
    unfold fAsc
    rw [lt32 ha hb, if_pos (decide_eq_true h)]
    decide
  · show fAsc a b < 0
    rw [fAsc_rank, if_pos]
    · decide
    · unfold rank32; rw [if_neg ha, if_pos hb]; split <;> omega
  · show fAsc a b = 0 ↔ _
    rw [fAsc_rank]
    have : rank32 a = rank32 b ↔ a = b ∨ (IsNaN32 a ∧ IsNaN32 b) := by
      unfold rank32
      by_cases ha : IsNaN32 a <;> by_cases hb : IsNaN32 b
      · simp [ha, hb]
      · simp only [ha, hb, if_true, if_false, and_false, or_false]
        constructor
        · intro h; exfalso; split at h <;> omega
        · rintro rfl; exact absurd ha hb
      · simp only [ha, hb, if_true, if_false, false_and, or_false]
        constructor
        · intro h; exfalso; split at h <;> omega
        · rintro rfl; exact absurd hb ha
      · simp only [ha, hb, if_false, and_false, or_false]
        rw [neg32_eq, neg32_eq, ← BitVec.toNat_inj]
        simp only [decide_eq_true_eq]
        split <;> split <;> omega
    rw [← this]
    split
    · omega
    · split <;> omega

/-- C75: all four float comparators are total preorders on all floats, NaN included, and the ascending
and descending ones mirror each other. -/
theorem C75_float_total_order (m : CompareMethod) (x y z : BitVec 32) :
    (fComparatorFor m x y < 0 ↔ 0 < fComparatorFor m y x) ∧
    (fComparatorFor m x y ≤ 0 → fComparatorFor m y z ≤ 0 → fComparatorFor m x z ≤ 0) ∧
    fComparatorFor m x x = 0 ∧
    fComparatorFor .descending x y = fComparatorFor .ascending y x ∧
    fComparatorFor .ascendingAbsolute x y = fComparatorFor .ascending (abs32 x) (abs32 y) ∧
    fComparatorFor .descendingAbsolute x y = fComparatorFor .ascendingAbsolute y x := by
  refine ⟨?_, ?_, ?_, rfl, rfl, rfl⟩
  · cases m <;> simp only [fComparatorFor, fDesc, fAbsAsc, fAbsDesc, fAsc_rank] <;>
      (repeat' split) <;> omega
  · cases m <;> simp only [fComparatorFor, fDesc, fAbsAsc, fAbsDesc, fAsc_rank] <;>
      (repeat' split) <;> omega
  · cases m <;> simp [fComparatorFor, fDesc, fAbsAsc, fAbsDesc, fAsc_rank]

/-- C75: `Math.abs` on floats is the absolute value, so the absolute comparators order by magnitude. -/
theorem C75_float_absolute (a b : BitVec 32) (ha : ¬ IsNaN32 a) (hb : ¬ IsNaN32 b) :
    SignIs (fComparatorFor .ascendingAbsolute a b) (num32 a).natAbs (num32 b).natAbs := by
  have ha' : ¬ IsNaN32 (abs32 a) := by rwa [isNaN32_abs]
  have hb' : ¬ IsNaN32 (abs32 b) := by rwa [isNaN32_abs]
  have h1 := (C75_float_order (abs32 a) (abs32 b)).1 ha' hb'
  have h2 := (C75_float_order (abs32 b) (abs32 a)).1 hb' ha'
  have h3 := (C75_float_total_order .ascending (abs32 b) (abs32 a) 0).1
  have h4 : num32 (abs32 a) = num32 (abs32 b) → abs32 a = abs32 b := by
    intro h
    rcases num32_inj.1 h with h | ⟨z1, z2⟩
    · exact h
    · rw [num32_zero] at z1 z2
      have e1 := abs32_toNat a
      have e2 := abs32_toNat b
      rcases z1 with z | z <;> rcases z2 with z' | z' <;> rw [z] at e1 <;> rw [z'] at e2 <;>
        simp only [BitVec.toNat_ofNat] at e1 e2 <;> first | (exfalso; omega) | rw [z, z']
  have h5 : abs32 a = abs32 b → fComparatorFor .ascending (abs32 a) (abs32 b) = 0 := by
    intro h; rw [(C75_float_order _ _).2.2.2]; exact .inl h
  rw [num32_abs, num32_abs] at h1 h2 h4
  show SignIs (fComparatorFor .ascending (abs32 a) (abs32 b)) _ _
  have h6 : ((num32 a).natAbs : Int) = (num32 b).natAbs → fComparatorFor .ascending (abs32 a) (abs32 b) = 0 :=
    fun h => h5 (h4 h)
  clear h4 h5
  unfold SignIs
  omega

/-- 1.0f, NaN, 3.5f -/
example : ¬ IsNaN32 0x3f800000#32 ∧ IsNaN32 0x7fc00001#32 ∧ num32 0x3f800000#32 < num32 0x40600000#32 ∧
    fComparatorFor .ascending 0x7fc00001#32 0xffc00000#32 = 0 := by decide +kernel

/-- C76: on numbers, the predicates of double are the numerical relations. -/
theorem C76_double_predicates (a b : BitVec 64) (ha : ¬ IsNaN64 a) (hb : ¬ IsNaN64 b) :
    (dPredicateFor .eq a b = true ↔ num64 a = num64 b) ∧ (dPredicateFor .neq a b = true ↔ num64 a ≠ num64 b) ∧
    (dPredicateFor .lt a b = true ↔ num64 a < num64 b) ∧ (dPredicateFor .lte a b = true ↔ num64 a ≤ num64 b) ∧
    (dPredicateFor .gt a b = true ↔ num64 b < num64 a) ∧ (dPredicateFor .gte a b = true ↔ num64 b ≤ num64 a) := by
  simp only [dPredicateFor, predFor, FVal.le, lt64 ha hb, lt64 hb ha, eq64 ha hb, eq64 hb ha, Bool.or_eq_true,
    decide_eq_true_eq, Bool.not_eq_true', decide_eq_false_iff_not, true_and, ne_eq]
  omega

/-- C76: on numbers, the predicates of float are the numerical relations. -/
theorem C76_float_predicates (a b : BitVec 32) (ha : ¬ IsNaN32 a) (hb : ¬ IsNaN32 b) :
    (fPredicateFor .eq a b = true ↔ num32 a = num32 b) ∧ (fPredicateFor .neq a b = true ↔ num32 a ≠ num32 b) ∧
    (fPredicateFor .lt a b = true ↔ num32 a < num32 b) ∧ (fPredicateFor .lte a b = true ↔ num32 a ≤ num32 b) ∧
    (fPredicateFor .gt a b = true ↔ num32 b < num32 a) ∧ (fPredicateFor .gte a b = true ↔ num32 b ≤ num32 a) := by
  simp only [fPredicateFor, predFor, FVal.le, lt32 ha hb, lt32 hb ha, eq32 ha hb, eq32 hb ha, Bool.or_eq_true,
    decide_eq_true_eq, Bool.not_eq_true', decide_eq_false_iff_not, true_and, ne_eq]
  omega

theorem predFor_nan {m : PredicateMethod} {x y : FVal} (h : x = .nan ∨ y = .nan) :
    predFor m x y = (match m with | .neq => true | _ => false) := by
  rcases h with rfl | rfl
  · cases m <;> cases y <;> rfl
  · cases m <;> cases x <;> rfl

/-- C76: with a NaN operand every predicate is false, except "not equal", which is true. -/
theorem C76_nan_predicates (m : PredicateMethod) :
    (∀ a b : BitVec 64, IsNaN64 a ∨ IsNaN64 b → dPredicateFor m a b = (match m with | .neq => true | _ => false)) ∧
    (∀ a b : BitVec 32, IsNaN32 a ∨ IsNaN32 b → fPredicateFor m a b = (match m with | .neq => true | _ => false)) :=
  ⟨fun _ _ h => predFor_nan (h.imp decode64_nan decode64_nan),
   fun _ _ h => predFor_nan (h.imp decode32_nan decode32_nan)⟩

/-- C76: the predicates agree with the comparator of the same type, except on NaN (and for floats,
except that the comparator separates the two zeros). -/
theorem C76_double_agree (a b : BitVec 64) (ha : ¬ IsNaN64 a) (hb : ¬ IsNaN64 b) :
    (dPredicateFor .lt a b = true ↔ dComparatorFor .ascending a b < 0) ∧
    (dPredicateFor .eq a b = true ↔ dComparatorFor .ascending a b = 0) ∧
    (dPredicateFor .gt a b = true ↔ 0 < dComparatorFor .ascending a b) := by
  have h := C76_double_predicates a b ha hb
  have c := (C73_double_comparators a b ha hb).1
  exact ⟨h.2.2.1.trans c.1.symm, h.1.trans c.2.1.symm, h.2.2.2.2.1.trans c.2.2.symm⟩

example : dPredicateFor .lte 0x8000000000000000#64 0#64 = true ∧ dPredicateFor .lt 0x8000000000000000#64 0#64 = false ∧
    fPredicateFor .gte 0xff800000#32 0x7f800000#32 = false := by decide +kernel

/-- C77 (partial): for finite doubles `EqEpsilon(a, b)` is true exactly if the numerical distance of `a` and
`b` is at most `1e-10` minus half a unit in the last place of `1e-10` (which is `2^-87`, i.e. `2^987` units
of `2^-1074`); in particular only if it is less than `1e-10`. -/
theorem C77_epsilon_partial (a b : BitVec 64) (ha : Finite64 a) (hb : Finite64 b) :
    dEqEpsilon a b = true ↔ (num64 a - num64 b).natAbs ≤ num64 0x3DDB7CDFD9D7BDBB#64 - 2 ^ 987 := by
  rw [dEqEpsilon_finite ha hb, num64_eps]
  have e : ((2 : Int) ^ 987) = ((2 ^ 987 : Nat) : Int) := by
    rw [Int.natCast_pow]; rfl
  rw [e]
  generalize 2 ^ 987 = C
  generalize epsM * 2 ^ 988 = D
  omega

/-- C77: symmetric for all doubles, reflexive for finite ones. -/
theorem C77_epsilon_symmetric (a b : BitVec 64) :
    dEqEpsilon a b = dEqEpsilon b a ∧ (Finite64 a → dEqEpsilon a a = true) := by
  constructor
  · by_cases ha : Finite64 a
    · by_cases hb : Finite64 b
      · have h1 := C77_epsilon_partial a b ha hb
        have h2 := C77_epsilon_partial b a hb ha
        have : (num64 a - num64 b).natAbs = (num64 b - num64 a).natAbs := by omega
        rw [Bool.eq_iff_iff, h1, h2, this]
      · rw [dEqEpsilon_infinite (.inr hb), dEqEpsilon_infinite (.inl hb)]
    · rw [dEqEpsilon_infinite (.inl ha), dEqEpsilon_infinite (.inr ha)]
  · intro ha
    rw [dEqEpsilon_finite ha ha, Int.sub_self]
    have : 2 ^ 987 ≤ epsM * 2 ^ 988 := by decide +kernel
    generalize 2 ^ 987 = C at *
    generalize epsM * 2 ^ 988 = D at *
    omega

/-- 1.0 and 1.0 + 2^-40 are within the tolerance, 1.0 and 1.0 + 2^-33 are not. -/
example : Finite64 0x3ff0000000000000#64 ∧ dEqEpsilon 0x3ff0000000000000#64 0x3ff0000000001000#64 = true ∧
    dEqEpsilon 0x3ff0000000000000#64 0x3ff0000000080000#64 = false := by decide +kernel

/-- C77 is false as an equality: not reflexive at infinity and NaN, not transitive (0, 9e-11, 1.8e-10), and it
does not go with the type's hash function (doubles it calls equal have different hashes). -/
theorem C77_epsilon_refuted :
    (∀ a : BitVec 64, ¬ Finite64 a → dEqEpsilon a a = false) ∧
    (∃ a b c : BitVec 64, dEqEpsilon a b = true ∧ dEqEpsilon b c = true ∧ dEqEpsilon a c = false) ∧
    (∃ a b : BitVec 64, dEqEpsilon a b = true ∧ KeyTypes.doubleHash a ≠ KeyTypes.doubleHash b) := by
  refine ⟨fun a h => dEqEpsilon_infinite (.inl h), ?_, ?_⟩
  · exact ⟨0#64, 0x3dd8bd2fdda89128#64, 0x3de8bd2fdda89128#64, by decide +kernel⟩
  · exact ⟨0#64, 0x3dd8bd2fdda89128#64, by decide +kernel⟩

example : ¬ Finite64 0x7ff0000000000000#64 := by decide

end Verif

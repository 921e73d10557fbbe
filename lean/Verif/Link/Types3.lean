import Verif.Link.Types2
import Verif.Props.Floats
import Verif.Props.KeyTypes
/-!
The comparators, predicates, equality and hash functions of `float` and `double`, and the equality and hash
functions of all primitive types, as translated mechanically from the Java text (Gen/Types), agree with the model.
-/
namespace Verif.Link.Types
open Verif Gen.Types Gen Cmp Floats FloatSpec KeyTypes IndexSpec

/-! ### double -/

theorem signum_toInt (v : FVal) : (BitVec.ofInt 32 (Convert.toIntegral 1074 32 (Jdk.signum v))).toInt = signumInt v := by
  have hp : ((2 : Int) ^ 1074).tdiv (2 ^ 1074) = 1 := Int.tdiv_self (by
    generalize 1074 = n; exact Int.ne_of_gt (Int.pow_pos (by omega)))
  have hn : (-(2 : Int) ^ 1074).tdiv (2 ^ 1074) = -1 := by rw [Int.neg_tdiv, hp]
  have key : ∀ b : Bool, (BitVec.ofInt 32 (Convert.toIntegral 1074 32 (.fin (if b then -2 ^ 1074 else 2 ^ 1074)))).toInt =
      if b then -1 else 1 := by
    intro b
    unfold Convert.toIntegral
    cases b
    · simp only [Bool.false_eq_true, if_false, hp]; decide
    · simp only [if_true, hn]; decide
  cases v with
  | nan => decide
  | inf neg => exact key neg
  | fin x =>
    unfold Jdk.signum signumInt
    by_cases h : x < 0
    · simp only [if_pos h]; exact key true
    · by_cases h0 : x = 0
      · simp only [if_neg h, if_pos h0]
        have : Convert.toIntegral 1074 32 (.fin 0) = 0 := by
          have hz := Int.zero_tdiv ((2 : Int) ^ 1074)
          simp only [Convert.toIntegral, hz]; decide
        rw [this]; decide
      · simp only [if_neg h, if_neg h0]; exact key false

theorem double_comparator (m : CompareMethod) : ∃ f, DoubleType.comparatorFor m = .ok f ∧
    ∀ a b, (f a b).toInt = dComparatorFor m a b := by
  cases m <;> refine ⟨_, rfl, fun a b => ?_⟩ <;> exact signum_toInt _
theorem double_predicate (m : PredicateMethod) : ∃ f, DoubleType.predicateFor m = .ok f ∧
    ∀ a b, f a b = dPredicateFor m a b := by
  cases m <;> exact ⟨_, rfl, fun a b => rfl⟩

/-- C73 for the translated Java text. -/
theorem _root_.Verif.C73_generated : ∃ asc desc absAsc absDesc, DoubleType.comparatorFor .ascending = .ok asc ∧
    DoubleType.comparatorFor .descending = .ok desc ∧ DoubleType.comparatorFor .ascendingAbsolute = .ok absAsc ∧
    DoubleType.comparatorFor .descendingAbsolute = .ok absDesc ∧
    ∀ a b, ¬ IsNaN64 a → ¬ IsNaN64 b →
      SignIs (asc a b).toInt (num64 a) (num64 b) ∧ SignIs (desc a b).toInt (num64 b) (num64 a) ∧
      SignIs (absAsc a b).toInt (num64 a).natAbs (num64 b).natAbs ∧
      SignIs (absDesc a b).toInt (num64 b).natAbs (num64 a).natAbs := by
  obtain ⟨f1, h1, e1⟩ := double_comparator .ascending
  obtain ⟨f2, h2, e2⟩ := double_comparator .descending
  obtain ⟨f3, h3, e3⟩ := double_comparator .ascendingAbsolute
  obtain ⟨f4, h4, e4⟩ := double_comparator .descendingAbsolute
  refine ⟨f1, f2, f3, f4, h1, h2, h3, h4, fun a b ha hb => ?_⟩
  rw [e1, e2, e3, e4]
  exact C73_double_comparators a b ha hb

/-- C74 for the translated Java text (partial as for the model): NaN compares equal to everything. -/
theorem _root_.Verif.C74_generated_partial (m : CompareMethod) : ∃ f, DoubleType.comparatorFor m = .ok f ∧
    ∀ a b, IsNaN64 a ∨ IsNaN64 b → (f a b).toInt = 0 := by
  obtain ⟨f, h, e⟩ := double_comparator m
  exact ⟨f, h, fun a b hn => by rw [e]; exact C74_double_nan_partial m a b hn⟩

/-! ### float -/

theorem fAsc_toInt (a b : BitVec 32) : (Jdk.floatCompare a b).toInt = fAsc a b := by
  unfold Jdk.floatCompare
  have : fAsc a b = -1 ∨ fAsc a b = 0 ∨ fAsc a b = 1 := by
    unfold fAsc; repeat' split
    all_goals simp
  rcases this with h | h | h <;> rw [h] <;> decide

theorem float_comparator (m : CompareMethod) : ∃ f, FloatType.comparatorFor m = .ok f ∧
    ∀ a b, (f a b).toInt = fComparatorFor m a b := by
  cases m <;> refine ⟨_, rfl, fun a b => ?_⟩ <;> exact fAsc_toInt _ _
theorem float_predicate (m : PredicateMethod) : ∃ f, FloatType.predicateFor m = .ok f ∧
    ∀ a b, f a b = fPredicateFor m a b := by
  cases m <;> exact ⟨_, rfl, fun a b => rfl⟩

/-- C75 for the translated Java text: the ascending comparator of float. -/
theorem _root_.Verif.C75_generated : ∃ f, FloatType.comparatorFor .ascending = .ok f ∧
    (∀ a b, ¬ IsNaN32 a → ¬ IsNaN32 b → num32 a < num32 b → (f a b).toInt < 0) ∧
    (∀ a b, ¬ IsNaN32 a → IsNaN32 b → (f a b).toInt < 0) ∧
    (f 0x80000000#32 0#32).toInt < 0 ∧
    (∀ a b, (f a b).toInt = 0 ↔ a = b ∨ (IsNaN32 a ∧ IsNaN32 b)) := by
  obtain ⟨f, h, e⟩ := float_comparator .ascending
  refine ⟨f, h, fun a b => ?_, fun a b => ?_, ?_, fun a b => ?_⟩ <;> simp only [e]
  · exact (C75_float_order a b).1
  · exact (C75_float_order a b).2.1
  · exact (C75_float_order 0 0).2.2.1
  · exact (C75_float_order a b).2.2.2

/-- C75 for the translated Java text: every comparator of float is a total order; descending is ascending swapped;
the absolute ones order by magnitude. -/
theorem _root_.Verif.C75_generated_total_order (m : CompareMethod) : ∃ f asc, FloatType.comparatorFor m = .ok f ∧
    FloatType.comparatorFor .ascending = .ok asc ∧
    (∀ x y, (f x y).toInt < 0 ↔ 0 < (f y x).toInt) ∧
    (∀ x y z, (f x y).toInt ≤ 0 → (f y z).toInt ≤ 0 → (f x z).toInt ≤ 0) ∧ (∀ x, (f x x).toInt = 0) ∧
    (∀ x y, (f x y).toInt = match m with
      | .ascending => (asc x y).toInt | .descending => (asc y x).toInt
      | .ascendingAbsolute => (asc (abs32 x) (abs32 y)).toInt | .descendingAbsolute => (asc (abs32 y) (abs32 x)).toInt) := by
  obtain ⟨f, h, e⟩ := float_comparator m
  obtain ⟨g, h', e'⟩ := float_comparator .ascending
  refine ⟨f, g, h, h', fun x y => ?_, fun x y z => ?_, fun x => ?_, fun x y => ?_⟩ <;> simp only [e, e']
  · exact (C75_float_total_order m x y 0).1
  · exact (C75_float_total_order m x y z).2.1
  · exact (C75_float_total_order m x 0 0).2.2.1
  · cases m <;> rfl

/-- C76 for the translated Java text: the predicates of double and float are the numerical relations on numbers, and
false with a NaN operand, except "not equal". -/
theorem _root_.Verif.C76_generated (m : PredicateMethod) :
    (∃ f, DoubleType.predicateFor m = .ok f ∧
      (∀ a b, ¬ IsNaN64 a → ¬ IsNaN64 b → (f a b = true ↔ Rel m (num64 a) (num64 b))) ∧
      (∀ a b, IsNaN64 a ∨ IsNaN64 b → (f a b = true ↔ m = .neq))) ∧
    (∃ f, FloatType.predicateFor m = .ok f ∧
      (∀ a b, ¬ IsNaN32 a → ¬ IsNaN32 b → (f a b = true ↔ Rel m (num32 a) (num32 b))) ∧
      (∀ a b, IsNaN32 a ∨ IsNaN32 b → (f a b = true ↔ m = .neq))) := by
  obtain ⟨f, h, e⟩ := double_predicate m
  obtain ⟨g, h', e'⟩ := float_predicate m
  refine ⟨⟨f, h, fun a b ha hb => ?_, fun a b hn => ?_⟩, ⟨g, h', fun a b ha hb => ?_, fun a b hn => ?_⟩⟩
  · obtain ⟨p1, p2, p3, p4, p5, p6⟩ := C76_double_predicates a b ha hb
    rw [e]; cases m <;> assumption
  · rw [e, (C76_nan_predicates m).1 a b hn]; cases m <;> simp
  · obtain ⟨p1, p2, p3, p4, p5, p6⟩ := C76_float_predicates a b ha hb
    rw [e']; cases m <;> assumption
  · rw [e', (C76_nan_predicates m).2 a b hn]; cases m <;> simp

/-- C77 for the translated Java text (partial as for the model). -/
theorem _root_.Verif.C77_generated_partial (a b : BitVec 64) (ha : Finite64 a) (hb : Finite64 b) :
    DoubleType.EqEpsilon a b = true ↔ (num64 a - num64 b).natAbs ≤ num64 0x3DDB7CDFD9D7BDBB#64 - 2 ^ 987 :=
  C77_epsilon_partial a b ha hb

example : (DoubleType.Asc 0x3ff0000000000000#64 0x3ff0000000000001#64).toInt = -1 ∧
    (FloatType.Asc 0x80000000#32 0#32).toInt = -1 ∧ DoubleType.IS_LTE 0x8000000000000000#64 0#64 = true := by decide +kernel

/-! ### equality and hashes of keys -/

theorem isNaN64_iff (b : BitVec 64) : KeyTypes.isNaN64 b = true ↔ IsNaN64 b := by
  unfold KeyTypes.isNaN64 IsNaN64
  have := abs64_toNat b
  unfold Floats.abs64 at this
  rw [decide_eq_true_eq, this, expo64_eq, frac64_eq]
  have := b.isLt
  rw [show (0x7ff0000000000000#64).toNat = 2047 * 2 ^ 52 by decide]
  omega

theorem double_eqImpl : DoubleType.EqImpl = doubleEq := by
  funext a b
  unfold DoubleType.EqImpl doubleEq
  by_cases ha : IsNaN64 a
  · rw [decode64_nan ha, (isNaN64_iff a).2 ha]; rfl
  · by_cases hb : IsNaN64 b
    · rw [decode64_nan hb, (isNaN64_iff b).2 hb, Bool.not_true, Bool.and_false, Bool.false_and]
      cases decode64 a <;> rfl
    · have h1 : KeyTypes.isNaN64 a = false := by rw [← Bool.not_eq_true, isNaN64_iff]; exact ha
      have h2 : KeyTypes.isNaN64 b = false := by rw [← Bool.not_eq_true, isNaN64_iff]; exact hb
      rw [eq64 ha hb, h1, h2, Bool.eq_iff_iff]
      simp [num64_inj, num64_zero, isZero64]

theorem float_eqImpl : FloatType.EqImpl = floatEq := by
  funext a b
  unfold FloatType.EqImpl floatEq
  by_cases ha : IsNaN32 a
  · rw [decode32_nan ha, (isNaN32_iff a).2 ha]; rfl
  · by_cases hb : IsNaN32 b
    · rw [decode32_nan hb, (isNaN32_iff b).2 hb, Bool.not_true, Bool.and_false, Bool.false_and]
      cases decode32 a <;> rfl
    · have h1 : KeyTypes.isNaN32 a = false := by rw [← Bool.not_eq_true, isNaN32_iff]; exact ha
      have h2 : KeyTypes.isNaN32 b = false := by rw [← Bool.not_eq_true, isNaN32_iff]; exact hb
      rw [eq32 ha hb, h1, h2, Bool.eq_iff_iff]
      simp [num32_inj, num32_zero, isZero32]

theorem byte_eqImpl : ByteType.EqImpl = byteEq := by
  funext a b; unfold ByteType.EqImpl byteEq; rw [beq_toInt, sext8, sext8, ← beq_toInt]
theorem short_eqImpl : ShortType.EqImpl = shortEq := by
  funext a b; unfold ShortType.EqImpl shortEq; rw [beq_toInt, sext16, sext16, ← beq_toInt]
theorem char_eqImpl : CharType.EqImpl = charEq := by
  funext a b; unfold CharType.EqImpl charEq; rw [beq_toInt, zext16, zext16, Bool.eq_iff_iff]
  rw [beq_iff_eq, beq_iff_eq, ← BitVec.toNat_inj]; omega

/-- C42 for the translated Java text: the key equality and hash functions of every primitive key type fit together,
so that every theorem about the indexed collections applies to them. -/
theorem _root_.Verif.C42_generated_coherent :
    Coherent DoubleType.HashImpl DoubleType.EqImpl ∧ Coherent FloatType.HashImpl FloatType.EqImpl ∧
    Coherent LongType.HashImpl LongType.EqImpl ∧ Coherent IntType.HashImpl IntType.EqImpl ∧
    Coherent ShortType.HashImpl ShortType.EqImpl ∧ Coherent CharType.HashImpl CharType.EqImpl ∧
    Coherent ByteType.HashImpl ByteType.EqImpl ∧ Coherent BoolType.HashImpl BoolType.EqImpl := by
  obtain ⟨h1, h2, h3, h4, h5, h6⟩ := C42_primitives_coherent
  rw [double_eqImpl, float_eqImpl, short_eqImpl, char_eqImpl, byte_eqImpl]
  exact ⟨C42_double_coherent, C42_float_coherent, h1, h2, h3, h4, h5, h6⟩

/-- C42 for the translated Java text: which keys are one key. -/
theorem _root_.Verif.C42_generated_equality :
    (∀ a b, LongType.EqImpl a b = true ↔ a = b) ∧ (∀ a b, IntType.EqImpl a b = true ↔ a = b) ∧
    (∀ a b, ShortType.EqImpl a b = true ↔ a = b) ∧ (∀ a b, CharType.EqImpl a b = true ↔ a = b) ∧
    (∀ a b, ByteType.EqImpl a b = true ↔ a = b) ∧ (∀ a b, BoolType.EqImpl a b = true ↔ a = b) ∧
    (∀ a b, DoubleType.EqImpl a b = true ↔ ¬ IsNaN64 a ∧ ¬ IsNaN64 b ∧ num64 a = num64 b) ∧
    (∀ a b, FloatType.EqImpl a b = true ↔ ¬ IsNaN32 a ∧ ¬ IsNaN32 b ∧ num32 a = num32 b) := by
  obtain ⟨h1, h2, h3, h4, h5, h6, -⟩ := C42_equality
  refine ⟨h1, h2, by rw [short_eqImpl]; exact h3, by rw [char_eqImpl]; exact h4, by rw [byte_eqImpl]; exact h5, h6,
    fun a b => ?_, fun a b => ?_⟩
  · unfold DoubleType.EqImpl
    by_cases ha : IsNaN64 a
    · simp [decode64_nan ha, FVal.eq, ha]
    · by_cases hb : IsNaN64 b
      · simp only [decode64_nan hb, hb]; cases decode64 a <;> simp [FVal.eq]
      · rw [eq64 ha hb, decide_eq_true_eq]; simp [ha, hb]
  · unfold FloatType.EqImpl
    by_cases ha : IsNaN32 a
    · simp [decode32_nan ha, FVal.eq, ha]
    · by_cases hb : IsNaN32 b
      · simp only [decode32_nan hb, hb]; cases decode32 a <;> simp [FVal.eq]
      · rw [eq32 ha hb, decide_eq_true_eq]; simp [ha, hb]

example : DoubleType.EqImpl 0#64 0x8000000000000000#64 = true ∧ DoubleType.HashImpl 0#64 ≠ DoubleType.HashImpl 0x8000000000000000#64 := by
  decide +kernel

end Verif.Link.Types

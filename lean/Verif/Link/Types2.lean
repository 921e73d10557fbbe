import Verif.Link.Types1
import Verif.Props.Compare
/-!
The comparators and predicates of the integer types and of boolean, as translated mechanically from the Java text
(Gen/Types), agree with the model.
-/
namespace Verif.Link.Types
open Verif Gen.Types Gen Cmp

theorem sub_toInt (x y : BitVec 32) : (x - y).toInt = i32 (x.toInt - y.toInt) := by
  rw [BitVec.toInt_sub, Int.bmod_def]; unfold i32; omega
theorem slt_iff {w : Nat} (x y : BitVec w) : x.slt y = decide (x.toInt < y.toInt) := by
  simp [BitVec.slt]
theorem sle_iff {w : Nat} (x y : BitVec w) : x.sle y = decide (x.toInt ≤ y.toInt) := by
  simp [BitVec.sle]
theorem beq_toInt {w : Nat} (x y : BitVec w) : (x == y) = (x.toInt == y.toInt) := by
  rw [Bool.eq_iff_iff]; simp [BitVec.toInt_inj]
theorem bne_toInt {w : Nat} (x y : BitVec w) : (x != y) = (x.toInt != y.toInt) := by
  simp only [bne, beq_toInt]
theorem absInt_toInt (x : BitVec 32) : (Jdk.absInt x).toInt = Cmp.abs32 x.toInt := by
  have e : (0#32).toInt = 0 := by decide
  unfold Jdk.absInt Cmp.abs32
  rw [slt_iff, e]
  by_cases h : x.toInt < 0
  · simp only [h, decide_true, if_true]
    rw [BitVec.toInt_neg, Int.bmod_def]; unfold i32; omega
  · simp only [h, decide_false, Bool.false_eq_true, if_false]
theorem absLong_toInt (x : BitVec 64) : (Jdk.absLong x).toInt = Cmp.abs64 x.toInt := by
  have e : (0#64).toInt = 0 := by decide
  unfold Jdk.absLong Cmp.abs64
  rw [slt_iff, e]
  by_cases h : x.toInt < 0
  · simp only [h, decide_true, if_true]
    rw [BitVec.toInt_neg, Int.bmod_def]; unfold i64; omega
  · simp only [h, decide_false, Bool.false_eq_true, if_false]
theorem longCompare_toInt (x y : BitVec 64) : (Jdk.longCompare x y).toInt = Cmp.longCompare x.toInt y.toInt := by
  unfold Jdk.longCompare Cmp.longCompare
  rw [slt_iff, beq_toInt]
  by_cases h : x.toInt < y.toInt
  · simp only [h, decide_true, if_true]; decide
  · by_cases h2 : x.toInt = y.toInt
    · simp [h2]
    · simp only [h, h2, decide_false, Bool.false_eq_true, if_false, beq_iff_eq]; decide
theorem sext8 (x : BitVec 8) : (x.signExtend 32).toInt = x.toInt := BitVec.toInt_signExtend_of_le (by omega)
theorem sext16 (x : BitVec 16) : (x.signExtend 32).toInt = x.toInt := BitVec.toInt_signExtend_of_le (by omega)
theorem zext16 (x : BitVec 16) : (x.setWidth 32).toInt = x.toNat := by
  have := x.isLt
  rw [BitVec.toInt_eq_toNat_of_lt] <;> rw [BitVec.toNat_setWidth] <;> omega

theorem byte_comparator (m : CompareMethod) : ∃ f, ByteType.comparatorFor m = .ok f ∧
    ∀ a b, (f a b).toInt = comparatorFor32 m a.toInt b.toInt := by
  cases m <;> refine ⟨_, rfl, fun a b => ?_⟩ <;>
    simp only [ByteType.Asc, ByteType.Desc, ByteType.AbsAsc, ByteType.AbsDesc, sub_toInt, absInt_toInt, sext8,
      comparatorFor32, asc32, desc32, absAsc32, absDesc32]
theorem short_comparator (m : CompareMethod) : ∃ f, ShortType.comparatorFor m = .ok f ∧
    ∀ a b, (f a b).toInt = comparatorFor32 m a.toInt b.toInt := by
  cases m <;> refine ⟨_, rfl, fun a b => ?_⟩ <;>
    simp only [ShortType.Asc, ShortType.Desc, ShortType.AbsAsc, ShortType.AbsDesc, sub_toInt, absInt_toInt, sext16,
      comparatorFor32, asc32, desc32, absAsc32, absDesc32]
theorem char_comparator (m : CompareMethod) : ∃ f, CharType.comparatorFor m = .ok f ∧
    ∀ a b, (f a b).toInt = comparatorFor32 m a.toNat b.toNat := by
  cases m <;> refine ⟨_, rfl, fun a b => ?_⟩ <;>
    simp only [CharType.Asc, CharType.Desc, CharType.AbsAsc, CharType.AbsDesc, sub_toInt, absInt_toInt, zext16,
      comparatorFor32, asc32, desc32, absAsc32, absDesc32]
theorem int_comparator (m : CompareMethod) : ∃ f, IntType.comparatorFor m = .ok f ∧
    ∀ a b, (f a b).toInt = comparatorFor32 m a.toInt b.toInt := by
  cases m <;> refine ⟨_, rfl, fun a b => ?_⟩ <;>
    simp only [IntType.Asc, IntType.Desc, IntType.AbsAsc, IntType.AbsDesc, sub_toInt, absInt_toInt,
      comparatorFor32, asc32, desc32, absAsc32, absDesc32]
theorem long_comparator (m : CompareMethod) : ∃ f, LongType.comparatorFor m = .ok f ∧
    ∀ a b, (f a b).toInt = comparatorFor64 m a.toInt b.toInt := by
  cases m <;> refine ⟨_, rfl, fun a b => ?_⟩ <;>
    simp only [LongType.Asc, LongType.Desc, LongType.AbsAsc, LongType.AbsDesc, longCompare_toInt, absLong_toInt,
      comparatorFor64, asc64, desc64, absAsc64, absDesc64]

theorem byte_predicate (m : PredicateMethod) : ∃ f, ByteType.predicateFor m = .ok f ∧
    ∀ a b, f a b = predicateFor m a.toInt b.toInt := by
  cases m <;> refine ⟨_, rfl, fun a b => ?_⟩ <;>
    simp only [ByteType.IS_EQ, ByteType.IS_NEQ, ByteType.IS_LT, ByteType.IS_LTE, ByteType.IS_GT, ByteType.IS_GTE, predicateFor, beq_toInt,
      bne_toInt, slt_iff, sle_iff, sext8]
theorem short_predicate (m : PredicateMethod) : ∃ f, ShortType.predicateFor m = .ok f ∧
    ∀ a b, f a b = predicateFor m a.toInt b.toInt := by
  cases m <;> refine ⟨_, rfl, fun a b => ?_⟩ <;>
    simp only [ShortType.IS_EQ, ShortType.IS_NEQ, ShortType.IS_LT, ShortType.IS_LTE, ShortType.IS_GT, ShortType.IS_GTE, predicateFor,
      beq_toInt, bne_toInt, slt_iff, sle_iff, sext16]
theorem char_predicate (m : PredicateMethod) : ∃ f, CharType.predicateFor m = .ok f ∧
    ∀ a b, f a b = predicateFor m a.toNat b.toNat := by
  cases m <;> refine ⟨_, rfl, fun a b => ?_⟩ <;>
    simp only [CharType.IS_EQ, CharType.IS_NEQ, CharType.IS_LT, CharType.IS_LTE, CharType.IS_GT, CharType.IS_GTE, predicateFor,
      beq_toInt, bne_toInt, slt_iff, sle_iff, zext16]
theorem int_predicate (m : PredicateMethod) : ∃ f, IntType.predicateFor m = .ok f ∧
    ∀ a b, f a b = predicateFor m a.toInt b.toInt := by
  cases m <;> refine ⟨_, rfl, fun a b => ?_⟩ <;>
    simp only [IntType.IS_EQ, IntType.IS_NEQ, IntType.IS_LT, IntType.IS_LTE, IntType.IS_GT, IntType.IS_GTE, predicateFor,
      beq_toInt, bne_toInt, slt_iff, sle_iff]
theorem long_predicate (m : PredicateMethod) : ∃ f, LongType.predicateFor m = .ok f ∧
    ∀ a b, f a b = predicateFor m a.toInt b.toInt := by
  cases m <;> refine ⟨_, rfl, fun a b => ?_⟩ <;>
    simp only [LongType.IS_EQ, LongType.IS_NEQ, LongType.IS_LT, LongType.IS_LTE, LongType.IS_GT, LongType.IS_GTE, predicateFor,
      beq_toInt, bne_toInt, slt_iff, sle_iff]

theorem byte_range (a : BitVec 8) : Byte a.toInt := by
  have := a.toInt_lt; have := a.le_toInt; unfold Byte; omega
theorem short_range (a : BitVec 16) : Short a.toInt := by
  have := a.toInt_lt; have := a.le_toInt; unfold Short; omega
theorem char_range (a : BitVec 16) : Verif.Char a.toNat := by
  have := a.isLt; unfold Verif.Char; omega
theorem int_range (a : BitVec 32) : Int32 a.toInt := by
  have := a.toInt_lt; have := a.le_toInt; unfold Int32; omega
theorem long_range (a : BitVec 64) : Int64 a.toInt := by
  have := a.toInt_lt; have := a.le_toInt; unfold Int64; omega

/-- C18 for the translated Java text: what the ascending comparator that `comparatorFor` returns says (partial: for
int exactly if the difference does not overflow; `C18_int_refuted`). -/
theorem _root_.Verif.C18_generated_partial :
    (∃ f, ByteType.comparatorFor .ascending = .ok f ∧ ∀ a b, SignIs (f a b).toInt a.toInt b.toInt) ∧
    (∃ f, ShortType.comparatorFor .ascending = .ok f ∧ ∀ a b, SignIs (f a b).toInt a.toInt b.toInt) ∧
    (∃ f, CharType.comparatorFor .ascending = .ok f ∧ ∀ a b, SignIs (f a b).toInt a.toNat b.toNat) ∧
    (∃ f, LongType.comparatorFor .ascending = .ok f ∧ ∀ a b, SignIs (f a b).toInt a.toInt b.toInt) ∧
    (∃ f, IntType.comparatorFor .ascending = .ok f ∧
      ∀ a b, SignIs (f a b).toInt a.toInt b.toInt ↔ Int32 (a.toInt - b.toInt)) := by
  obtain ⟨f1, h1, e1⟩ := byte_comparator .ascending
  obtain ⟨f2, h2, e2⟩ := short_comparator .ascending
  obtain ⟨f3, h3, e3⟩ := char_comparator .ascending
  obtain ⟨f4, h4, e4⟩ := long_comparator .ascending
  obtain ⟨f5, h5, e5⟩ := int_comparator .ascending
  refine ⟨⟨f1, h1, fun a b => ?_⟩, ⟨f2, h2, fun a b => ?_⟩, ⟨f3, h3, fun a b => ?_⟩, ⟨f4, h4, fun a b => ?_⟩, ⟨f5, h5, fun a b => ?_⟩⟩
  · rw [e1]; exact C18_byte _ _ (byte_range a) (byte_range b)
  · rw [e2]; exact C18_short _ _ (short_range a) (short_range b)
  · rw [e3]; exact C18_char _ _ (char_range a) (char_range b)
  · rw [e4]; exact C18_long _ _
  · rw [e5]; exact C18_int_partial _ _ (int_range a) (int_range b)

/-- The relation a predicate is named after. -/
def Rel : PredicateMethod → Int → Int → Prop
  | .eq, a, b => a = b | .neq, a, b => a ≠ b | .lt, a, b => a < b | .lte, a, b => a ≤ b | .gt, a, b => b < a | .gte, a, b => b ≤ a

/-- C18 for the translated Java text: every predicate that `predicateFor` returns is the relation it is named after. -/
theorem _root_.Verif.C18_generated_predicates (m : PredicateMethod) :
    (∃ f, ByteType.predicateFor m = .ok f ∧ ∀ a b, f a b = true ↔ Rel m a.toInt b.toInt) ∧
    (∃ f, ShortType.predicateFor m = .ok f ∧ ∀ a b, f a b = true ↔ Rel m a.toInt b.toInt) ∧
    (∃ f, CharType.predicateFor m = .ok f ∧ ∀ a b, f a b = true ↔ Rel m a.toNat b.toNat) ∧
    (∃ f, IntType.predicateFor m = .ok f ∧ ∀ a b, f a b = true ↔ Rel m a.toInt b.toInt) ∧
    (∃ f, LongType.predicateFor m = .ok f ∧ ∀ a b, f a b = true ↔ Rel m a.toInt b.toInt) := by
  have key : ∀ x y, predicateFor m x y = true ↔ Rel m x y := by
    intro x y; cases m <;> simp [predicateFor, Rel]
  obtain ⟨f1, h1, e1⟩ := byte_predicate m
  obtain ⟨f2, h2, e2⟩ := short_predicate m
  obtain ⟨f3, h3, e3⟩ := char_predicate m
  obtain ⟨f4, h4, e4⟩ := int_predicate m
  obtain ⟨f5, h5, e5⟩ := long_predicate m
  exact ⟨⟨f1, h1, fun a b => by rw [e1, key]⟩, ⟨f2, h2, fun a b => by rw [e2, key]⟩, ⟨f3, h3, fun a b => by rw [e3, key]⟩,
    ⟨f4, h4, fun a b => by rw [e4, key]⟩, ⟨f5, h5, fun a b => by rw [e5, key]⟩⟩

/-- C19 for the translated Java text: descending is ascending with the arguments swapped, for every integer type and
both kinds of comparators. -/
theorem _root_.Verif.C19_generated_desc :
    (∀ a b, ByteType.Desc a b = ByteType.Asc b a ∧ ByteType.AbsDesc a b = ByteType.AbsAsc b a) ∧
    (∀ a b, ShortType.Desc a b = ShortType.Asc b a ∧ ShortType.AbsDesc a b = ShortType.AbsAsc b a) ∧
    (∀ a b, CharType.Desc a b = CharType.Asc b a ∧ CharType.AbsDesc a b = CharType.AbsAsc b a) ∧
    (∀ a b, IntType.Desc a b = IntType.Asc b a ∧ IntType.AbsDesc a b = IntType.AbsAsc b a) ∧
    (∀ a b, LongType.Desc a b = LongType.Asc b a ∧ LongType.AbsDesc a b = LongType.AbsAsc b a) :=
  ⟨fun _ _ => ⟨rfl, rfl⟩, fun _ _ => ⟨rfl, rfl⟩, fun _ _ => ⟨rfl, rfl⟩, fun _ _ => ⟨rfl, rfl⟩, fun _ _ => ⟨rfl, rfl⟩⟩

/-- C19 for the translated Java text: the absolute comparators order by magnitude (partial: for int and long with the
exceptions stated; `C19_min_value_refuted`). -/
theorem _root_.Verif.C19_generated_partial :
    (∃ f, ByteType.comparatorFor .ascendingAbsolute = .ok f ∧ ∀ a b, SignIs (f a b).toInt a.toInt.natAbs b.toInt.natAbs) ∧
    (∃ f, ShortType.comparatorFor .ascendingAbsolute = .ok f ∧ ∀ a b, SignIs (f a b).toInt a.toInt.natAbs b.toInt.natAbs) ∧
    (∃ f, CharType.comparatorFor .ascendingAbsolute = .ok f ∧ ∀ a b, SignIs (f a b).toInt a.toNat b.toNat) ∧
    (∃ f, IntType.comparatorFor .ascendingAbsolute = .ok f ∧ ∀ a b,
      SignIs (f a b).toInt a.toInt.natAbs b.toInt.natAbs ↔ ¬ (a.toInt = -2147483648 ∧ b.toInt = 0)) ∧
    (∃ f, LongType.comparatorFor .ascendingAbsolute = .ok f ∧ ∀ a b,
      SignIs (f a b).toInt a.toInt.natAbs b.toInt.natAbs ↔
        (a.toInt = -9223372036854775808 ↔ b.toInt = -9223372036854775808)) := by
  obtain ⟨f1, h1, e1⟩ := byte_comparator .ascendingAbsolute
  obtain ⟨f2, h2, e2⟩ := short_comparator .ascendingAbsolute
  obtain ⟨f3, h3, e3⟩ := char_comparator .ascendingAbsolute
  obtain ⟨f4, h4, e4⟩ := int_comparator .ascendingAbsolute
  obtain ⟨f5, h5, e5⟩ := long_comparator .ascendingAbsolute
  refine ⟨⟨f1, h1, fun a b => ?_⟩, ⟨f2, h2, fun a b => ?_⟩, ⟨f3, h3, fun a b => ?_⟩, ⟨f4, h4, fun a b => ?_⟩, ⟨f5, h5, fun a b => ?_⟩⟩
  · rw [e1]; exact (C19_abs_small _ _ (.inl ⟨byte_range a, byte_range b⟩)).1
  · rw [e2]; exact (C19_abs_small _ _ (.inr (.inl ⟨short_range a, short_range b⟩))).1
  · rw [e3]; exact (C19_abs_small _ _ (.inr (.inr ⟨char_range a, char_range b⟩))).1
  · rw [e4]; exact C19_abs_int_partial _ _ (int_range a) (int_range b)
  · rw [e5]; exact C19_abs_long_partial _ _ (long_range a) (long_range b)

example : (ByteType.Asc (-128#8) 127#8).toInt = -255 ∧ (IntType.Asc 2147483647#32 (-1#32)).toInt < 0 ∧
    (CharType.Asc 65535#16 0#16).toInt = 65535 ∧ (LongType.AbsAsc (-5#64) 3#64).toInt = 1 := by decide

/-- C67 for the translated Java text. -/
theorem _root_.Verif.C67_generated (a b c : Bool) :
    ((BoolType.Asc a b).toInt = 0 ↔ a = b) ∧ BoolType.Desc a b = BoolType.Asc b a ∧
    (BoolType.Asc a b).toInt = - (BoolType.Asc b a).toInt ∧
    ((BoolType.Asc a b).toInt ≤ 0 → (BoolType.Asc b c).toInt ≤ 0 → (BoolType.Asc a c).toInt ≤ 0) ∧
    (BoolType.Asc true false).toInt < 0 ∧
    BoolType.comparatorFor .ascending = .ok BoolType.Asc ∧ BoolType.comparatorFor .descending = .ok BoolType.Desc ∧
    BoolType.comparatorFor .ascendingAbsolute = .error .illegalState ∧
    BoolType.comparatorFor .descendingAbsolute = .error .illegalState ∧
    (BoolType.IS_EQ a b = true ↔ a = b) ∧ (BoolType.IS_NEQ a b = true ↔ a ≠ b) ∧
    BoolType.predicateFor .eq = .ok BoolType.IS_EQ ∧ BoolType.predicateFor .neq = .ok BoolType.IS_NEQ := by
  refine ⟨?_, ?_, ?_, ?_, by decide, rfl, rfl, rfl, rfl, ?_, ?_, rfl, rfl⟩ <;> cases a <;> cases b <;> cases c <;> decide

end Verif.Link.Types

import Verif.Model.Floats
import Verif.Spec.Floats
import Mathlib.Tactic.ByContra
/-! Lemmas about the floating-point model. -/
namespace Verif.Floats
open FloatSpec

/-! ### rounding -/

theorem pow_le_of_le {a b : Nat} (h : a ≤ b) : (2 : Nat) ^ a ≤ 2 ^ b := Nat.pow_le_pow_right (by omega) h

theorem roundNat_zero (p : Nat) : roundNat p 0 = 0 := by
  unfold roundNat; simp

/-- the shift amount of `roundNat` -/
theorem shift_le {p n : Nat} (hp : 1 ≤ p) (hn : n ≠ 0) : 2 ^ (Nat.log2 n + 1 - p) ≤ n :=
  Nat.le_trans (pow_le_of_le (by omega)) (Nat.log2_self_le hn)

/-- rounding up never reaches below, rounding down never passes a representable number -/
theorem roundNat_ge {p n M j : Nat} (hp : 1 ≤ p) (hM : M < 2 ^ p) (h : M * 2 ^ j ≤ n) :
    M * 2 ^ j ≤ roundNat p n := by
  by_cases hn : n = 0
  · have h0 : M * 2 ^ j = 0 := by omega
    rw [h0]; exact Nat.zero_le _
  have hlog := Nat.log2_self_le hn
  unfold roundNat
  simp only
  generalize hk : Nat.log2 n + 1 - p = k
  have hq : M * 2 ^ j ≤ n / 2 ^ k * 2 ^ k := by
    by_cases hkj : k ≤ j
    · have e : M * 2 ^ j = M * 2 ^ (j - k) * 2 ^ k := by
        rw [Nat.mul_assoc, ← Nat.pow_add]; congr 2; omega
      rw [e] at h ⊢
      exact Nat.mul_le_mul_right _ ((Nat.le_div_iff_mul_le (Nat.two_pow_pos k)).2 h)
    · have h1 : 2 ^ (p - 1) ≤ n / 2 ^ k := by
        rw [Nat.le_div_iff_mul_le (Nat.two_pow_pos k), ← Nat.pow_add]
        exact Nat.le_trans (pow_le_of_le (by omega)) hlog
      calc M * 2 ^ j ≤ 2 ^ p * 2 ^ j := Nat.mul_le_mul_right _ (by omega)
        _ = 2 ^ (p + j) := by rw [Nat.pow_add]
        _ ≤ 2 ^ (p - 1 + k) := pow_le_of_le (by omega)
        _ = 2 ^ (p - 1) * 2 ^ k := by rw [Nat.pow_add]
        _ ≤ _ := Nat.mul_le_mul_right _ h1
  refine Nat.le_trans hq (Nat.mul_le_mul_right _ ?_)
  split <;> omega

theorem roundNat_le {p n M j : Nat} (hM : M < 2 ^ p) (h : n ≤ M * 2 ^ j) :
    roundNat p n ≤ M * 2 ^ j := by
  by_cases hn : n = 0
  · subst hn; rw [roundNat_zero]; omega
  have hlog := Nat.log2_self_le hn
  unfold roundNat
  simp only
  generalize hk : Nat.log2 n + 1 - p = k
  have hkj : k ≤ j := by
    by_contra hc
    have h1 : M * 2 ^ j < 2 ^ p * 2 ^ j := (Nat.mul_lt_mul_right (Nat.two_pow_pos j)).2 hM
    rw [← Nat.pow_add] at h1
    have h2 : 2 ^ (p + j) ≤ 2 ^ (Nat.log2 n) := pow_le_of_le (by omega)
    omega
  have e : M * 2 ^ j = M * 2 ^ (j - k) * 2 ^ k := by
    rw [Nat.mul_assoc, ← Nat.pow_add]; congr 2; omega
  rw [e] at h ⊢
  apply Nat.mul_le_mul_right
  have hd := Nat.div_add_mod n (2 ^ k)
  have hpos := Nat.two_pow_pos k
  generalize M * 2 ^ (j - k) = W at h
  have h1 : n / 2 ^ k ≤ W := by
    rw [← Nat.lt_add_one_iff, Nat.div_lt_iff_lt_mul hpos, Nat.add_mul]; omega
  split
  · rename_i hr
    have hr0 : 0 < n % 2 ^ k := by omega
    rcases Nat.lt_or_ge (n / 2 ^ k) W with h2 | h2
    · exact h2
    · exfalso
      have h3 : W * 2 ^ k ≤ 2 ^ k * (n / 2 ^ k) := by
        rw [Nat.mul_comm (2 ^ k)]; exact Nat.mul_le_mul_right _ h2
      omega
  · exact h1

theorem roundNat_exact {p M j : Nat} (hp : 1 ≤ p) (hM : M < 2 ^ p) : roundNat p (M * 2 ^ j) = M * 2 ^ j :=
  Nat.le_antisymm (roundNat_le hM (Nat.le_refl _)) (roundNat_ge hp hM (Nat.le_refl _))

theorem roundNat_eq_zero {p n : Nat} (hp : 1 ≤ p) : roundNat p n = 0 ↔ n = 0 := by
  constructor
  · intro h
    by_contra hn
    have := roundNat_ge (p := p) (n := n) (M := 1) (j := 0) hp
      (Nat.one_lt_two_pow (by omega)) (by simp; omega)
    simp at this; omega
  · rintro rfl; exact roundNat_zero p

/-- The sign survives rounding, also underflow and overflow. -/
theorem signum_roundTo {p top : Nat} (hp : 1 ≤ p) (ht : 0 < top) (x : Int) :
    signumInt (roundTo p top x) = if x < 0 then -1 else if x = 0 then 0 else 1 := by
  have hz := roundNat_eq_zero (p := p) (n := x.natAbs) hp
  unfold roundTo
  simp only
  split
  · rename_i h
    have : x ≠ 0 := by
      intro hx
      have := hz.2 (by omega)
      omega
    unfold signumInt
    by_cases hx : x < 0
    · simp [hx]
    · simp [hx, this]
  · unfold signumInt
    by_cases hx : x < 0
    · have : roundNat p x.natAbs ≠ 0 := by rw [Ne, hz]; omega
      simp only [hx, if_true]
      rw [if_pos (by omega)]
    · simp only [hx, if_false]
      by_cases hx0 : x = 0
      · rw [if_neg (by omega), if_pos (by have := hz.2 (by omega); omega), if_pos hx0]
      · have : roundNat p x.natAbs ≠ 0 := by rw [Ne, hz]; omega
        rw [if_neg (by omega), if_neg (by omega), if_neg hx0]


/-! ### reading the bits -/

theorem neg64_eq (b : BitVec 64) : neg64 b = decide (2 ^ 63 ≤ b.toNat) := by
  unfold neg64
  have h := b.isLt
  rw [BitVec.getLsbD, Nat.testBit_eq_decide_div_mod_eq]
  congr 1
  apply propext
  omega

theorem expo64_eq (b : BitVec 64) : expo64 b = b.toNat / 2 ^ 52 % 2 ^ 11 := by
  unfold expo64
  rw [BitVec.extractLsb'_toNat, Nat.shiftRight_eq_div_pow]

theorem frac64_eq (b : BitVec 64) : frac64 b = b.toNat % 2 ^ 52 := by
  unfold frac64
  rw [BitVec.extractLsb'_toNat, Nat.shiftRight_zero]

theorem neg32_eq (b : BitVec 32) : neg32 b = decide (2 ^ 31 ≤ b.toNat) := by
  unfold neg32
  have h := b.isLt
  rw [BitVec.getLsbD, Nat.testBit_eq_decide_div_mod_eq]
  congr 1
  apply propext
  omega

theorem expo32_eq (b : BitVec 32) : expo32 b = b.toNat / 2 ^ 23 % 2 ^ 8 := by
  unfold expo32
  rw [BitVec.extractLsb'_toNat, Nat.shiftRight_eq_div_pow]

theorem frac32_eq (b : BitVec 32) : frac32 b = b.toNat % 2 ^ 23 := by
  unfold frac32
  rw [BitVec.extractLsb'_toNat, Nat.shiftRight_zero]

theorem decode64_eq (b : BitVec 64) : decode64 b =
    if expo64 b = 2047 then (if frac64 b = 0 then .inf (neg64 b) else .nan) else .fin (num64 b) := by
  unfold decode64 num64 mag64
  rw [neg64_eq, expo64_eq, frac64_eq]

theorem decode32_eq (b : BitVec 32) : decode32 b =
    if expo32 b = 255 then (if frac32 b = 0 then .inf (neg32 b) else .nan) else .fin (num32 b) := by
  unfold decode32 num32 mag32
  rw [neg32_eq, expo32_eq, frac32_eq]

theorem mag64_inf {b : BitVec 64} (he : expo64 b = 2047) (hf : frac64 b = 0) : mag64 b = 2 ^ 2098 := by
  unfold mag64
  rw [he, hf, if_neg (by omega), Nat.add_zero, ← Nat.pow_add]

theorem mag64_fin {b : BitVec 64} (he : expo64 b ≠ 2047) : mag64 b < 2 ^ 2098 := by
  have h1 : expo64 b < 2048 := by rw [expo64_eq]; omega
  have h2 : frac64 b < 2 ^ 52 := by rw [frac64_eq]; omega
  unfold mag64
  split
  · exact Nat.lt_of_lt_of_le h2 (pow_le_of_le (by omega))
  · calc (2 ^ 52 + frac64 b) * 2 ^ (expo64 b - 1) < 2 ^ 53 * 2 ^ (expo64 b - 1) :=
        (Nat.mul_lt_mul_right (Nat.two_pow_pos _)).2 (by omega)
      _ = 2 ^ (53 + (expo64 b - 1)) := by rw [Nat.pow_add]
      _ ≤ 2 ^ 2098 := pow_le_of_le (by omega)

theorem mag32_inf {b : BitVec 32} (he : expo32 b = 255) (hf : frac32 b = 0) : mag32 b = 2 ^ 277 := by
  unfold mag32
  rw [he, hf, if_neg (by omega), Nat.add_zero, ← Nat.pow_add]

theorem mag32_fin {b : BitVec 32} (he : expo32 b ≠ 255) : mag32 b < 2 ^ 277 := by
  have h1 : expo32 b < 256 := by rw [expo32_eq]; omega
  have h2 : frac32 b < 2 ^ 23 := by rw [frac32_eq]; omega
  unfold mag32
  split
  · exact Nat.lt_of_lt_of_le h2 (pow_le_of_le (by omega))
  · calc (2 ^ 23 + frac32 b) * 2 ^ (expo32 b - 1) < 2 ^ 24 * 2 ^ (expo32 b - 1) :=
        (Nat.mul_lt_mul_right (Nat.two_pow_pos _)).2 (by omega)
      _ = 2 ^ (24 + (expo32 b - 1)) := by rw [Nat.pow_add]
      _ ≤ 2 ^ 277 := pow_le_of_le (by omega)

/-- A double that is not NaN: what it decodes to, and its value. -/
theorem cases64 {b : BitVec 64} (h : ¬ IsNaN64 b) :
    (decode64 b = .inf true ∧ num64 b = -(2 ^ 2098 : Nat)) ∨ (decode64 b = .inf false ∧ num64 b = (2 ^ 2098 : Nat)) ∨
    (decode64 b = .fin (num64 b) ∧ -(2 ^ 2098 : Nat) < num64 b ∧ num64 b < (2 ^ 2098 : Nat)) := by
  rw [decode64_eq]
  by_cases he : expo64 b = 2047
  · have hf : frac64 b = 0 := by
      by_contra hf; exact h ⟨he, hf⟩
    rw [if_pos he, if_pos hf]
    unfold num64
    rw [mag64_inf he hf]
    cases neg64 b
    · right; left; exact ⟨rfl, rfl⟩
    · left; exact ⟨rfl, rfl⟩
  · right; right
    rw [if_neg he]
    have := mag64_fin he
    refine ⟨rfl, ?_⟩
    generalize 2 ^ 2098 = T at this
    unfold num64
    split <;> omega

theorem cases32 {b : BitVec 32} (h : ¬ IsNaN32 b) :
    (decode32 b = .inf true ∧ num32 b = -(2 ^ 277 : Nat)) ∨ (decode32 b = .inf false ∧ num32 b = (2 ^ 277 : Nat)) ∨
    (decode32 b = .fin (num32 b) ∧ -(2 ^ 277 : Nat) < num32 b ∧ num32 b < (2 ^ 277 : Nat)) := by
  rw [decode32_eq]
  by_cases he : expo32 b = 255
  · have hf : frac32 b = 0 := by
      by_contra hf; exact h ⟨he, hf⟩
    rw [if_pos he, if_pos hf]
    unfold num32
    rw [mag32_inf he hf]
    cases neg32 b
    · right; left; exact ⟨rfl, rfl⟩
    · left; exact ⟨rfl, rfl⟩
  · right; right
    rw [if_neg he]
    have := mag32_fin he
    refine ⟨rfl, ?_⟩
    generalize 2 ^ 277 = T at this
    unfold num32
    split <;> omega

theorem decode64_nan {b : BitVec 64} (h : IsNaN64 b) : decode64 b = .nan := by
  rw [decode64_eq, if_pos h.1, if_neg h.2]
theorem decode32_nan {b : BitVec 32} (h : IsNaN32 b) : decode32 b = .nan := by
  rw [decode32_eq, if_pos h.1, if_neg h.2]

/-- `<` and `==` on values are `<` and `=` of the numerical values. -/
theorem lt64 {a b : BitVec 64} (ha : ¬ IsNaN64 a) (hb : ¬ IsNaN64 b) :
    (decode64 a).lt (decode64 b) = decide (num64 a < num64 b) := by
  have hT : 0 < 2 ^ 2098 := Nat.two_pow_pos _
  rcases cases64 ha with ⟨e, v⟩ | ⟨e, v⟩ | ⟨e, v⟩ <;> rcases cases64 hb with ⟨e', v'⟩ | ⟨e', v'⟩ | ⟨e', v'⟩ <;>
    rw [e, e'] <;> generalize 2 ^ 2098 = T at * <;> unfold FVal.lt <;> simp only [Bool.not_true, Bool.not_false,
      Bool.and_true, Bool.and_false, Bool.false_eq, Bool.true_eq, decide_eq_false_iff_not, decide_eq_true_iff] <;>
    omega

theorem eq64 {a b : BitVec 64} (ha : ¬ IsNaN64 a) (hb : ¬ IsNaN64 b) :
    (decode64 a).eq (decode64 b) = decide (num64 a = num64 b) := by
  have hT : 0 < 2 ^ 2098 := Nat.two_pow_pos _
  rcases cases64 ha with ⟨e, v⟩ | ⟨e, v⟩ | ⟨e, v⟩ <;> rcases cases64 hb with ⟨e', v'⟩ | ⟨e', v'⟩ | ⟨e', v'⟩ <;>
    rw [e, e'] <;> generalize 2 ^ 2098 = T at * <;> unfold FVal.eq <;> simp only [beq_self_eq_true, show (true == false) = false from rfl,
      show (false == true) = false from rfl, Bool.false_eq, Bool.true_eq, decide_eq_false_iff_not, decide_eq_true_iff] <;>
    first | omega | rfl

theorem lt32 {a b : BitVec 32} (ha : ¬ IsNaN32 a) (hb : ¬ IsNaN32 b) :
    (decode32 a).lt (decode32 b) = decide (num32 a < num32 b) := by
  have hT : 0 < 2 ^ 277 := Nat.two_pow_pos _
  rcases cases32 ha with ⟨e, v⟩ | ⟨e, v⟩ | ⟨e, v⟩ <;> rcases cases32 hb with ⟨e', v'⟩ | ⟨e', v'⟩ | ⟨e', v'⟩ <;>
    rw [e, e'] <;> generalize 2 ^ 277 = T at * <;> unfold FVal.lt <;> simp only [Bool.not_true, Bool.not_false,
      Bool.and_true, Bool.and_false, Bool.false_eq, Bool.true_eq, decide_eq_false_iff_not, decide_eq_true_iff] <;>
    omega

theorem eq32 {a b : BitVec 32} (ha : ¬ IsNaN32 a) (hb : ¬ IsNaN32 b) :
    (decode32 a).eq (decode32 b) = decide (num32 a = num32 b) := by
  have hT : 0 < 2 ^ 277 := Nat.two_pow_pos _
  rcases cases32 ha with ⟨e, v⟩ | ⟨e, v⟩ | ⟨e, v⟩ <;> rcases cases32 hb with ⟨e', v'⟩ | ⟨e', v'⟩ | ⟨e', v'⟩ <;>
    rw [e, e'] <;> generalize 2 ^ 277 = T at * <;> unfold FVal.eq <;> simp only [beq_self_eq_true, show (true == false) = false from rfl,
      show (false == true) = false from rfl, Bool.false_eq, Bool.true_eq, decide_eq_false_iff_not, decide_eq_true_iff] <;>
    first | omega | rfl

/-- `(int) Math.signum(a - b)` is the sign of the difference of the values. -/
theorem dAsc_eq {a b : BitVec 64} (ha : ¬ IsNaN64 a) (hb : ¬ IsNaN64 b) :
    dAsc a b = if num64 a < num64 b then -1 else if num64 a = num64 b then 0 else 1 := by
  have hT : 0 < 2 ^ 2098 := Nat.two_pow_pos _
  unfold dAsc
  rcases cases64 ha with ⟨e, v⟩ | ⟨e, v⟩ | ⟨e, v⟩ <;> rcases cases64 hb with ⟨e', v'⟩ | ⟨e', v'⟩ | ⟨e', v'⟩ <;> rw [e, e']
  case inr.inr.inr.inr =>
    show signumInt (roundTo 53 top64 (num64 a - num64 b)) = _
    have hT' : 0 < top64 := hT
    rw [signum_roundTo (by omega) hT']
    clear v v' hT hT'
    split <;> split <;> (try split) <;> (try split) <;> omega
  all_goals
    generalize 2 ^ 2098 = T at *
    simp only [sub64, signumInt, if_true, Bool.not_true, Bool.not_false, Bool.true_eq_false, Bool.false_eq_true, if_false,
      reduceCtorEq]
    split <;> (try split) <;> omega

/-! ### the value is determined by the bits -/

/-- The magnitude as a function of the bits without the sign. -/
def magOf (w n : Nat) : Nat := if n / 2 ^ w = 0 then n % 2 ^ w else (2 ^ w + n % 2 ^ w) * 2 ^ (n / 2 ^ w - 1)

theorem magOf_split {w e m : Nat} (hm : m < 2 ^ w) :
    magOf w (2 ^ w * e + m) = if e = 0 then m else (2 ^ w + m) * 2 ^ (e - 1) := by
  unfold magOf
  rw [Nat.mul_add_div (Nat.two_pow_pos w), Nat.mul_add_mod, Nat.div_eq_of_lt hm, Nat.mod_eq_of_lt hm, Nat.add_zero]

theorem magOf_succ (w n : Nat) : magOf w n < magOf w (n + 1) := by
  have hw := Nat.two_pow_pos w
  have hd := Nat.div_add_mod n (2 ^ w)
  have hm := Nat.mod_lt n hw
  generalize n / 2 ^ w = e at *
  generalize n % 2 ^ w = m at *
  subst hd
  rw [magOf_split hm]
  by_cases h : m + 1 < 2 ^ w
  · rw [Nat.add_assoc, magOf_split h]
    split
    · omega
    · exact (Nat.mul_lt_mul_right (Nat.two_pow_pos _)).2 (by omega)
  · have e1 : 2 ^ w * e + m + 1 = 2 ^ w * (e + 1) + 0 := by rw [Nat.mul_succ]; omega
    rw [e1, magOf_split hw, if_neg (Nat.succ_ne_zero e)]
    by_cases h0 : e = 0
    · subst h0; simp; omega
    · rw [if_neg h0]
      have e2 : e + 1 - 1 = (e - 1) + 1 := by omega
      rw [e2, Nat.pow_succ, Nat.mul_comm (2 ^ (e - 1)) 2, ← Nat.mul_assoc]
      exact (Nat.mul_lt_mul_right (Nat.two_pow_pos _)).2 (by omega)

theorem magOf_lt {w m n : Nat} (h : m < n) : magOf w m < magOf w n := by
  induction n with
  | zero => omega
  | succ n ih =>
    rcases Nat.lt_or_ge m n with h1 | h1
    · exact Nat.lt_trans (ih h1) (magOf_succ w n)
    · have : m = n := by omega
      subst this; exact magOf_succ w m

theorem magOf_lt_iff {w m n : Nat} : magOf w m < magOf w n ↔ m < n := by
  constructor
  · intro h
    by_contra hc
    rcases Nat.lt_or_ge n m with h1 | h1
    · have := magOf_lt (w := w) h1; omega
    · have : m = n := by omega
      subst this; omega
  · exact magOf_lt

theorem magOf_inj {w m n : Nat} : magOf w m = magOf w n ↔ m = n := by
  constructor
  · intro h
    by_contra hc
    rcases Nat.lt_or_ge n m with h1 | h1
    · have := magOf_lt (w := w) h1; omega
    · have := magOf_lt (w := w) (show m < n by omega); omega
  · rintro rfl; rfl

theorem mag64_eq (b : BitVec 64) : mag64 b = magOf 52 (b.toNat % 2 ^ 63) := by
  unfold mag64 magOf
  rw [expo64_eq, frac64_eq]
  have e1 : b.toNat % 2 ^ 63 / 2 ^ 52 = b.toNat / 2 ^ 52 % 2 ^ 11 := by omega
  have e2 : b.toNat % 2 ^ 63 % 2 ^ 52 = b.toNat % 2 ^ 52 := by omega
  rw [e1, e2]

theorem mag32_eq (b : BitVec 32) : mag32 b = magOf 23 (b.toNat % 2 ^ 31) := by
  unfold mag32 magOf
  rw [expo32_eq, frac32_eq]
  have e1 : b.toNat % 2 ^ 31 / 2 ^ 23 = b.toNat / 2 ^ 23 % 2 ^ 8 := by omega
  have e2 : b.toNat % 2 ^ 31 % 2 ^ 23 = b.toNat % 2 ^ 23 := by omega
  rw [e1, e2]

theorem magOf_zero (w : Nat) : magOf w 0 = 0 := by simp [magOf]

theorem magOf_eq_zero {w n : Nat} : magOf w n = 0 ↔ n = 0 := by
  conv => lhs; rw [← magOf_zero w]
  exact magOf_inj

/-- Two bit patterns of the same value are the same or the two zeros. -/
theorem num64_inj {a b : BitVec 64} : num64 a = num64 b ↔ a = b ∨ (num64 a = 0 ∧ num64 b = 0) := by
  constructor
  · intro h
    by_cases h0 : num64 a = 0
    · right; omega
    · left
      unfold num64 at h h0
      rw [neg64_eq, mag64_eq] at h h0
      rw [neg64_eq, mag64_eq] at h
      have h1 := a.isLt
      have h2 := b.isLt
      have z1 := magOf_eq_zero (w := 52) (n := a.toNat % 2 ^ 63)
      have i1 := magOf_inj (w := 52) (m := a.toNat % 2 ^ 63) (n := b.toNat % 2 ^ 63)
      apply BitVec.eq_of_toNat_eq
      simp only [decide_eq_true_eq] at h h0
      split at h <;> split at h <;> omega
  · rintro (h | ⟨h, h'⟩)
    · rw [h]
    · omega

theorem num64_zero {a : BitVec 64} : num64 a = 0 ↔ a = 0#64 ∨ a = 0x8000000000000000#64 := by
  unfold num64
  rw [neg64_eq, mag64_eq]
  have h1 := a.isLt
  have z1 := magOf_eq_zero (w := 52) (n := a.toNat % 2 ^ 63)
  rw [← BitVec.toNat_inj, ← BitVec.toNat_inj]
  simp only [decide_eq_true_eq, BitVec.toNat_ofNat]
  split <;> omega

theorem num32_inj {a b : BitVec 32} : num32 a = num32 b ↔ a = b ∨ (num32 a = 0 ∧ num32 b = 0) := by
  constructor
  · intro h
    by_cases h0 : num32 a = 0
    · right; omega
    · left
      unfold num32 at h h0
      rw [neg32_eq, mag32_eq] at h h0
      rw [neg32_eq, mag32_eq] at h
      have h1 := a.isLt
      have h2 := b.isLt
      have z1 := magOf_eq_zero (w := 23) (n := a.toNat % 2 ^ 31)
      have i1 := magOf_inj (w := 23) (m := a.toNat % 2 ^ 31) (n := b.toNat % 2 ^ 31)
      apply BitVec.eq_of_toNat_eq
      simp only [decide_eq_true_eq] at h h0
      split at h <;> split at h <;> omega
  · rintro (h | ⟨h, h'⟩)
    · rw [h]
    · omega

theorem num32_zero {a : BitVec 32} : num32 a = 0 ↔ a = 0#32 ∨ a = 0x80000000#32 := by
  unfold num32
  rw [neg32_eq, mag32_eq]
  have h1 := a.isLt
  have z1 := magOf_eq_zero (w := 23) (n := a.toNat % 2 ^ 31)
  rw [← BitVec.toNat_inj, ← BitVec.toNat_inj]
  simp only [decide_eq_true_eq, BitVec.toNat_ofNat]
  split <;> omega

theorem abs64_toNat (b : BitVec 64) : (abs64 b).toNat = b.toNat % 2 ^ 63 := by
  unfold abs64
  rw [BitVec.toNat_and, show (0x7fffffffffffffff#64).toNat = 2 ^ 63 - 1 from rfl, Nat.and_two_pow_sub_one_eq_mod]

theorem abs32_toNat (b : BitVec 32) : (abs32 b).toNat = b.toNat % 2 ^ 31 := by
  unfold abs32
  rw [BitVec.toNat_and, show (0x7fffffff#32).toNat = 2 ^ 31 - 1 from rfl, Nat.and_two_pow_sub_one_eq_mod]

theorem num64_abs (b : BitVec 64) : num64 (abs64 b) = (num64 b).natAbs := by
  unfold num64
  rw [neg64_eq, mag64_eq, abs64_toNat]
  rw [if_neg (by simp only [decide_eq_true_eq]; omega), mag64_eq, Nat.mod_mod]
  split <;> omega

theorem num32_abs (b : BitVec 32) : num32 (abs32 b) = (num32 b).natAbs := by
  unfold num32
  rw [neg32_eq, mag32_eq, abs32_toNat]
  rw [if_neg (by simp only [decide_eq_true_eq]; omega), mag32_eq, Nat.mod_mod]
  split <;> omega

theorem isNaN64_abs (b : BitVec 64) : IsNaN64 (abs64 b) ↔ IsNaN64 b := by
  unfold IsNaN64
  rw [expo64_eq, expo64_eq, frac64_eq, frac64_eq, abs64_toNat]
  omega

theorem isNaN32_abs (b : BitVec 32) : IsNaN32 (abs32 b) ↔ IsNaN32 b := by
  unfold IsNaN32
  rw [expo32_eq, expo32_eq, frac32_eq, frac32_eq, abs32_toNat]
  omega

/-- The JDK's NaN test used for hashing is the textbook one. -/
theorem isNaN32_iff (b : BitVec 32) : KeyTypes.isNaN32 b = true ↔ IsNaN32 b := by
  unfold KeyTypes.isNaN32 IsNaN32
  have := abs32_toNat b
  unfold abs32 at this
  rw [expo32_eq, frac32_eq, this, decide_eq_true_eq, show (0x7f800000#32).toNat = 2139095040 from rfl]
  omega

/-! ### `Float.compare` -/

/-- Position of a float in the order of `Float.compare`. -/
def rank32 (b : BitVec 32) : Int :=
  if IsNaN32 b then 2 ^ 32 else if neg32 b then -((b.toNat % 2 ^ 31 : Nat) : Int) - 1 else (b.toNat % 2 ^ 31 : Nat)

theorem fAsc_rank (a b : BitVec 32) :
    fAsc a b = if rank32 a < rank32 b then -1 else if rank32 a = rank32 b then 0 else 1 := by
  have h1 := a.isLt
  have h2 := b.isLt
  unfold fAsc floatToIntBits KeyTypes.floatHash rank32
  simp only [isNaN32_iff]
  by_cases ha : IsNaN32 a <;> by_cases hb : IsNaN32 b
  · rw [decode32_nan ha, decode32_nan hb]
    simp [ha, hb, FVal.lt]
  · rw [decode32_nan ha]
    have e1 : FVal.nan.lt (decode32 b) = false := by unfold FVal.lt; rfl
    have e2 : (decode32 b).lt FVal.nan = false := by
      rcases cases32 hb with ⟨e, v⟩ | ⟨e, v⟩ | ⟨e, v⟩ <;> rw [e] <;> rfl
    rw [e1, e2]
    simp only [ha, hb, if_true, if_false, Bool.false_eq_true]
    have hb' := hb
    unfold IsNaN32 at hb'
    rw [expo32_eq, frac32_eq] at hb'
    rw [neg32_eq]
    simp only [decide_eq_true_eq]
    have e3 : b.toInt ≤ 0x7f800000 := by rw [BitVec.toInt_eq_toNat_cond]; split <;> omega
    have e4 : (0x7fc00000#32).toInt = 0x7fc00000 := rfl
    rw [e4, if_neg (by omega), if_neg (by omega), if_neg (by split <;> omega), if_neg (by split <;> omega)]
  · rw [decode32_nan hb]
    have e1 : FVal.nan.lt (decode32 a) = false := by unfold FVal.lt; rfl
    have e2 : (decode32 a).lt FVal.nan = false := by
      rcases cases32 ha with ⟨e, v⟩ | ⟨e, v⟩ | ⟨e, v⟩ <;> rw [e] <;> rfl
    rw [e1, e2]
    simp only [ha, hb, if_true, if_false, Bool.false_eq_true]
    have hb' := ha
    unfold IsNaN32 at hb'
    rw [expo32_eq, frac32_eq] at hb'
    rw [neg32_eq]
    simp only [decide_eq_true_eq]
    have e3 : a.toInt ≤ 0x7f800000 := by rw [BitVec.toInt_eq_toNat_cond]; split <;> omega
    have e4 : (0x7fc00000#32).toInt = 0x7fc00000 := rfl
    rw [e4, if_neg (by omega), if_pos (by omega), if_pos (by split <;> omega)]
  · rw [lt32 ha hb, lt32 hb ha]
    simp only [ha, hb, if_false, decide_eq_true_eq]
    unfold num32
    rw [mag32_eq, mag32_eq, neg32_eq, neg32_eq, BitVec.toInt_eq_toNat_cond, BitVec.toInt_eq_toNat_cond]
    simp only [decide_eq_true_eq]
    have m1 := magOf_lt_iff (w := 23) (m := a.toNat % 2 ^ 31) (n := b.toNat % 2 ^ 31)
    have m2 := magOf_lt_iff (w := 23) (m := b.toNat % 2 ^ 31) (n := a.toNat % 2 ^ 31)
    have z1 := magOf_eq_zero (w := 23) (n := a.toNat % 2 ^ 31)
    have z2 := magOf_eq_zero (w := 23) (n := b.toNat % 2 ^ 31)
    generalize magOf 23 (a.toNat % 2 ^ 31) = A at *
    generalize magOf 23 (b.toNat % 2 ^ 31) = B at *
    by_cases n1 : 2 ^ 31 ≤ a.toNat <;> by_cases n2 : 2 ^ 31 ≤ b.toNat
    · simp only [n1, n2, if_true]; (repeat' split) <;> omega
    · simp only [n1, n2, if_true, if_false]; (repeat' split) <;> omega
    · simp only [n1, n2, if_true, if_false]; (repeat' split) <;> omega
    · simp only [n1, n2, if_false]; (repeat' split) <;> omega

/-! ### `EqEpsilon` -/

/-- Rounding between two neighbouring representable numbers. -/
theorem roundNat_between {p n M j : Nat} (hp : 1 ≤ p) (hlo : 2 ^ (p - 1) ≤ M) (hhi : M + 1 ≤ 2 ^ p)
    (h1 : M * 2 ^ j ≤ n) (h2 : n < (M + 1) * 2 ^ j) :
    roundNat p n = if 2 ^ j < 2 * (n - M * 2 ^ j) ∨ (2 * (n - M * 2 ^ j) = 2 ^ j ∧ M % 2 = 1)
      then (M + 1) * 2 ^ j else M * 2 ^ j := by
  have hj := Nat.two_pow_pos j
  have hn : n ≠ 0 := by
    have := Nat.mul_le_mul_right (2 ^ j) hlo
    have : 0 < 2 ^ (p - 1) * 2 ^ j := Nat.mul_pos (Nat.two_pow_pos _) hj
    omega
  have hlog : Nat.log2 n = p - 1 + j := by
    rw [Nat.log2_eq_iff hn]
    constructor
    · rw [Nat.pow_add]; exact Nat.le_trans (Nat.mul_le_mul_right _ hlo) h1
    · rw [show p - 1 + j + 1 = p + j by omega, Nat.pow_add]
      exact Nat.lt_of_lt_of_le h2 (Nat.mul_le_mul_right _ hhi)
  have hq : n / 2 ^ j = M := by
    apply Nat.le_antisymm
    · rw [← Nat.lt_add_one_iff, Nat.div_lt_iff_lt_mul hj]; exact h2
    · rw [Nat.le_div_iff_mul_le hj]; exact h1
  have hr : n % 2 ^ j = n - M * 2 ^ j := by
    have := Nat.div_add_mod n (2 ^ j)
    rw [hq, Nat.mul_comm] at this; omega
  unfold roundNat
  simp only
  rw [hlog, show p - 1 + j + 1 - p = j by omega, hq, hr]
  split <;> rfl

/-- `1e-10` in units of `2^-1074`. -/
def epsM : Nat := 2 ^ 52 + 0xB7CDFD9D7BDBB

theorem num64_eps : num64 0x3DDB7CDFD9D7BDBB#64 = ((epsM * 2 ^ 988 : Nat) : Int) := by decide +kernel

theorem epsilon_eq : epsilon = .fin ((epsM * 2 ^ 988 : Nat) : Int) := by decide +kernel

theorem round_lt_eps {n : Nat} : roundNat 53 n < epsM * 2 ^ 988 ↔ n + 2 ^ 987 ≤ epsM * 2 ^ 988 := by
  have hM : epsM < 2 ^ 53 := by decide
  have e0 : epsM * 2 ^ 988 = (epsM - 1) * 2 ^ 988 + 2 ^ 988 := by
    have : epsM = (epsM - 1) + 1 := by decide
    conv => lhs; rw [this, Nat.add_mul, Nat.one_mul]
  have e1 : (2 : Nat) ^ 988 = 2 * 2 ^ 987 := by rw [← Nat.pow_succ']
  have hpos : 0 < 2 ^ 987 := Nat.two_pow_pos _
  rcases Nat.lt_or_ge n (epsM * 2 ^ 988) with h | h
  · rcases Nat.lt_or_ge n ((epsM - 1) * 2 ^ 988) with h' | h'
    · have := roundNat_le (p := 53) (n := n) (M := epsM - 1) (j := 988) (by omega) (by omega)
      generalize (epsM - 1) * 2 ^ 988 = A at *
      generalize epsM * 2 ^ 988 = B at *
      rw [e1] at e0
      generalize 2 ^ 987 = C at *
      omega
    · have := roundNat_between (p := 53) (n := n) (M := epsM - 1) (j := 988) (by decide) (by decide) (by decide) h'
        (by rw [show epsM - 1 + 1 = epsM from by decide]; exact h)
      rw [show epsM - 1 + 1 = epsM from by decide] at this
      have hev : (epsM - 1) % 2 = 0 := by decide
      rw [this]
      generalize (epsM - 1) * 2 ^ 988 = A at *
      generalize epsM * 2 ^ 988 = B at *
      rw [e1] at e0 ⊢
      generalize 2 ^ 987 = C at *
      split <;> omega
  · have := roundNat_ge (p := 53) (n := n) (M := epsM) (j := 988) (by decide) hM h
    generalize epsM * 2 ^ 988 = B at *
    generalize 2 ^ 987 = C at *
    omega

theorem eps_lt_top : epsM * 2 ^ 988 < top64 := by decide +kernel

theorem roundTo_abs (p top : Nat) (x : Int) : (roundTo p top x).abs =
    if top ≤ roundNat p x.natAbs then .inf false else .fin (roundNat p x.natAbs : Nat) := by
  unfold roundTo
  simp only
  split
  · rfl
  · simp only [FVal.abs]
    congr 1
    split <;> omega

theorem decode64_finite {b : BitVec 64} (h : Finite64 b) : decode64 b = .fin (num64 b) := by
  rw [decode64_eq, if_neg h]

theorem dEqEpsilon_finite {a b : BitVec 64} (ha : Finite64 a) (hb : Finite64 b) :
    dEqEpsilon a b = true ↔ ((num64 a - num64 b).natAbs + 2 ^ 987 : Nat) ≤ epsM * 2 ^ 988 := by
  unfold dEqEpsilon
  rw [decode64_finite ha, decode64_finite hb, epsilon_eq]
  show ((roundTo 53 top64 (num64 a - num64 b)).abs.lt _ = true) ↔ _
  rw [roundTo_abs, ← round_lt_eps]
  have := eps_lt_top
  split
  · simp only [FVal.lt]
    constructor
    · intro h; exact absurd h (by decide)
    · intro h
      exfalso
      rename_i h'
      generalize epsM * 2 ^ 988 = E at *
      generalize top64 = T at *
      omega
  · simp only [FVal.lt, decide_eq_true_eq]
    generalize epsM * 2 ^ 988 = E at *
    omega

theorem dEqEpsilon_infinite {a b : BitVec 64} (h : ¬ Finite64 a ∨ ¬ Finite64 b) : dEqEpsilon a b = false := by
  unfold dEqEpsilon
  rw [epsilon_eq]
  have hx : ∀ {c : BitVec 64}, ¬ Finite64 c → decode64 c = .nan ∨ ∃ s, decode64 c = .inf s := by
    intro c hc
    rw [decode64_eq, if_pos (by unfold Finite64 at hc; omega)]
    split
    · exact .inr ⟨_, rfl⟩
    · exact .inl rfl
  rcases h with h | h
  · rcases hx h with e | ⟨s, e⟩ <;> rw [e]
    · simp [sub64, FVal.abs, FVal.lt]
    · cases hb : decode64 b <;> simp only [sub64]
      · rfl
      · split <;> rfl
      · rfl
  · rcases hx h with e | ⟨s, e⟩ <;> rw [e]
    · cases decode64 a <;> rfl
    · cases hb : decode64 a <;> simp only [sub64]
      · rfl
      · split <;> rfl
      · rfl

end Verif.Floats

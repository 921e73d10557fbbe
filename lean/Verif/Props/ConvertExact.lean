import Verif.Props.Convert
/-! # C78 and C79, exactly: which ints survive a float, and what integer conversions keep -/
namespace Verif
open Convert ConvertSpec FloatSpec Floats

/-- `n * 2^t` rounds to a multiple of `2^t`. -/
theorem round_scaled {p a t : Nat} (hp : 1 ≤ p) : ∃ r, roundNat p (a * 2 ^ t) = r * 2 ^ t ∧ Rep p r := by
  obtain ⟨M, j, hM, hMj⟩ := rep_roundNat (n := a * 2 ^ t) hp
  rcases Nat.lt_or_ge j t with h | h
  · rcases Nat.lt_or_ge a (2 ^ p) with ha | ha
    · exact ⟨a, roundNat_exact hp ha, a, 0, ha, by simp⟩
    · exfalso
      have h1 : 2 ^ p * 2 ^ t ≤ roundNat p (a * 2 ^ t) := by
        have := roundNat_ge (p := p) (n := a * 2 ^ t) (M := 1) (j := p + t) hp (Nat.one_lt_two_pow (by omega))
          (by rw [Nat.one_mul, Nat.pow_add]; exact Nat.mul_le_mul_right _ ha)
        rwa [Nat.one_mul, Nat.pow_add] at this
      rw [hMj] at h1
      have h2 : M * 2 ^ j < 2 ^ p * 2 ^ j := (Nat.mul_lt_mul_right (Nat.two_pow_pos j)).2 hM
      have h3 : 2 ^ p * 2 ^ j ≤ 2 ^ p * 2 ^ t := Nat.mul_le_mul_left _ (pow_le_of_le (by omega))
      omega
  · refine ⟨M * 2 ^ (j - t), ?_, M, j - t, hM, rfl⟩
    rw [hMj, Nat.mul_assoc, ← Nat.pow_add, Nat.sub_add_cancel h]

/-- C78 for `float`, exactly: an `int` survives the trip through `float` if and only if its magnitude has at
most 24 significant bits, or it is `Integer.MAX_VALUE`, whose float is 2^31, which is cut down again. -/
theorem C78_float_exactly (v : BitVec 32) :
    floatCastToInt (castToFloat v) = v ↔ (∃ m k : Nat, m < 2 ^ 24 ∧ v.toInt.natAbs = m * 2 ^ k) ∨ v.toInt = 2 ^ 31 - 1 := by
  have h1 := BitVec.le_toInt (x := v)
  have h2 := BitVec.toInt_lt (x := v)
  have hle : roundNat 24 (v.toInt.natAbs * 2 ^ 149) ≤ 2 ^ 31 * 2 ^ 149 := by
    have := roundNat_le (p := 24) (n := v.toInt.natAbs * 2 ^ 149) (M := 1) (j := 31 + 149) (by omega)
      (by rw [Nat.one_mul, Nat.pow_add]; exact Nat.mul_le_mul_right _ (by omega))
    rwa [Nat.one_mul, Nat.pow_add] at this
  obtain ⟨r, hr, hrep⟩ := round_scaled (p := 24) (a := v.toInt.natAbs) (t := 149) (by omega)
  have hr31 : r ≤ 2 ^ 31 := by
    rw [hr] at hle
    exact Nat.le_of_mul_le_mul_right hle (Nat.two_pow_pos _)
  have htop : r * 2 ^ 149 < top32 := by
    refine Nat.lt_of_le_of_lt (Nat.mul_le_mul_right _ hr31) ?_
    unfold top32
    rw [← Nat.pow_add]; exact Nat.pow_lt_pow_right (by omega) (by omega)
  have hnum : num32 (castToFloat v) = (if v.toInt < 0 then -(r : Int) else r) * 2 ^ 149 := by
    unfold castToFloat intToFloat
    rw [num32_mkFloat, hr, Nat.min_eq_left (Nat.le_of_lt htop), two_pow_cast]
    simp only [decide_eq_true_eq]
    split
    · rw [Int.neg_mul, ← Int.natCast_mul]
    · rw [← Int.natCast_mul]
  have hfin : expo32 (castToFloat v) ≠ 255 := by
    refine finite_of_mag32 ?_
    rw [← natAbs_num32, hnum, Int.natAbs_mul, two_pow_cast, Int.natAbs_natCast]
    have : (if v.toInt < 0 then -(r : Int) else r).natAbs = r := by split <;> omega
    rw [this]; exact htop
  have hcast : (floatCastToInt (castToFloat v)).toInt = if v.toInt < 0 then -(r : Int) else min r (2 ^ 31 - 1) := by
    unfold floatCastToInt floatToInt
    rw [decode32_eq, if_neg hfin, hnum, toIntegral_fin,
      Int.mul_tdiv_cancel _ (by rw [two_pow_cast]; exact_mod_cast Nat.pos_iff_ne_zero.1 (Nat.two_pow_pos 149))]
    unfold ConvertSpec.clamp
    rw [BitVec.toInt_ofInt]
    split
    · rw [Int.bmod_eq_of_le] <;> omega
    · rw [Int.bmod_eq_of_le] <;> omega
  rw [← BitVec.toInt_inj, hcast]
  constructor
  · intro he
    by_cases hc : r = v.toInt.natAbs
    · obtain ⟨M, j, hM, e⟩ := hrep
      exact .inl ⟨M, j, hM, by rw [← hc, e]⟩
    · right
      split at he <;> omega
  · rintro (⟨m, k, hm, e⟩ | e)
    · have hx : roundNat 24 (v.toInt.natAbs * 2 ^ 149) = v.toInt.natAbs * 2 ^ 149 := by
        refine roundNat_rep (by omega) ⟨m, k + 149, hm, ?_⟩
        rw [e, Nat.mul_assoc, ← Nat.pow_add]
      have : r = v.toInt.natAbs := by
        rw [hr] at hx
        exact Nat.eq_of_mul_eq_mul_right (Nat.two_pow_pos 149) hx
      split <;> omega
    · have hv : v = 0x7fffffff#32 := by rw [← BitVec.toInt_inj, e]; decide
      have hmax : (floatCastToInt (castToFloat v)).toInt = v.toInt := by rw [hv]; decide +kernel
      rw [← hcast]; exact hmax

/-- The ints that are multiples of a power of two large enough survive, `MAX_VALUE` does and its neighbour does not. -/
example : (∃ m k : Nat, m < 2 ^ 24 ∧ (1234567936#32).toInt.natAbs = m * 2 ^ k) ∧
    ¬ floatCastToInt (castToFloat 2147483646#32) = 2147483646#32 :=
  ⟨⟨9645062, 7, by omega, by decide⟩, by decide +kernel⟩

/-- C79: converting a `Byte`, `Short`, `Integer` or `Long` to a smaller integer type keeps the value modulo
2^8, 2^16, 2^32 or 2^64, whatever the value. -/
theorem C79_integers_wrap (x : Num) (hx : (∃ v, x = .byte v) ∨ (∃ v, x = .short v) ∨ (∃ v, x = .int v) ∨ ∃ v, x = .long v)
    (W : Int) (hv : value x = some (W * 2 ^ 1074)) :
    byteConvert (.num x) = .ok (BitVec.ofInt 8 W) ∧ shortConvert (.num x) = .ok (BitVec.ofInt 16 W) ∧
    intConvert (.num x) = .ok (BitVec.ofInt 32 W) ∧ longConvert (.num x) = .ok (BitVec.ofInt 64 W) ∧
    charConvert (.num x) = .ok (BitVec.ofInt 16 W) := by
  rcases hx with ⟨v, rfl⟩ | ⟨v, rfl⟩ | ⟨v, rfl⟩ | ⟨v, rfl⟩
  · cases int_integral hv
    refine ⟨congrArg _ (BitVec.ofInt_toInt ..).symm, rfl, rfl, rfl, congrArg Except.ok ?_⟩
    show (BitVec.ofInt 32 v.toInt).setWidth 16 = _
    have h1 := BitVec.le_toInt (x := v)
    have h2 := BitVec.toInt_lt (x := v)
    exact ofInt_setWidth (by omega) (by omega) (by omega)
  · cases int_integral hv
    refine ⟨congrArg _ (setWidth_toInt _ (by omega)), congrArg _ (BitVec.ofInt_toInt ..).symm, rfl, rfl, congrArg Except.ok ?_⟩
    show (BitVec.ofInt 32 v.toInt).setWidth 16 = _
    have h1 := BitVec.le_toInt (x := v)
    have h2 := BitVec.toInt_lt (x := v)
    exact ofInt_setWidth (by omega) (by omega) (by omega)
  · cases int_integral hv
    exact ⟨congrArg _ (setWidth_toInt _ (by omega)), congrArg _ (setWidth_toInt _ (by omega)),
      congrArg _ (BitVec.ofInt_toInt ..).symm, rfl, congrArg _ (setWidth_toInt _ (by omega))⟩
  · cases int_integral hv
    refine ⟨congrArg _ (setWidth_toInt _ (by omega)), congrArg _ (setWidth_toInt _ (by omega)),
      congrArg _ (setWidth_toInt _ (by omega)), congrArg _ (BitVec.ofInt_toInt ..).symm, congrArg Except.ok ?_⟩
    show (v.setWidth 32).setWidth 16 = _
    rw [BitVec.setWidth_setWidth_of_le _ (by omega)]
    exact setWidth_toInt _ (by omega)

example : value (.long 4294967297#64) = some (4294967297 * 2 ^ 1074) ∧
    charConvert (.num (.long 4294967297#64)) = .ok 1#16 := by decide +kernel

end Verif

import Verif.Model.Pack
/-! # Properties C13, C14, C21: packing and bit flags -/
namespace Verif
open Pack Flags

theorem mask_lsb (w k i : Nat) (hk : k ≤ w) :
    (BitVec.ofNat w (2 ^ k - 1)).getLsbD i = decide (i < k) := by
  rw [BitVec.getLsbD_ofNat, Nat.testBit_two_pow_sub_one]
  by_cases h : i < k
  · simp [h]; omega
  · simp [h]

theorem packToLong_lsb (hi lo : BitVec 32) (i : Nat) :
    (packToLong hi lo).getLsbD i =
      if i < 32 then lo.getLsbD i else hi.getLsbD (i - 32) := by
  have hm : ∀ i, (0x00000000FFFFFFFF#64).getLsbD i = decide (i < 32) :=
    fun i => mask_lsb 64 32 i (by decide)
  simp only [packToLong, BitVec.getLsbD_or, BitVec.getLsbD_and, BitVec.getLsbD_shiftLeft, hm,
    BitVec.getLsbD_signExtend]
  by_cases h : i < 32
  · have : i < 64 := by omega
    simp [h, this]
  · by_cases h2 : i < 64
    · have : i - 32 < 32 := by omega
      have : i - 32 < 64 := by omega
      simp [*]
    · have : hi.getLsbD (i - 32) = false := BitVec.getLsbD_of_ge _ _ (by omega)
      simp [h, h2, this]

theorem packToInt_lsb (hi lo : BitVec 16) (i : Nat) :
    (packToInt hi lo).getLsbD i =
      if i < 16 then lo.getLsbD i else hi.getLsbD (i - 16) := by
  have hm : ∀ i, (0x0000FFFF#64).getLsbD i = decide (i < 16) :=
    fun i => mask_lsb 64 16 i (by decide)
  simp only [packToInt, BitVec.getLsbD_setWidth, BitVec.getLsbD_or, BitVec.getLsbD_and,
    BitVec.getLsbD_shiftLeft, hm, BitVec.getLsbD_signExtend]
  by_cases h : i < 16
  · have : i < 64 := by omega
    have : i < 32 := by omega
    simp [*]
  · by_cases h2 : i < 32
    · have : i - 16 < 16 := by omega
      have : i - 16 < 32 := by omega
      have : i < 64 := by omega
      simp [*]
    · have : hi.getLsbD (i - 16) = false := BitVec.getLsbD_of_ge _ _ (by omega)
      simp [h, h2, this]

theorem packToShort_lsb (hi lo : BitVec 8) (i : Nat) :
    (packToShort hi lo).getLsbD i =
      if i < 8 then lo.getLsbD i else hi.getLsbD (i - 8) := by
  have hm : ∀ i, (0x00FF#64).getLsbD i = decide (i < 8) :=
    fun i => mask_lsb 64 8 i (by decide)
  simp only [packToShort, BitVec.getLsbD_setWidth, BitVec.getLsbD_or, BitVec.getLsbD_and,
    BitVec.getLsbD_shiftLeft, hm, BitVec.getLsbD_signExtend]
  by_cases h : i < 8
  · have : i < 64 := by omega
    have : i < 16 := by omega
    have : i < 32 := by omega
    simp [*]
  · by_cases h2 : i < 16
    · have : i - 8 < 8 := by omega
      have : i - 8 < 16 := by omega
      have : i - 8 < 32 := by omega
      have : i < 32 := by omega
      have : i < 64 := by omega
      simp [*]
    · have : hi.getLsbD (i - 8) = false := BitVec.getLsbD_of_ge _ _ (by omega)
      simp [h, h2, this]

theorem unpackHiInt_lsb (v : BitVec 64) (i : Nat) :
    (unpackHiInt v).getLsbD i = v.getLsbD (32 + i) := by
  simp only [unpackHiInt, BitVec.getLsbD_setWidth, BitVec.getLsbD_ushiftRight]
  by_cases h : i < 32
  · simp [h]
  · simp [h, BitVec.getLsbD_of_ge v (32 + i) (by omega)]

theorem unpackHiShort_lsb (v : BitVec 32) (i : Nat) :
    (unpackHiShort v).getLsbD i = v.getLsbD (16 + i) := by
  simp only [unpackHiShort, BitVec.getLsbD_setWidth, BitVec.getLsbD_ushiftRight]
  by_cases h : i < 16
  · simp [h]
  · simp [h, BitVec.getLsbD_of_ge v (16 + i) (by omega)]

theorem unpackHiByte_lsb (v : BitVec 16) (i : Nat) :
    (unpackHiByte v).getLsbD i = v.getLsbD (8 + i) := by
  simp only [unpackHiByte, BitVec.getLsbD_setWidth, BitVec.getLsbD_ushiftRight,
    BitVec.getLsbD_signExtend]
  by_cases h : i < 8
  · have : 8 + i < 16 := by omega
    have : 8 + i < 32 := by omega
    simp [*]
  · simp [h, BitVec.getLsbD_of_ge v (8 + i) (by omega)]

/-- C13: the packed halves are recovered. -/
theorem C13_unpack_pack (hi lo : BitVec 32) :
    unpackHiInt (packToLong hi lo) = hi ∧ unpackLoInt (packToLong hi lo) = lo := by
  constructor
  · apply BitVec.eq_of_getLsbD_eq
    intro i hi'
    rw [unpackHiInt_lsb, packToLong_lsb]; simp
  · apply BitVec.eq_of_getLsbD_eq
    intro i hi'
    simp [unpackLoInt, packToLong_lsb, hi']

/-- C13: packing the unpacked halves gives the original long. -/
theorem C13_pack_unpack (v : BitVec 64) :
    packToLong (unpackHiInt v) (unpackLoInt v) = v := by
  apply BitVec.eq_of_getLsbD_eq
  intro i hi'
  rw [packToLong_lsb, unpackHiInt_lsb]
  split
  · simp [unpackLoInt, *]
  · congr 1; omega

/-- C13: distinct pairs pack to distinct longs. -/
theorem C13_injective (hi lo hi' lo' : BitVec 32)
    (h : packToLong hi lo = packToLong hi' lo') : hi = hi' ∧ lo = lo' := by
  have h1 := C13_unpack_pack hi lo
  have h2 := C13_unpack_pack hi' lo'
  rw [h] at h1
  exact ⟨h1.1.symm.trans h2.1, h1.2.symm.trans h2.2⟩

/-- C13: as numbers, the packed long is `hi * 2^32 + (lo as unsigned)`. -/
theorem C13_value (hi lo : BitVec 32) :
    (packToLong hi lo).toInt = hi.toInt * 2 ^ 32 + lo.toNat := by
  have e : packToLong hi lo = hi ++ lo := by
    apply BitVec.eq_of_getLsbD_eq
    intro i hi'
    rw [packToLong_lsb, BitVec.getLsbD_append]
  rw [e, BitVec.toInt_append (x := hi) (y := lo)]
  simp; omega

example : packToLong (-1#32) (-2#32) = (-2#64) ∧ unpackHiInt (-2#64) = -1#32 ∧
    unpackLoInt (-2#64) = -2#32 := by decide

/-- C14 for two shorts in an int, both directions. -/
theorem C14_short_bijection (hi lo : BitVec 16) (v : BitVec 32) :
    unpackHiShort (packToInt hi lo) = hi ∧ unpackLoShort (packToInt hi lo) = lo ∧
    packToInt (unpackHiShort v) (unpackLoShort v) = v := by
  refine ⟨?_, ?_, ?_⟩ <;> apply BitVec.eq_of_getLsbD_eq <;> intro i hi'
  · rw [unpackHiShort_lsb, packToInt_lsb]; simp
  · simp [unpackLoShort, packToInt_lsb, hi']
  · rw [packToInt_lsb, unpackHiShort_lsb]
    split
    · simp [unpackLoShort, *]
    · congr 1; omega

/-- C14 for two bytes in a short, both directions. -/
theorem C14_byte_bijection (hi lo : BitVec 8) (v : BitVec 16) :
    unpackHiByte (packToShort hi lo) = hi ∧ unpackLoByte (packToShort hi lo) = lo ∧
    packToShort (unpackHiByte v) (unpackLoByte v) = v := by
  refine ⟨?_, ?_, ?_⟩ <;> apply BitVec.eq_of_getLsbD_eq <;> intro i hi'
  · rw [unpackHiByte_lsb, packToShort_lsb]; simp
  · simp [unpackLoByte, packToShort_lsb, hi']
  · rw [packToShort_lsb, unpackHiByte_lsb]
    split
    · simp [unpackLoByte, *]
    · congr 1; omega

/-- C14 for four bytes in an int: each byte is recovered through the short halves, and repacking
the four bytes of an int gives it back. -/
theorem C14_four_bytes (b1 b2 b3 b4 : BitVec 8) (v : BitVec 32) :
    unpackHiByte (unpackHiShort (packBytesToInt b1 b2 b3 b4)) = b1 ∧
    unpackLoByte (unpackHiShort (packBytesToInt b1 b2 b3 b4)) = b2 ∧
    unpackHiByte (unpackLoShort (packBytesToInt b1 b2 b3 b4)) = b3 ∧
    unpackLoByte (unpackLoShort (packBytesToInt b1 b2 b3 b4)) = b4 ∧
    packBytesToInt (unpackHiByte (unpackHiShort v)) (unpackLoByte (unpackHiShort v))
      (unpackHiByte (unpackLoShort v)) (unpackLoByte (unpackLoShort v)) = v := by
  have hs := C14_short_bijection (packToShort b1 b2) (packToShort b3 b4) v
  have hb := C14_byte_bijection b1 b2
  have hb' := C14_byte_bijection b3 b4
  refine ⟨?_, ?_, ?_, ?_, ?_⟩
  · rw [packBytesToInt, hs.1]; exact (hb 0).1
  · rw [packBytesToInt, hs.1]; exact (hb 0).2.1
  · rw [packBytesToInt, hs.2.1]; exact (hb' 0).1
  · rw [packBytesToInt, hs.2.1]; exact (hb' 0).2.1
  · rw [packBytesToInt, (C14_byte_bijection 0 0 _).2.2, (C14_byte_bijection 0 0 _).2.2]
    exact hs.2.2

example : packBytesToInt 0xFF#8 0x01#8 0x80#8 0x7F#8 = 0xFF01807F#32 := by decide

/-- C21: the effect of enabling and disabling flags on every single bit, for all four integer
types (`int` and `long` without, `byte` and `short` with the promotion to `int`). -/
theorem C21_bits {w : Nat} (flag bits : BitVec w) (i : Nat) :
    (enableBits flag bits).getLsbD i = (flag.getLsbD i || bits.getLsbD i) ∧
    (disableBits flag bits).getLsbD i = (flag.getLsbD i && !bits.getLsbD i) := by
  constructor
  · simp [enableBits]
  · simp only [disableBits, BitVec.getLsbD_and, BitVec.getLsbD_not]
    by_cases h : i < w
    · simp [h]
    · simp [BitVec.getLsbD_of_ge flag i (by omega)]

/-- C21 for `byte` and `short`: the promoted and narrowed computation is the plain one. -/
theorem C21_narrow {w : Nat} (hw : w ≤ 32) (flag bits : BitVec w) :
    enableBitsNarrow flag bits = enableBits flag bits ∧
    disableBitsNarrow flag bits = disableBits flag bits := by
  constructor <;> apply BitVec.eq_of_getLsbD_eq <;> intro i hi
  · have : i < 32 := by omega
    simp [enableBitsNarrow, enableBits, BitVec.getElem_signExtend, *]
  · have : i < 32 := by omega
    simp [disableBitsNarrow, disableBits, BitVec.getElem_signExtend, *]

/-- C21: all enabled bits test as set afterwards; disabled ones as clear; disabling what was
enabled on top of a disjoint flag restores the flag; both are idempotent. -/
theorem C21_laws {w : Nat} (flag bits : BitVec w) :
    enableBits flag bits &&& bits = bits ∧ disableBits flag bits &&& bits = 0#w ∧
    (flag &&& bits = 0#w → disableBits (enableBits flag bits) bits = flag) ∧
    enableBits (enableBits flag bits) bits = enableBits flag bits ∧
    disableBits (disableBits flag bits) bits = disableBits flag bits := by
  refine ⟨?_, ?_, ?_, ?_, ?_⟩
  · apply BitVec.eq_of_getLsbD_eq; intro i hi
    simp only [(C21_bits flag bits i).1, BitVec.getLsbD_and]
    cases flag.getLsbD i <;> cases bits.getLsbD i <;> rfl
  · apply BitVec.eq_of_getLsbD_eq; intro i hi
    simp only [BitVec.getLsbD_and, (C21_bits flag bits i).2, BitVec.getLsbD_zero]
    cases flag.getLsbD i <;> cases bits.getLsbD i <;> rfl
  · intro h
    apply BitVec.eq_of_getLsbD_eq; intro i hi
    have hb : (flag.getLsbD i && bits.getLsbD i) = false := by
      rw [← BitVec.getLsbD_and, h, BitVec.getLsbD_zero]
    rw [(C21_bits _ bits i).2, (C21_bits flag bits i).1]
    revert hb
    cases flag.getLsbD i <;> cases bits.getLsbD i <;> simp
  · apply BitVec.eq_of_getLsbD_eq; intro i hi
    simp only [(C21_bits _ bits i).1]
    cases flag.getLsbD i <;> cases bits.getLsbD i <;> rfl
  · apply BitVec.eq_of_getLsbD_eq; intro i hi
    simp only [(C21_bits _ bits i).2]
    cases flag.getLsbD i <;> cases bits.getLsbD i <;> rfl

example : (0x0F#8 &&& 0xF0#8 = 0#8) ∧ enableBitsNarrow 0x0F#8 0x80#8 = 0x8F#8 ∧
    disableBitsNarrow 0x8F#8 0x80#8 = 0x0F#8 := by decide
end Verif

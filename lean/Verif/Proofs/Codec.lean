import Verif.Spec.Codec
namespace Verif.Codec
open Verif

theorem wrB_ok {i : Int} {v : BitVec 8} {a : Bytes} (h0 : 0 ≤ i) (h1 : i < a.len)
    (hl : (a.len : Int) ≤ MAX_INT) : wrB i v a = .ok () (a.set i v) := by
  unfold wrB
  rw [i32_of_range (by unfold MAX_INT at hl; omega)]
  exact wr_ok _ _ ⟨h0, h1⟩

theorem rdB_ok {i : Int} {a : Bytes} (h0 : 0 ≤ i) (h1 : i < a.len)
    (hl : (a.len : Int) ≤ MAX_INT) : rdB i a = .ok (a.get i) a := by
  unfold rdB
  rw [i32_of_range (by unfold MAX_INT at hl; omega)]
  exact rd_ok id (s := a) ⟨h0, h1⟩

theorem byteOf_lsb (x j i : Nat) :
    (byteOf x j).getLsbD i = (decide (i < 8) && x.testBit (8 * j + i)) := by
  unfold byteOf
  rw [BitVec.getLsbD_ofNat, Nat.testBit_div_two_pow, Nat.add_comm]

theorem byte_sshift {w : Nat} (v : BitVec w) (k j : Nat) (hk : k = 8 * j) (h : k + 8 ≤ w) :
    (v.sshiftRight k).setWidth 8 = byteOf v.toNat j := by
  subst hk
  apply BitVec.eq_of_getLsbD_eq
  intro i hi
  rw [byteOf_lsb, BitVec.getLsbD_setWidth, BitVec.getLsbD_sshiftRight]
  have h1 : ¬ w ≤ i := by omega
  have h2 : 8 * j + i < w := by omega
  simp only [hi, h1, h2, decide_true, decide_false, Bool.true_and, Bool.not_false, if_true]
  rw [← BitVec.testBit_toNat]

theorem byte_low {w : Nat} (v : BitVec w) (h : 8 ≤ w) :
    (v &&& BitVec.ofNat w 255).setWidth 8 = byteOf v.toNat 0 := by
  apply BitVec.eq_of_getLsbD_eq
  intro i hi
  rw [byteOf_lsb, BitVec.getLsbD_setWidth, BitVec.getLsbD_and, BitVec.getLsbD_ofNat]
  have : Nat.testBit 255 i = true := by
    rw [show (255 : Nat) = 2 ^ 8 - 1 from rfl, Nat.testBit_two_pow_sub_one]; simp [hi]
  have h2 : i < w := by omega
  rw [BitVec.testBit_toNat]
  simp [hi, this, h2]

theorem signExtend_byte (v : BitVec 16) (j : Nat) (hj : j < 2) :
    byteOf (v.signExtend 32).toNat j = byteOf v.toNat j := by
  apply BitVec.eq_of_getLsbD_eq
  intro i hi
  rw [byteOf_lsb, byteOf_lsb, BitVec.testBit_toNat, BitVec.testBit_toNat,
    BitVec.getLsbD_signExtend]
  have h1 : 8 * j + i < 16 := by omega
  have h2 : 8 * j + i < 32 := by omega
  simp [h1, h2]

theorem setWidth_byte (v : BitVec 16) (j : Nat) :
    byteOf (v.setWidth 32).toNat j = byteOf v.toNat j := by
  rw [BitVec.toNat_setWidth, Nat.mod_eq_of_lt (by have := v.isLt; omega)]

theorem ub32_lsb (b : BitVec 8) (i : Nat) : (ub32 b).getLsbD i = b.getLsbD i := by
  unfold ub32
  rw [BitVec.getLsbD_and, BitVec.getLsbD_signExtend, BitVec.getLsbD_ofNat,
    show (255 : Nat) = 2 ^ 8 - 1 from rfl, Nat.testBit_two_pow_sub_one]
  by_cases h : i < 8
  · have : i < 32 := by omega
    simp [h, this]
  · simp [h, BitVec.getLsbD_of_ge b i (by omega)]

theorem ub64_lsb (b : BitVec 8) (i : Nat) : (ub64 b).getLsbD i = b.getLsbD i := by
  unfold ub64
  rw [BitVec.getLsbD_and, BitVec.getLsbD_signExtend, BitVec.getLsbD_ofNat,
    show (255 : Nat) = 2 ^ 8 - 1 from rfl, Nat.testBit_two_pow_sub_one]
  by_cases h : i < 8
  · have : i < 64 := by omega
    simp [h, this]
  · simp [h, BitVec.getLsbD_of_ge b i (by omega)]

theorem term32 (x j i : Nat) (hi : i < 32) :
    (ub32 (byteOf x j) <<< (8 * j)).getLsbD i =
      (decide (8 * j ≤ i ∧ i < 8 * j + 8) && x.testBit i) := by
  rw [BitVec.getLsbD_shiftLeft, ub32_lsb, byteOf_lsb]
  by_cases h : i < 8 * j
  · have : ¬ (8 * j ≤ i) := by omega
    simp [h, this]
  · have e : 8 * j + (i - 8 * j) = i := by omega
    have e2 : (i - 8 * j < 8) = (8 * j ≤ i ∧ i < 8 * j + 8) := by
      apply propext; omega
    simp only [hi, h, e, e2, decide_true, decide_false, Bool.not_false, Bool.true_and]

theorem term64 (x j i : Nat) (hi : i < 64) :
    (ub64 (byteOf x j) <<< (8 * j)).getLsbD i =
      (decide (8 * j ≤ i ∧ i < 8 * j + 8) && x.testBit i) := by
  rw [BitVec.getLsbD_shiftLeft, ub64_lsb, byteOf_lsb]
  by_cases h : i < 8 * j
  · have : ¬ (8 * j ≤ i) := by omega
    simp [h, this]
  · have e : 8 * j + (i - 8 * j) = i := by omega
    have e2 : (i - 8 * j < 8) = (8 * j ≤ i ∧ i < 8 * j + 8) := by
      apply propext; omega
    simp only [hi, h, e, e2, decide_true, decide_false, Bool.not_false, Bool.true_and]

/-- Two bytes put back together (in an `int`, narrowed to 16 bits). -/
theorem join2 (v : BitVec 16) :
    (((ub32 (byteOf v.toNat 1)) <<< 8) ||| ub32 (byteOf v.toNat 0)).setWidth 16 = v := by
  apply BitVec.eq_of_getLsbD_eq
  intro i hi
  have h32 : i < 32 := by omega
  have t1 := term32 v.toNat 1 i h32
  rw [BitVec.getLsbD_setWidth, BitVec.getLsbD_or, t1, ub32_lsb, byteOf_lsb, BitVec.testBit_toNat]
  simp only [Nat.mul_zero, Nat.zero_add, BitVec.testBit_toNat, hi, decide_true, Bool.true_and]
  cases v.getLsbD i <;> simp
  omega

theorem join4 (v : BitVec 32) :
    (ub32 (byteOf v.toNat 3) <<< 24) ||| (ub32 (byteOf v.toNat 2) <<< 16) |||
      (ub32 (byteOf v.toNat 1) <<< 8) ||| ub32 (byteOf v.toNat 0) = v := by
  apply BitVec.eq_of_getLsbD_eq
  intro i hi
  have t1 := term32 v.toNat 1 i hi
  have t2 := term32 v.toNat 2 i hi
  have t3 := term32 v.toNat 3 i hi
  rw [BitVec.getLsbD_or, BitVec.getLsbD_or, BitVec.getLsbD_or, t1, t2, t3, ub32_lsb, byteOf_lsb]
  simp only [Nat.mul_zero, Nat.zero_add, BitVec.testBit_toNat]
  cases v.getLsbD i <;> simp
  omega

theorem join8 (v : BitVec 64) :
    (ub64 (byteOf v.toNat 7) <<< 56) ||| (ub64 (byteOf v.toNat 6) <<< 48) |||
      (ub64 (byteOf v.toNat 5) <<< 40) ||| (ub64 (byteOf v.toNat 4) <<< 32) |||
      (ub64 (byteOf v.toNat 3) <<< 24) ||| (ub64 (byteOf v.toNat 2) <<< 16) |||
      (ub64 (byteOf v.toNat 1) <<< 8) ||| ub64 (byteOf v.toNat 0) = v := by
  apply BitVec.eq_of_getLsbD_eq
  intro i hi
  have t1 := term64 v.toNat 1 i hi
  have t2 := term64 v.toNat 2 i hi
  have t3 := term64 v.toNat 3 i hi
  have t4 := term64 v.toNat 4 i hi
  have t5 := term64 v.toNat 5 i hi
  have t6 := term64 v.toNat 6 i hi
  have t7 := term64 v.toNat 7 i hi
  simp only [BitVec.getLsbD_or]
  rw [t1, t2, t3, t4, t5, t6, t7, ub64_lsb, byteOf_lsb]
  simp only [Nat.mul_zero, Nat.zero_add, BitVec.testBit_toNat]
  cases v.getLsbD i <;> simp
  omega

theorem byteOf_full (v : BitVec 8) : byteOf v.toNat 0 = v := by
  unfold byteOf
  rw [Nat.mul_zero, Nat.pow_zero, Nat.div_one, BitVec.ofNat_toNat, BitVec.setWidth_eq]

theorem bool_byte (b : Bool) : (if b then 1#8 else 0#8) = byteOf (if b then 1 else 0) 0 := by
  cases b <;> rfl

/-- Run one in-range byte write. -/
macro "wr_step" hl:term : tactic => `(tactic|
  rw [JM.bind_ok (wrB_ok (by omega) (by (try simp only [Arr.len_set]); omega)
    (by (try simp only [Arr.len_set]); exact $hl))])

/-- Resolve reads of freshly written cells. -/
macro "cells" : tactic => `(tactic|
  (simp only [Arr.get_set]
   repeat (first | rw [if_pos (by omega)] | rw [if_neg (by omega)])))

section write
variable {a : Bytes} {pos : Int}

theorem write_spec (big : Bool) (v : Val) (h0 : 0 ≤ pos) (h1 : pos + v.ty.width ≤ a.len)
    (hl : (a.len : Int) ≤ MAX_INT) :
    ∃ a', write big pos v a = .ok (pos + v.ty.width) a' ∧ Stored big v pos a a' := by
  have hm : (a.len : Int) ≤ 2147483647 := hl
  cases v with
  | byte v =>
    simp only [Val.ty, Ty.width] at h1
    refine ⟨a.set pos v, ?_, rfl, ?_, ?_⟩
    · cases big <;> simp only [write, byteWriteLE, byteWriteBE, Val.ty, Ty.width] <;>
      · try simp only [if_true, if_false, Bool.false_eq_true]
        wr_step hl
        rw [i32_of_range (by omega)]; rfl
    · intro j hj
      simp only [Val.ty, Ty.width] at hj
      obtain rfl : j = 0 := by omega
      cells
      cases big <;> simp [layout, Val.bits, Val.ty, Ty.width, byteOf_full]
    · intro i hi
      simp only [Val.ty, Ty.width] at hi
      cells
  | bool v =>
    simp only [Val.ty, Ty.width] at h1
    refine ⟨a.set pos (if v then 1#8 else 0#8), ?_, rfl, ?_, ?_⟩
    · cases big <;> simp only [write, boolWriteLE, boolWriteBE, Val.ty, Ty.width] <;>
      · try simp only [if_true, if_false, Bool.false_eq_true]
        wr_step hl
        rw [i32_of_range (by omega)]; rfl
    · intro j hj
      simp only [Val.ty, Ty.width] at hj
      obtain rfl : j = 0 := by omega
      cells
      cases big <;> cases v <;> rfl
    · intro i hi
      simp only [Val.ty, Ty.width] at hi
      cells
  | short v =>
    simp only [Val.ty, Ty.width] at h1
    have e1 : ((v.signExtend 32).sshiftRight 8).setWidth 8 = byteOf v.toNat 1 := by
      rw [byte_sshift _ 8 1 (by omega) (by omega), signExtend_byte _ _ (by omega)]
    have e0 : (v.signExtend 32 &&& 0xff#32).setWidth 8 = byteOf v.toNat 0 := by
      rw [byte_low _ (by omega), signExtend_byte _ _ (by omega)]
    cases big with
    | false =>
      simp only [write, shortWriteLE, Val.ty, Ty.width, e0, e1]
      try simp only [if_false, Bool.false_eq_true]
      wr_step hl; wr_step hl
      rw [i32_of_range (by omega)]
      refine ⟨_, rfl, rfl, ?_, ?_⟩
      · intro j hj
        simp only [Val.ty, Ty.width] at hj
        obtain rfl | rfl : j = 0 ∨ j = 1 := by omega
        all_goals cells; simp [layout, Val.bits]
      · intro i hi
        simp only [Val.ty, Ty.width] at hi
        cells
    | true =>
      simp only [write, shortWriteBE, Val.ty, Ty.width, e0, e1]
      try simp only [if_true]
      wr_step hl; wr_step hl
      rw [i32_of_range (by omega)]
      refine ⟨_, rfl, rfl, ?_, ?_⟩
      · intro j hj
        simp only [Val.ty, Ty.width] at hj
        obtain rfl | rfl : j = 0 ∨ j = 1 := by omega
        all_goals cells; simp [layout, Val.bits, Val.ty, Ty.width]
      · intro i hi
        simp only [Val.ty, Ty.width] at hi
        cells
  | char v =>
    simp only [Val.ty, Ty.width] at h1
    have e1 : ((v.setWidth 32).sshiftRight 8).setWidth 8 = byteOf v.toNat 1 := by
      rw [byte_sshift _ 8 1 (by omega) (by omega), setWidth_byte]
    have e0 : (v.setWidth 32 &&& 0xff#32).setWidth 8 = byteOf v.toNat 0 := by
      rw [byte_low _ (by omega), setWidth_byte]
    cases big with
    | false =>
      simp only [write, charWriteLE, Val.ty, Ty.width, e0, e1]
      try simp only [if_false, Bool.false_eq_true]
      wr_step hl; wr_step hl
      rw [i32_of_range (by omega)]
      refine ⟨_, rfl, rfl, ?_, ?_⟩
      · intro j hj
        simp only [Val.ty, Ty.width] at hj
        obtain rfl | rfl : j = 0 ∨ j = 1 := by omega
        all_goals cells; simp [layout, Val.bits]
      · intro i hi
        simp only [Val.ty, Ty.width] at hi
        cells
    | true =>
      simp only [write, charWriteBE, Val.ty, Ty.width, e0, e1]
      try simp only [if_true]
      wr_step hl; wr_step hl
      rw [i32_of_range (by omega)]
      refine ⟨_, rfl, rfl, ?_, ?_⟩
      · intro j hj
        simp only [Val.ty, Ty.width] at hj
        obtain rfl | rfl : j = 0 ∨ j = 1 := by omega
        all_goals cells; simp [layout, Val.bits, Val.ty, Ty.width]
      · intro i hi
        simp only [Val.ty, Ty.width] at hi
        cells
  | int v | float v =>
    simp only [Val.ty, Ty.width] at h1
    have e3 : (v.sshiftRight 24).setWidth 8 = byteOf v.toNat 3 := byte_sshift _ 24 3 (by omega) (by omega)
    have e2 : (v.sshiftRight 16).setWidth 8 = byteOf v.toNat 2 := byte_sshift _ 16 2 (by omega) (by omega)
    have e1 : (v.sshiftRight 8).setWidth 8 = byteOf v.toNat 1 := byte_sshift _ 8 1 (by omega) (by omega)
    have e0 : (v &&& 0xff#32).setWidth 8 = byteOf v.toNat 0 := byte_low _ (by omega)
    cases big with
    | false =>
      simp only [write, floatWriteLE, intWriteLE, Val.ty, Ty.width, e0, e1, e2, e3]
      try simp only [if_false, Bool.false_eq_true]
      wr_step hl; wr_step hl; wr_step hl; wr_step hl
      rw [i32_of_range (by omega)]
      refine ⟨_, rfl, rfl, ?_, ?_⟩
      · intro j hj
        simp only [Val.ty, Ty.width] at hj
        obtain rfl | rfl | rfl | rfl : j = 0 ∨ j = 1 ∨ j = 2 ∨ j = 3 := by omega
        all_goals cells; simp [layout, Val.bits]
      · intro i hi
        simp only [Val.ty, Ty.width] at hi
        cells
    | true =>
      simp only [write, floatWriteBE, intWriteBE, Val.ty, Ty.width, e0, e1, e2, e3]
      try simp only [if_true]
      wr_step hl; wr_step hl; wr_step hl; wr_step hl
      rw [i32_of_range (by omega)]
      refine ⟨_, rfl, rfl, ?_, ?_⟩
      · intro j hj
        simp only [Val.ty, Ty.width] at hj
        obtain rfl | rfl | rfl | rfl : j = 0 ∨ j = 1 ∨ j = 2 ∨ j = 3 := by omega
        all_goals cells; simp [layout, Val.bits, Val.ty, Ty.width]
      · intro i hi
        simp only [Val.ty, Ty.width] at hi
        cells
  | long v | double v =>
    simp only [Val.ty, Ty.width] at h1
    have e7 : (v.sshiftRight 56).setWidth 8 = byteOf v.toNat 7 := byte_sshift _ 56 7 (by omega) (by omega)
    have e6 : (v.sshiftRight 48).setWidth 8 = byteOf v.toNat 6 := byte_sshift _ 48 6 (by omega) (by omega)
    have e5 : (v.sshiftRight 40).setWidth 8 = byteOf v.toNat 5 := byte_sshift _ 40 5 (by omega) (by omega)
    have e4 : (v.sshiftRight 32).setWidth 8 = byteOf v.toNat 4 := byte_sshift _ 32 4 (by omega) (by omega)
    have e3 : (v.sshiftRight 24).setWidth 8 = byteOf v.toNat 3 := byte_sshift _ 24 3 (by omega) (by omega)
    have e2 : (v.sshiftRight 16).setWidth 8 = byteOf v.toNat 2 := byte_sshift _ 16 2 (by omega) (by omega)
    have e1 : (v.sshiftRight 8).setWidth 8 = byteOf v.toNat 1 := byte_sshift _ 8 1 (by omega) (by omega)
    have e0 : (v &&& 0xff#64).setWidth 8 = byteOf v.toNat 0 := byte_low _ (by omega)
    cases big with
    | false =>
      simp only [write, doubleWriteLE, longWriteLE, Val.ty, Ty.width, e0, e1, e2, e3, e4, e5, e6, e7]
      try simp only [if_false, Bool.false_eq_true]
      wr_step hl; wr_step hl; wr_step hl; wr_step hl; wr_step hl; wr_step hl; wr_step hl; wr_step hl
      rw [i32_of_range (by omega)]
      refine ⟨_, rfl, rfl, ?_, ?_⟩
      · intro j hj
        simp only [Val.ty, Ty.width] at hj
        obtain rfl | rfl | rfl | rfl | rfl | rfl | rfl | rfl :
          j = 0 ∨ j = 1 ∨ j = 2 ∨ j = 3 ∨ j = 4 ∨ j = 5 ∨ j = 6 ∨ j = 7 := by omega
        all_goals cells; simp [layout, Val.bits]
      · intro i hi
        simp only [Val.ty, Ty.width] at hi
        cells
    | true =>
      simp only [write, doubleWriteBE, longWriteBE, Val.ty, Ty.width, e0, e1, e2, e3, e4, e5, e6, e7]
      try simp only [if_true]
      wr_step hl; wr_step hl; wr_step hl; wr_step hl; wr_step hl; wr_step hl; wr_step hl; wr_step hl
      rw [i32_of_range (by omega)]
      refine ⟨_, rfl, rfl, ?_, ?_⟩
      · intro j hj
        simp only [Val.ty, Ty.width] at hj
        obtain rfl | rfl | rfl | rfl | rfl | rfl | rfl | rfl :
          j = 0 ∨ j = 1 ∨ j = 2 ∨ j = 3 ∨ j = 4 ∨ j = 5 ∨ j = 6 ∨ j = 7 := by omega
        all_goals cells; simp [layout, Val.bits, Val.ty, Ty.width]
      · intro i hi
        simp only [Val.ty, Ty.width] at hi
        cells

theorem read_spec (big : Bool) (v : Val) (h0 : 0 ≤ pos) (h1 : pos + v.ty.width ≤ a.len)
    (hl : (a.len : Int) ≤ MAX_INT)
    (hb : ∀ j : Nat, j < v.ty.width → a.get (pos + j) = layout big v j) :
    read big pos v.ty a = .ok v a := by
  cases v with
  | byte v =>
    have := hb 0 (by simp [Val.ty, Ty.width])
    simp only [Val.ty, Ty.width] at h1
    have e : a.get pos = v := by
      rw [← Int.add_zero pos]
      refine this.trans ?_
      cases big <;> simp [layout, Val.bits, Val.ty, Ty.width, byteOf_full]
    cases big <;> simp [read, Val.ty, byteReadLE, byteReadBE, rdB_ok h0 (by omega) hl, e]
  | bool v =>
    have := hb 0 (by simp [Val.ty, Ty.width])
    simp only [Val.ty, Ty.width] at h1
    have e : a.get pos = (if v then 1#8 else 0#8) := by
      rw [← Int.add_zero pos, bool_byte]
      refine this.trans ?_
      cases big <;> simp [layout, Val.bits, Val.ty, Ty.width]
    cases big <;> cases v <;>
      simp [read, Val.ty, boolReadLE, boolReadBE, JM.bind_apply, rdB_ok h0 (by omega) hl, e]
  | short v | char v =>
    have b0 := hb 0 (by simp [Val.ty, Ty.width])
    have b1 := hb 1 (by simp [Val.ty, Ty.width])
    simp only [Val.ty, Ty.width] at h1
    cases big <;>
    · simp only [layout, Val.bits, Val.ty, Ty.width] at b0 b1
      simp at b0 b1
      simp only [read, Val.ty, shortReadLE, shortReadBE, charReadLE, charReadBE, JM.bind_apply,
        JM.map_apply, if_true, if_false, Bool.false_eq_true,
        rdB_ok (i := pos) h0 (by omega) hl, rdB_ok (i := pos + 1) (by omega) (by omega) hl, b0, b1,
        join2, JM.pure_apply]
  | int v | float v =>
    have b0 := hb 0 (by simp [Val.ty, Ty.width])
    have b1 := hb 1 (by simp [Val.ty, Ty.width])
    have b2 := hb 2 (by simp [Val.ty, Ty.width])
    have b3 := hb 3 (by simp [Val.ty, Ty.width])
    simp only [Val.ty, Ty.width] at h1
    cases big <;>
    · simp only [layout, Val.bits, Val.ty, Ty.width] at b0 b1 b2 b3
      simp at b0 b1 b2 b3
      simp only [read, Val.ty, intReadLE, intReadBE, floatReadLE, floatReadBE, JM.bind_apply,
        JM.map_apply, if_true, if_false, Bool.false_eq_true,
        rdB_ok (i := pos) h0 (by omega) hl, rdB_ok (i := pos + 1) (by omega) (by omega) hl,
        rdB_ok (i := pos + 2) (by omega) (by omega) hl,
        rdB_ok (i := pos + 3) (by omega) (by omega) hl, b0, b1, b2, b3,
        join4, JM.pure_apply]
  | long v | double v =>
    have b0 := hb 0 (by simp [Val.ty, Ty.width])
    have b1 := hb 1 (by simp [Val.ty, Ty.width])
    have b2 := hb 2 (by simp [Val.ty, Ty.width])
    have b3 := hb 3 (by simp [Val.ty, Ty.width])
    have b4 := hb 4 (by simp [Val.ty, Ty.width])
    have b5 := hb 5 (by simp [Val.ty, Ty.width])
    have b6 := hb 6 (by simp [Val.ty, Ty.width])
    have b7 := hb 7 (by simp [Val.ty, Ty.width])
    simp only [Val.ty, Ty.width] at h1
    cases big <;>
    · simp only [layout, Val.bits, Val.ty, Ty.width] at b0 b1 b2 b3 b4 b5 b6 b7
      simp at b0 b1 b2 b3 b4 b5 b6 b7
      simp only [read, Val.ty, longReadLE, longReadBE, doubleReadLE, doubleReadBE, JM.bind_apply,
        JM.map_apply, if_true, if_false, Bool.false_eq_true,
        rdB_ok (i := pos) h0 (by omega) hl, rdB_ok (i := pos + 1) (by omega) (by omega) hl,
        rdB_ok (i := pos + 2) (by omega) (by omega) hl,
        rdB_ok (i := pos + 3) (by omega) (by omega) hl,
        rdB_ok (i := pos + 4) (by omega) (by omega) hl,
        rdB_ok (i := pos + 5) (by omega) (by omega) hl,
        rdB_ok (i := pos + 6) (by omega) (by omega) hl,
        rdB_ok (i := pos + 7) (by omega) (by omega) hl, b0, b1, b2, b3, b4, b5, b6, b7,
        join8, JM.pure_apply]
end write
end Verif.Codec

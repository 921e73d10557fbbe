import Verif.Model.Arrays
/-! Lemmas about `NumUtils`, `CapacityCalculator` and `KeyArray`. -/
namespace Verif

theorem shl32_one {x : Int} (h : -1073741824 ≤ x ∧ x < 1073741824) : shl32 x 1 = 2 * x := by
  have : ((1:Int) % 32).toNat = 1 := by decide
  unfold shl32
  rw [this, i32_of_range] <;> omega

theorem shl32_one' (x : Int) : shl32 x 1 = i32 (2 * x) := by
  have : ((1:Int) % 32).toNat = 1 := by decide
  unfold shl32
  rw [this]; congr 1; omega

theorem nextPowerOf2_spec {v : Int} (h1 : 1 ≤ v) (h2 : v ≤ 1073741824) :
    ∃ k : Nat, k ≤ 30 ∧ nextPowerOf2 v = (2 ^ k : Nat) ∧ v ≤ (2 ^ k : Nat) ∧
      (k = 0 ∨ ((2 ^ (k - 1) : Nat) : Int) < v) := by
  have hw : i32 (v - 1) = v - 1 := i32_of_range (by omega)
  unfold nextPowerOf2
  rw [hw]
  by_cases h0 : v = 1
  · subst h0; exact ⟨0, by omega, by decide, by decide, .inl rfl⟩
  · obtain ⟨x, hx⟩ : ∃ x : Nat, v - 1 = (x : Int) := ⟨(v - 1).toNat, by omega⟩
    have hx0 : x ≠ 0 := by omega
    rw [hx]
    have hnlz : numberOfLeadingZeros (x : Int) = 31 - (Nat.log2 x : Int) := by
      simp [numberOfLeadingZeros]; omega
    have hlo : 2 ^ Nat.log2 x ≤ x := Nat.log2_self_le hx0
    have hhi : x < 2 ^ (Nat.log2 x + 1) := Nat.lt_log2_self
    have hL : Nat.log2 x < 30 := by
      rw [Nat.log2_lt hx0]; omega
    refine ⟨Nat.log2 x + 1, by omega, ?_, by omega, .inr ?_⟩
    · rw [hnlz]
      unfold shl32
      have : ((32 - (31 - (Nat.log2 x : Int))) % 32).toNat = Nat.log2 x + 1 := by omega
      rw [this]
      have hb : 2 ^ (Nat.log2 x + 1) ≤ 2 ^ 30 := Nat.pow_le_pow_right (by omega) (by omega)
      rw [i32_of_range]
      · omega
      · constructor <;> omega
    · rw [Nat.add_sub_cancel]
      generalize 2 ^ Nat.log2 x = y at *
      omega

theorem nextPowerOf2_range {v : Int} (h1 : 1 ≤ v) (h2 : v ≤ 1073741824) :
    1 ≤ nextPowerOf2 v ∧ v ≤ nextPowerOf2 v ∧ nextPowerOf2 v ≤ 1073741824 := by
  obtain ⟨k, hk, he, hv, _⟩ := nextPowerOf2_spec h1 h2
  have hb : 2 ^ k ≤ 2 ^ 30 := Nat.pow_le_pow_right (by omega) hk
  have := Nat.two_pow_pos k
  omega

theorem nextPowerOf2_le_max {v : Int} (h1 : 1 ≤ v) (h2 : v ≤ 536870912) :
    nextPowerOf2 v ≤ 536870912 := by
  obtain ⟨k, hk, he, hv, hm⟩ := nextPowerOf2_spec h1 (by omega)
  have : k ≤ 29 := by
    rcases hm with h | h
    · omega
    · by_cases hk' : k ≤ 29
      · exact hk'
      · have : k = 30 := by omega
        subst this; simp at h; omega
  have hb : 2 ^ k ≤ 2 ^ 29 := Nat.pow_le_pow_right (by omega) this
  omega

theorem shl32_of_one (m : Int) :
    (∃ k : Nat, k ≤ 30 ∧ shl32 1 m = (2 ^ k : Nat)) ∨ shl32 1 m = -2147483648 := by
  unfold shl32
  have hk : (m % 32).toNat ≤ 31 := by omega
  generalize (m % 32).toNat = k at *
  by_cases h31 : k = 31
  · subst h31; right; decide
  · left
    refine ⟨k, by omega, ?_⟩
    have hb : 2 ^ k ≤ 2 ^ 30 := Nat.pow_le_pow_right (by omega) (by omega)
    generalize 2 ^ k = y at *
    rw [i32_of_range] <;> omega

/-- Whatever its argument, `nextPowerOf2` is a positive power of two up to 2^30, or negative. -/
theorem nextPowerOf2_any (v : Int) :
    (1 ≤ nextPowerOf2 v ∧ nextPowerOf2 v ≤ 1073741824) ∨ nextPowerOf2 v = -2147483648 := by
  unfold nextPowerOf2
  rcases shl32_of_one (32 - numberOfLeadingZeros (i32 (v - 1))) with ⟨k, hk, he⟩ | he
  · left
    have hb : 2 ^ k ≤ 2 ^ 30 := Nat.pow_le_pow_right (by omega) hk
    have := Nat.two_pow_pos k
    rw [he]
    generalize 2 ^ k = y at *
    omega
  · right; exact he

theorem MAX_CAPACITY_eq : MAX_CAPACITY = 536870912 := by decide

/-- Below the maximum, capacity exactly doubles and is capped. -/
theorem calculateNewCapacity_ok {σ : Type} {c t : Int} {s : σ} (h0 : 1 ≤ c) (h : c < 536870912) :
    calculateNewCapacity c t s = .ok (min (2 * c) 536870912) s := by
  unfold calculateNewCapacity
  rw [MAX_CAPACITY_eq, if_neg (by omega)]
  simp only [shl32_one (x := c) (by omega)]
  rw [if_neg (by omega)]
  rfl

theorem copyOf_ok {σ α : Type} (a : Arr α) {n : Int} (d : α) {s : σ} (h : 0 ≤ n) :
    (copyOf a n d : JM σ (Arr α)) s = .ok (a.copyOf n d) s := by simp [copyOf, h]

theorem fill_ok {σ α : Type} (a : Arr α) (v : α) {st n : Int} {s : σ}
    (h : n ≤ 0 ∨ 0 ≤ st ∧ st + n ≤ a.len) :
    (fill a v st n : JM σ (Arr α)) s = .ok (a.fillRange v st n) s := by
  unfold fill
  by_cases h0 : n ≤ 0
  · simp only [if_pos h0]
    congr 1
    cases a
    simp only [Arr.fillRange, Arr.mk.injEq, true_and]
    funext j
    rw [if_neg (by omega)]
  · simp only [if_neg h0, if_pos (show 0 ≤ st ∧ st + n ≤ a.len by omega)]

theorem growLoop_mono (N : Int) : ∀ (f : Nat) (n r : Int), growLoop N f n = some r →
    growLoop N (f + 1) n = some r
  | 0, n, r, h => by
    unfold growLoop at h ⊢
    split at h
    · simp at h
    · rename_i hlt; rw [if_neg hlt]; exact h
  | f + 1, n, r, h => by
    rw [growLoop] at h ⊢
    split at h
    · rename_i hlt
      rw [if_pos hlt]; exact growLoop_mono N f _ r h
    · rename_i hlt
      rw [if_neg hlt]; exact h

theorem growLoop_ge (N : Int) : ∀ (f : Nat) (n r : Int), growLoop N f n = some r → N ≤ r
  | 0, n, r, h => by
    unfold growLoop at h
    split at h <;> simp_all
  | f + 1, n, r, h => by
    rw [growLoop] at h
    split at h
    · exact growLoop_ge N f _ r h
    · simp at h; omega

theorem two_mul_pow (n : Int) (j : Nat) :
    2 * n * ((2 ^ j : Nat) : Int) = n * ((2 ^ (j + 1) : Nat) : Int) := by
  rw [Nat.pow_succ, Int.natCast_mul, Int.mul_comm 2 n, Int.mul_assoc, Int.mul_comm (2:Int)]
  rfl

/-- Without overflow the loop stops at the first doubling that reaches the request. -/
theorem growLoop_pow (N : Int) (hN : N ≤ 1073741824) : ∀ (f : Nat) (n : Int), 1 ≤ n →
    N ≤ n * (2 ^ f : Nat) → n < 2147483648 →
    ∃ k : Nat, k ≤ f ∧ growLoop N f n = some (n * (2 ^ k : Nat)) ∧ N ≤ n * (2 ^ k : Nat) ∧
      (k = 0 ∨ n * (2 ^ (k - 1) : Nat) < N) := by
  intro f
  induction f with
  | zero =>
    intro n hn h _
    refine ⟨0, by omega, ?_, by simpa using h, .inl rfl⟩
    simp at h
    simp [growLoop]; omega
  | succ f ih =>
    intro n hn h hb
    by_cases hlt : n < N
    · have hs : shl32 n 1 = 2 * n := shl32_one (by omega)
      obtain ⟨k, hk, hr, hge, hmin⟩ := ih (2 * n) (by omega) (by
        have : 2 * n * ((2 ^ f : Nat) : Int) = n * ((2 ^ (f + 1) : Nat) : Int) := by
          exact two_mul_pow _ _
        omega) (by omega)
      have e : ∀ j : Nat, 2 * n * ((2 ^ j : Nat) : Int) = n * ((2 ^ (j + 1) : Nat) : Int) := by
        intro j; exact two_mul_pow _ _
      refine ⟨k + 1, by omega, ?_, ?_, .inr ?_⟩
      · rw [growLoop, if_pos hlt, hs, hr, e]
      · rw [← e]; exact hge
      · rcases hmin with h0 | h0
        · subst h0; simpa using hlt
        · have : k ≠ 0 := by
            intro hk0; subst hk0
            simp at h0 hge; omega
          have hk' : k + 1 - 1 = (k - 1) + 1 := by omega
          rw [hk', ← e]; exact h0
    · refine ⟨0, by omega, ?_, by simp; omega, .inl rfl⟩
      rw [growLoop, if_neg hlt]; simp

/-- Once the length has become 0 it stays 0 for ever. -/
theorem growLoop_zero (N : Int) (hN : 0 < N) : ∀ f, growLoop N f 0 = none := by
  intro f
  induction f with
  | zero => simp [growLoop, hN]
  | succ f ih =>
    rw [growLoop, if_pos hN]
    have : shl32 0 1 = 0 := by decide
    rw [this]; exact ih

/-- For a power-of-two length and a request above 2^30, the loop never ends. -/
theorem growLoop_pow2_diverges (N : Int) (hN : 1073741824 < N) (hN' : N ≤ 2147483647) :
    ∀ (f j : Nat), j ≤ 31 → growLoop N f (i32 (2 ^ j : Nat)) = none := by
  intro f
  induction f with
  | zero =>
    intro j hj
    rw [growLoop, if_pos]
    by_cases h31 : j = 31
    · subst h31; unfold i32; simp; omega
    · have : 2 ^ j ≤ 2 ^ 30 := Nat.pow_le_pow_right (by omega) (by omega)
      generalize 2 ^ j = y at *
      rw [i32_of_range (by omega)]; omega
  | succ f ih =>
    intro j hj
    rw [growLoop, if_pos]
    · by_cases h31 : j = 31
      · subst h31
        have : shl32 (i32 ((2 ^ 31 : Nat) : Int)) 1 = 0 := by decide
        rw [this]; exact growLoop_zero N (by omega) f
      · have : 2 ^ j ≤ 2 ^ 30 := Nat.pow_le_pow_right (by omega) (by omega)
        have h2 := ih (j + 1) (by omega)
        have hr : -2147483648 ≤ ((2 ^ j : Nat) : Int) ∧ ((2 ^ j : Nat) : Int) < 2147483648 := by
          generalize 2 ^ j = y at *
          omega
        rw [shl32_one', i32_of_range hr]
        have : 2 * ((2 ^ j : Nat) : Int) = ((2 ^ (j + 1) : Nat) : Int) := by
          rw [Nat.pow_succ]; omega
        rw [this]; exact h2
    · by_cases h31 : j = 31
      · subst h31; unfold i32; simp; omega
      · have : 2 ^ j ≤ 2 ^ 30 := Nat.pow_le_pow_right (by omega) (by omega)
        generalize 2 ^ j = y at *
        rw [i32_of_range (by omega)]; omega

theorem iter_shl32 (n : Int) (hn : -2147483648 ≤ n ∧ n < 2147483648) (k : Nat) :
    Nat.repeat (fun x => shl32 x 1) k n = i32 (n * (2 ^ k : Nat)) := by
  induction k with
  | zero => simp [Nat.repeat, i32_of_range hn]
  | succ k ih =>
    rw [Nat.repeat, ih, shl32_one']
    have : n * ((2 ^ (k + 1) : Nat) : Int) = 2 * (n * ((2 ^ k : Nat) : Int)) := by
      rw [← two_mul_pow, Int.mul_assoc]
    rw [this]
    generalize n * ((2 ^ k : Nat) : Int) = y
    unfold i32; omega

theorem growLoop_none_iter (N : Int) : ∀ (f : Nat) (n : Int), growLoop N f n = none →
    ∀ g, growLoop N (f + g) n = growLoop N g (Nat.repeat (fun x => shl32 x 1) f n) := by
  intro f
  induction f with
  | zero => intro n _ g; simp [Nat.repeat]
  | succ f ih =>
    intro n h g
    rw [growLoop] at h
    split at h
    · rename_i hlt
      have e : f + 1 + g = (f + g) + 1 := by omega
      rw [e, growLoop, if_pos hlt, ih _ h g]
      congr 1
      clear ih h e hlt
      induction f with
      | zero => rfl
      | succ f ih => simp only [Nat.repeat] at ih ⊢; rw [ih]
    · simp at h

/-- If 64 iterations of the growth loop on an `int` did not reach the request, no number does:
this justifies reading fuel exhaustion as non-termination. -/
theorem growLoop_none_forever (N n : Int) (hN : 0 < N) (hn : -2147483648 ≤ n ∧ n < 2147483648)
    (h : growLoop N 64 n = none) : ∀ f, growLoop N f n = none := by
  intro f
  by_cases hf : f ≤ 64
  · cases hr : growLoop N f n with
    | none => rfl
    | some r =>
      have : ∀ d, growLoop N (f + d) n = some r := by
        intro d
        induction d with
        | zero => exact hr
        | succ d ih => exact growLoop_mono N _ _ _ ih
      have := this (64 - f)
      rw [show f + (64 - f) = 64 by omega, h] at this
      simp at this
  · obtain ⟨g, rfl⟩ : ∃ g, f = 64 + g := ⟨f - 64, by omega⟩
    rw [growLoop_none_iter N 64 n h g, iter_shl32 n hn 64]
    have : i32 (n * ((2 ^ 64 : Nat) : Int)) = 0 := by
      unfold i32
      have : ((2 ^ 64 : Nat) : Int) = 18446744073709551616 := by decide
      rw [this]; omega
    rw [this]; exact growLoop_zero N hN g

end Verif

import Verif.Proofs.Arrays
/-! # Properties C05 - C08: array growth, `nextPowerOf2`, capacity calculation -/
namespace Verif

/-- Specification of a grown array: long enough, old cells kept, new cells hold `d`, and nothing
happens if the array is long enough already. -/
def GrownFrom {α : Type} (old : Arr α) (size : Int) (d : α) (r : Arr α) : Prop :=
  size ≤ r.len ∧
  (∀ i : Int, 0 ≤ i → i < old.len → r.get i = old.get i) ∧
  (∀ i : Int, old.len ≤ i → i < r.len → r.get i = d) ∧
  (size ≤ old.len → r = old)

theorem grow_ok {σ : Type} {N : Int} {c : Nat} (s : σ) (hN : N ≤ 1073741824)
    (hc : (c : Int) < N) :
    ∃ k : Nat, grow N c s = .ok (max 1 (c : Int) * (2 ^ k : Nat)) s ∧
      N ≤ max 1 (c : Int) * (2 ^ k : Nat) ∧
      (k = 0 ∨ max 1 (c : Int) * (2 ^ (k - 1) : Nat) < N) := by
  have e : (if (c : Int) = 0 then 1 else (c : Int)) = max 1 (c : Int) := by split <;> omega
  have h2 : ((2 ^ 64 : Nat) : Int) = 18446744073709551616 := by decide
  obtain ⟨k, hk, hr, hge, hmin⟩ := growLoop_pow N hN 64 (max 1 (c : Int)) (by omega)
    (by rw [h2]; omega) (by omega)
  refine ⟨k, ?_, hge, hmin⟩
  unfold grow
  simp only [e, hr]

theorem ensureSize_ok {σ α : Type} (a : Arr α) (size : Int) (d : α) (s : σ)
    (h : size ≤ 1073741824) : ∃ r, ensureSize a size d s = .ok r s ∧ GrownFrom a size d r := by
  unfold ensureSize
  by_cases hs : size > a.len
  · rw [if_pos hs]
    obtain ⟨k, hg, hge, _⟩ := grow_ok (c := a.len) s h hs
    rw [JM.bind_ok hg]
    rw [copyOf_ok _ _ (by omega)]
    generalize max 1 (a.len : Int) * ((2 ^ k : Nat) : Int) = n at *
    refine ⟨_, rfl, ?_, ?_, ?_, ?_⟩
    · simp; omega
    · intro i h0 h1; simp [Arr.get_copyOf, h1]
    · intro i h0 h1; simp [Arr.get_copyOf]; omega
    · omega
  · rw [if_neg hs]
    exact ⟨a, rfl, by omega, fun _ _ _ => rfl, fun i _ _ => by omega, fun _ => rfl⟩

/-- C05 (`ensureSize`): for every array, every request up to 2^30 and every fill value. -/
theorem C05_ensureSize_grows {α : Type} (a : Arr α) (size : Int) (d : α)
    (h : size ≤ 1073741824) :
    ∃ r, ensureSize a size d () = .ok r () ∧ GrownFrom a size d r :=
  ensureSize_ok a size d () h

/-- C05 (`ensureEntry`): index `entry` is inside the returned array. -/
theorem C05_ensureEntry_grows {α : Type} (a : Arr α) (entry : Int) (d : α)
    (h0 : 0 ≤ entry) (h : entry < 1073741824) :
    ∃ r, ensureEntry a entry d () = .ok r () ∧ entry < r.len ∧ GrownFrom a (entry + 1) d r := by
  unfold ensureEntry
  rw [i32_of_range (by omega)]
  obtain ⟨r, h1, h2⟩ := ensureSize_ok a (entry + 1) d () (by omega)
  exact ⟨r, h1, by have := h2.1; omega, h2⟩

/-- C05 (beyond 2^30): whenever `ensureSize` returns at all, the returned array is as specified,
and it never throws: the only other outcome is the endless loop of C06. -/
theorem C05_ensureSize_any {α : Type} (a : Arr α) (size : Int) (d : α) :
    (∃ r, ensureSize a size d () = .ok r () ∧ GrownFrom a size d r) ∨
    (ensureSize a size d () = .err .diverge () ∧ 1073741824 < size) := by
  by_cases hle : size ≤ 1073741824
  · exact .inl (ensureSize_ok a size d () hle)
  · unfold ensureSize
    by_cases hs : size > a.len
    · rw [if_pos hs]
      cases hg : growLoop size 64 (if (a.len : Int) = 0 then 1 else (a.len : Int)) with
      | none =>
        have : grow size a.len () = .err .diverge () := by unfold grow; simp only [hg]
        exact .inr ⟨JM.bind_err this, by omega⟩
      | some n =>
        have : grow size a.len () = .ok n () := by unfold grow; simp only [hg]
        have hge := growLoop_ge _ _ _ _ hg
        refine .inl ?_
        rw [JM.bind_ok this]
        rw [copyOf_ok _ _ (by omega)]
        refine ⟨_, rfl, ?_, ?_, ?_, ?_⟩
        · simp; omega
        · intro i h0 h1; simp [Arr.get_copyOf, h1]
        · intro i h0 h1; simp [Arr.get_copyOf]; omega
        · omega
    · rw [if_neg hs]
      exact .inl ⟨a, rfl, by omega, fun _ _ _ => rfl, fun i _ _ => by omega, fun _ => rfl⟩

/- Non-vacuity: growing a 3-cell array to hold index 6 gives 12 cells (3·2²). -/
example : ∃ r, ensureEntry (⟨3, fun i => i + 10⟩ : Arr Int) 6 (-1) () = .ok r () ∧ r.len = 12 ∧
    r.get 2 = 12 ∧ r.get 3 = -1 :=
  ⟨_, rfl, rfl, rfl, rfl⟩

/-- C06 (partial: holds for requests up to 2^30; refuted above that by `C06_grow_refuted`):
the growth computation terminates and yields `current * 2^k` (with 0 counted as 1) for the least
`k` that reaches the request. -/
theorem C06_grow_partial (request : Int) (current : Nat) (h : request ≤ 1073741824)
    (hlt : (current : Int) < request) :
    ∃ k : Nat, grow request current () = .ok (max 1 (current : Int) * (2 ^ k : Nat)) () ∧
      request ≤ max 1 (current : Int) * (2 ^ k : Nat) ∧
      ∀ j : Nat, j < k → max 1 (current : Int) * (2 ^ j : Nat) < request := by
  obtain ⟨k, h1, h2, h3⟩ := grow_ok (σ := Unit) () h hlt
  refine ⟨k, h1, h2, fun j hj => ?_⟩
  rcases h3 with h3 | h3
  · omega
  · refine Int.lt_of_le_of_lt (Int.mul_le_mul_of_nonneg_left ?_ (by omega)) h3
    exact_mod_cast Nat.pow_le_pow_right (by omega) (by omega)

example : grow 100 3 () = .ok 192 () := by rfl

/-- C06 refuted as stated: for *every* request above 2^30 and every current length that is zero
or a power of two (all lengths the library itself produces), the loop never terminates, i.e. no
number of iterations reaches the request. -/
theorem C06_grow_refuted (request : Int) (h : 1073741824 < request) (h' : request ≤ MAX_INT)
    (current : Int) (hc : current = 0 ∨ ∃ j : Nat, j ≤ 30 ∧ current = (2 ^ j : Nat)) :
    grow request current () = .err .diverge () ∧
    ∀ iterations, growLoop request iterations (if current = 0 then 1 else current) = none := by
  have key : ∀ f, growLoop request f (if current = 0 then 1 else current) = none := by
    intro f
    unfold MAX_INT at h'
    rcases hc with rfl | ⟨j, hj, rfl⟩
    · have := growLoop_pow2_diverges request h (by omega) f 0 (by omega)
      have e : i32 ((2 ^ 0 : Nat) : Int) = 1 := by decide
      rw [e] at this; simpa using this
    · have := growLoop_pow2_diverges request h (by omega) f j (by omega)
      have hp := Nat.two_pow_pos j
      have hb : 2 ^ j ≤ 2 ^ 30 := Nat.pow_le_pow_right (by omega) (by omega)
      have e : i32 ((2 ^ j : Nat) : Int) = ((2 ^ j : Nat) : Int) := by
        apply i32_of_range
        generalize 2 ^ j = y at *
        omega
      rw [e] at this
      rw [if_neg (by generalize 2 ^ j = y at *; omega)]; exact this
  refine ⟨?_, key⟩
  unfold grow
  simp only [key 64]

/-- C07: on `1 .. 2^30`, `nextPowerOf2 v` is the least power of two that is at least `v`. -/
theorem C07_nextPowerOf2_least (v : Int) (h1 : 1 ≤ v) (h2 : v ≤ 2 ^ 30) :
    (∃ k : Nat, nextPowerOf2 v = 2 ^ k) ∧ v ≤ nextPowerOf2 v ∧
      ∀ k : Nat, v ≤ 2 ^ k → nextPowerOf2 v ≤ 2 ^ k := by
  obtain ⟨k, hk, he, hv, hm⟩ := nextPowerOf2_spec h1 h2
  refine ⟨⟨k, by rw [he]; simp⟩, by omega, fun j hj => ?_⟩
  rw [he]
  rcases hm with rfl | hm
  · have : (1 : Int) ≤ ((2 ^ j : Nat) : Int) := by exact_mod_cast Nat.two_pow_pos j
    simpa using this
  · have hj' : v ≤ ((2 ^ j : Nat) : Int) := by simpa using hj
    have hkj : k ≤ j := by
      apply Classical.byContradiction
      intro hlt
      have : 2 ^ j ≤ 2 ^ (k - 1) := Nat.pow_le_pow_right (by omega) (by omega)
      generalize 2 ^ j = y at *
      generalize 2 ^ (k - 1) = z at *
      omega
    have : ((2 ^ k : Nat) : Int) ≤ ((2 ^ j : Nat) : Int) := by
      exact_mod_cast Nat.pow_le_pow_right (by omega) hkj
    simpa using this

example : nextPowerOf2 5 = 8 ∧ nextPowerOf2 8 = 8 ∧ nextPowerOf2 9 = 16 := by decide

/-- C07 (outside the range): 1 for `MIN_VALUE < v ≤ 0`, and `Integer.MIN_VALUE` for `v > 2^30`
and for `MIN_VALUE` itself. -/
theorem C07_nextPowerOf2_outside (v : Int) (h1 : -2147483648 ≤ v) (h2 : v ≤ MAX_INT) :
    (-2147483648 < v → v ≤ 0 → nextPowerOf2 v = 1) ∧
    (2 ^ 30 < v ∨ v = -2147483648 → nextPowerOf2 v = -2147483648) := by
  have hmin : nextPowerOf2 (-2147483648) = -2147483648 := by decide
  constructor
  · intro ha hb
    unfold nextPowerOf2
    rw [i32_of_range (by omega)]
    have : numberOfLeadingZeros (v - 1) = 0 := by unfold numberOfLeadingZeros; rw [if_pos (by omega)]
    rw [this]; decide
  · rintro (ha | rfl)
    · unfold MAX_INT at h2
      unfold nextPowerOf2
      rw [i32_of_range (by omega)]
      obtain ⟨x, hx⟩ : ∃ x : Nat, v - 1 = (x : Int) := ⟨(v - 1).toNat, by omega⟩
      have hx0 : x ≠ 0 := by omega
      have hL : Nat.log2 x = 30 := by
        rw [Nat.log2_eq_iff hx0]; omega
      have : numberOfLeadingZeros (v - 1) = 1 := by
        rw [hx]; unfold numberOfLeadingZeros
        rw [if_neg (by omega), if_neg (by omega)]
        simp [hL]
      rw [this]; decide
    · exact hmin

/-- C08 (partial: the growth claim for capacities up to 2^29, every capacity the collections use
themselves; `C08_shrinks_refuted` shows it fails above): for every capacity and threshold,
`calculateNewCapacity` throws `ResizeException` or returns exactly the doubled, capped capacity,
or the unchanged maximum when the maximum is not yet fully used. -/
theorem C08_newCapacity_partial (capacity threshold : Int) (h : 1 ≤ capacity)
    (h' : capacity ≤ 2 ^ 29) :
    (capacity < 2 ^ 29 → calculateNewCapacity capacity threshold () =
      .ok (min (2 * capacity) (2 ^ 29)) () ∧ capacity < min (2 * capacity) (2 ^ 29)) ∧
    (capacity = 2 ^ 29 → threshold ≠ 2 ^ 29 →
      calculateNewCapacity capacity threshold () = .ok capacity ()) ∧
    (capacity = 2 ^ 29 → threshold = 2 ^ 29 →
      calculateNewCapacity capacity threshold () = .err .resize ()) := by
  refine ⟨fun hlt => ⟨?_, by omega⟩, fun he ht => ?_, fun he ht => ?_⟩
  · rw [calculateNewCapacity_ok h (by omega)]; rfl
  · unfold calculateNewCapacity
    rw [MAX_CAPACITY_eq, if_pos (by omega), if_neg (by omega)]; rfl
  · unfold calculateNewCapacity
    rw [MAX_CAPACITY_eq, if_pos (by omega), if_pos (by omega)]; rfl

/-- C08: powers of two stay powers of two. -/
theorem C08_newCapacity_pow2 (k : Nat) (hk : k < 29) (threshold : Int) :
    calculateNewCapacity (2 ^ k) threshold () = .ok (2 ^ (k + 1)) () := by
  have hb : 2 ^ k ≤ 2 ^ 28 := Nat.pow_le_pow_right (by omega) (by omega)
  have hp := Nat.two_pow_pos k
  have e : ((2 : Int) ^ k) = ((2 ^ k : Nat) : Int) := by simp
  have e' : ((2 : Int) ^ (k + 1)) = 2 * ((2 ^ k : Nat) : Int) := by
    rw [Int.pow_succ, e]; omega
  rw [e', e, calculateNewCapacity_ok]
  · congr 1; generalize 2 ^ k = y at *; omega
  · generalize 2 ^ k = y at *; omega
  · generalize 2 ^ k = y at *; omega

/-- C08: no result ever exceeds the maximum, and a capacity that cannot grow is refused, for
every `int` input. -/
theorem C08_newCapacity_le_max (capacity threshold r : Int)
    (h : calculateNewCapacity capacity threshold () = .ok r ()) : r ≤ 2 ^ 29 := by
  unfold calculateNewCapacity at h
  rw [MAX_CAPACITY_eq] at h
  by_cases hc : capacity = 536870912
  · rw [if_pos hc] at h
    split at h
    · simp at h
    · simp at h; omega
  · rw [if_neg hc] at h
    simp only at h
    split at h
    · simp at h
    · simp at h; omega

/-- C08: zero, negative and ≥ 2^30 capacities are always refused. -/
theorem C08_newCapacity_refuses (capacity threshold : Int)
    (h : -2147483648 ≤ capacity ∧ capacity ≤ 0 ∨ 2 ^ 30 ≤ capacity ∧ capacity ≤ MAX_INT)
    (hmin : -2 ^ 30 ≤ capacity) :
    calculateNewCapacity capacity threshold () = .err .resize () := by
  unfold MAX_INT at h
  unfold calculateNewCapacity
  rw [MAX_CAPACITY_eq, if_neg (by omega)]
  simp only [shl32_one']
  rw [if_pos (by unfold i32; omega)]
  rfl

/-- C08 refuted above the maximum: every capacity strictly between 2^29 and 2^30 *shrinks* to
2^29.  Such a capacity is reachable: `Heap`'s constructor takes its initial capacity unchanged
(BaseKeyHeap.ftl / BaseHeap.java do not round or check it). -/
theorem C08_shrinks_refuted (capacity threshold : Int) (h : 2 ^ 29 < capacity)
    (h' : capacity < 2 ^ 30) :
    calculateNewCapacity capacity threshold () = .ok (2 ^ 29) () := by
  unfold calculateNewCapacity
  rw [MAX_CAPACITY_eq, if_neg (by omega)]
  simp only [shl32_one (x := capacity) (by omega)]
  rw [if_neg (by omega), show min (2 * capacity) (536870912 : Int) = 2 ^ 29 by omega]
  rfl

example : calculateNewCapacity 6 5 () = .ok 12 () := by rfl
example : calculateNewCapacity (2 ^ 29) (2 ^ 29) () = .err .resize () := by rfl


/-- C69: `create(size)` makes an array of exactly that size whose every cell is the default; a negative
size throws NegativeArraySizeException. -/
theorem C69_create {α : Type} (size : Int) (d : α) :
    (0 ≤ size → ∃ r, createArr size d () = .ok r () ∧ (r.len : Int) = size ∧
      ∀ i, 0 ≤ i → i < size → r.get i = d) ∧
    (size < 0 → createArr size d () = .err .negativeArraySize ()) := by
  constructor
  · intro h
    exact ⟨_, newArr_ok d h, by simp; omega, fun i _ _ => rfl⟩
  · intro h; unfold createArr newArr; exact if_neg (by omega)

/-- C69 (partial): `create(size, v)` makes an array of exactly that size whose every cell is `v`,
when the type's equality (with which the code compares `v` and the default) is identity on that
comparison.  Missing: it is false otherwise, see `C69_negative_zero_refuted`. -/
theorem C69_create_filled_partial {α : Type} (isDefault : α → Bool) (d v : α) (size : Int)
    (h : 0 ≤ size) (heq : isDefault v = true → v = d) :
    ∃ r, createFilled isDefault d size v () = .ok r () ∧ (r.len : Int) = size ∧
      ∀ i, 0 ≤ i → i < size → r.get i = v := by
  unfold createFilled
  rw [JM.bind_ok (newArr_ok d h)]
  cases hv : isDefault v
  · simp only [Bool.not_false, if_true, fillAll]
    by_cases h0 : size = 0
    · subst h0
      refine ⟨Arr.create 0 d, ?_, by simp, fun i _ _ => by omega⟩
      rfl
    · refine ⟨(Arr.create size d).fillRange v 0 (Arr.create size d).len, ?_, by simp; omega, ?_⟩
      · unfold fill
        show (if _ then _ else _) = _
        rw [if_neg (by simp; omega), if_pos (by simp)]
      · intro i h1 h2
        rw [Arr.get_fillRange, if_pos (by simp; omega)]
  · simp only [Bool.not_true, Bool.false_eq_true, if_false]
    exact ⟨_, rfl, by simp; omega, fun i _ _ => (heq hv).symm⟩

/-- C69 refuted for a value that the type's equality does not distinguish from the default, such as
-0.0 (`-0.0 == 0.0`): `create(size, -0.0)` returns an array of 0.0. -/
theorem C69_negative_zero_refuted {α : Type} (isDefault : α → Bool) (d v : α) (size : Int)
    (h : 0 ≤ size) (heq : isDefault v = true) :
    ∃ r, createFilled isDefault d size v () = .ok r () ∧ ∀ i, 0 ≤ i → i < size → r.get i = d := by
  unfold createFilled
  rw [JM.bind_ok (newArr_ok d h)]
  simp only [heq, Bool.not_true, Bool.false_eq_true, if_false]
  exact ⟨_, rfl, fun i _ _ => rfl⟩

/-- C69: `fill(array, v)` sets every cell to `v` and keeps the length; `fill(array, v, from, length)`
changes exactly the cells `from .. from+length-1`, and throws when that section is not inside the
array. -/
theorem C69_fill {α : Type} (a : Arr α) (v : α) :
    (∃ r, fillAll a v () = .ok r () ∧ r.len = a.len ∧
      ∀ i : Int, 0 ≤ i → i < a.len → r.get i = v) ∧
    (∀ start n : Int, 0 ≤ start → start + n ≤ a.len →
      ∃ r, fill a v start n () = .ok r () ∧ r.len = a.len ∧
        ∀ i, r.get i = if start ≤ i ∧ i < start + n then v else a.get i) ∧
    (∀ start n : Int, 0 < n → ¬ (0 ≤ start ∧ start + n ≤ a.len) →
      fill a v start n () = .err .indexOutOfBounds ()) := by
  have hf : ∀ start n : Int, 0 ≤ start → start + n ≤ a.len →
      ∃ r, fill a v start n () = .ok r () ∧ r.len = a.len ∧
        ∀ i, r.get i = if start ≤ i ∧ i < start + n then v else a.get i := by
    intro start n h1 h2
    unfold fill
    by_cases hn : n ≤ 0
    · refine ⟨a, if_pos hn, rfl, fun i => ?_⟩
      rw [if_neg (by omega)]
    · refine ⟨a.fillRange v start n, ?_, rfl, fun i => ?_⟩
      · show (if _ then _ else _) = _
        rw [if_neg hn, if_pos ⟨h1, h2⟩]
      · rw [Arr.get_fillRange]
  refine ⟨?_, hf, ?_⟩
  · obtain ⟨r, h1, h2, h3⟩ := hf 0 a.len (by omega) (by omega)
    refine ⟨r, h1, h2, fun i h4 h5 => ?_⟩
    rw [h3, if_pos (by omega)]
  · intro start n hn hno
    unfold fill
    show (if _ then _ else _) = _
    rw [if_neg (by omega), if_neg hno]

/-- C69: `resize(array, n)` makes an array of length exactly `n`, shorter or longer, that keeps every
cell it has room for, with the default in the rest; a negative `n` throws. -/
theorem C69_resize {α : Type} (a : Arr α) (n : Int) (d : α) :
    (0 ≤ n → ∃ r, resize a n d () = .ok r () ∧ (r.len : Int) = n ∧
      ∀ i, 0 ≤ i → i < n → r.get i = if i < a.len then a.get i else d) ∧
    (n < 0 → resize a n d () = .err .negativeArraySize ()) := by
  constructor
  · intro h
    unfold resize
    rw [JM.bind_ok (newArr_ok d h), arraycopy_ok (by simp; omega)]
    refine ⟨_, rfl, by simp; omega, fun i h1 h2 => ?_⟩
    rw [Arr.get_copyRange]
    by_cases hc : i < a.len
    · rw [if_pos (by omega), if_pos hc]; congr 1; omega
    · rw [if_neg (by omega), if_neg hc]; rfl
  · intro h
    unfold resize
    rw [JM.bind_err (s' := ()) (e := .negativeArraySize)]
    unfold newArr; exact if_neg (by omega)

/-- Non-vacuity: shrinking and growing a three-cell array, and filling a section of it. -/
example : (∃ r, resize (⟨3, fun i => i + 1⟩ : Arr Int) 2 0 () = .ok r () ∧ r.toList = [1, 2]) ∧
    (∃ r, resize (⟨3, fun i => i + 1⟩ : Arr Int) 5 0 () = .ok r () ∧ r.toList = [1, 2, 3, 0, 0]) ∧
    (∃ r, fill (⟨3, fun i => i + 1⟩ : Arr Int) 9 1 2 () = .ok r () ∧ r.toList = [1, 9, 9]) ∧
    (∃ r, createFilled (· == 0) (0 : Int) 3 7 () = .ok r () ∧ r.toList = [7, 7, 7]) :=
  ⟨⟨_, rfl, by decide⟩, ⟨_, rfl, by decide⟩, ⟨_, rfl, by decide⟩, ⟨_, rfl, by decide⟩⟩

end Verif

import Verif.Link.Basic
import Verif.Gen.KeyArray
import Verif.Proofs.Arrays
/-!
`KeyArray.ftl`: the generated code against the model.  `Arr` has cells outside `[0, len)` that no
program can see, so agreement is on the visible cells.
-/
namespace Verif.Link
open Gen
variable {σ α : Type}

/-- The same length and the same visible cells. -/
def Same (a b : Arr α) : Prop :=
  a.len = b.len ∧ ∀ i : Int, 0 ≤ i → i < a.len → a.get i = b.get i

/-- The same exception, or the same visible array; and the same state. -/
def SameRes : Res σ (Arr α) → Res σ (Arr α) → Prop
  | .ok a s, .ok b t => Same a b ∧ s = t
  | .err e s, .err f t => e = f ∧ s = t
  | _, _ => False

theorem Same.refl (a : Arr α) : Same a a := ⟨rfl, fun _ _ _ => rfl⟩

theorem SameRes.refl (r : Res σ (Arr α)) : SameRes r r := by
  cases r
  · exact ⟨Same.refl _, rfl⟩
  · exact ⟨rfl, rfl⟩

theorem fill_none {a : Arr α} {v : α} {off len : Int} {s : σ} (h : len ≤ 0) :
    fill a v off len s = .ok a s := by simp [fill, h]
theorem fill_in {a : Arr α} {v : α} {off len : Int} {s : σ} (h : ¬len ≤ 0)
    (h' : 0 ≤ off ∧ off + len ≤ a.len) :
    fill a v off len s = .ok (a.fillRange v off len) s := by simp [fill, h, h']
theorem fill_out {a : Arr α} {v : α} {off len : Int} {s : σ} (h : ¬len ≤ 0)
    (h' : ¬(0 ≤ off ∧ off + len ≤ a.len)) :
    fill a v off len s = .err .indexOutOfBounds s := by
  simp only [fill, h, if_false]; rw [if_neg h']

theorem fill_loop (d : α) (isEq : α → α → Bool) (v : α) (len : Int) (hlen : len < 2 ^ 31) (s : σ) :
    ∀ (k fuel : Nat) (a : Arr α) (i off : Int), (a.len : Int) < 2 ^ 31 → k = (len - i).toNat →
      0 ≤ i → k < fuel →
      SameRes (KeyArray.fill4_loop1 d isEq v len fuel a i off s) (fill a v off (len - i) s) := by
  intro k
  induction k with
  | zero =>
    intro fuel a i off ha hk hi hf
    obtain ⟨f, rfl⟩ : ∃ f, fuel = f + 1 := ⟨fuel - 1, by omega⟩
    have h1 : ¬ i < len := by omega
    simp [KeyArray.fill4_loop1, h1, fill, show len - i ≤ 0 by omega, SameRes, Same.refl]
  | succ k ih =>
    intro fuel a i off ha hk hi hf
    obtain ⟨f, rfl⟩ : ∃ f, fuel = f + 1 := ⟨fuel - 1, by omega⟩
    have h1 : i < len := by omega
    have h2 : ¬ len - i ≤ 0 := by omega
    unfold KeyArray.fill4_loop1
    simp only [h1, decide_true, if_true]
    by_cases hin : 0 ≤ off ∧ off < a.len
    · have e1 : i32 (i + 1) = i + 1 := i32_of_range (by omega)
      have e2 : i32 (off + 1) = off + 1 := i32_of_range (by omega)
      rw [JM.bind_ok (show (wrA a off v : JM σ (Arr α)) s = .ok (a.set off v) s by
        simp [wrA, hin])]
      simp only [e1, e2]
      have := ih f (a.set off v) (i + 1) (off + 1) (by simpa using ha) (by omega) (by omega)
        (by omega)
      have key : SameRes (fill (a.set off v) v (off + 1) (len - (i + 1)) s)
          (fill a v off (len - i) s) := by
        by_cases h3 : len - (i + 1) ≤ 0
        · rw [fill_none h3, fill_in (by omega) (by omega)]
          refine ⟨⟨rfl, fun j h0 hj => ?_⟩, rfl⟩
          simp only [Arr.get_set, Arr.get_fillRange]
          by_cases hjo : j = off
          · simp [hjo]; omega
          · rw [if_neg hjo, if_neg (by omega)]
        · by_cases h4 : off + (len - i) ≤ a.len
          · rw [fill_in (by omega) (by simp only [Arr.len_set]; omega),
              fill_in (by omega) (by omega)]
            refine ⟨⟨rfl, fun j h0 hj => ?_⟩, rfl⟩
            simp only [Arr.get_set, Arr.get_fillRange]
            by_cases hjo : j = off
            · subst hjo; rw [if_neg (by omega), if_pos rfl, if_pos (by omega)]
            · by_cases hj2 : off ≤ j ∧ j < off + (len - i)
              · rw [if_pos (by omega), if_pos hj2]
              · rw [if_neg (by omega), if_neg hjo, if_neg hj2]
          · rw [fill_out (by omega) (by simp only [Arr.len_set]; omega),
              fill_out (by omega) (by omega)]; exact ⟨rfl, rfl⟩
      generalize KeyArray.fill4_loop1 d isEq v len f (a.set off v) (i + 1) (off + 1) s = r1 at this ⊢
      generalize fill (a.set off v) v (off + 1) (len - (i + 1)) s = r2 at this key
      generalize fill a v off (len - i) s = r3 at key ⊢
      cases r1 <;> cases r2 <;> cases r3 <;> simp only [SameRes] at this key ⊢
      · obtain ⟨⟨l1, c1⟩, t1⟩ := this
        obtain ⟨⟨l2, c2⟩, t2⟩ := key
        refine ⟨⟨l1.trans l2, fun j h0 hj => ?_⟩, t1.trans t2⟩
        rw [c1 j h0 hj, c2 j h0 (by omega)]
      · exact ⟨this.1.trans key.1, this.2.trans key.2⟩
    · rw [JM.bind_err (show (wrA a off v : JM σ (Arr α)) s = .err .indexOutOfBounds s by
        simp [wrA, hin])]
      rw [fill_out h2 (by omega)]
      exact ⟨rfl, rfl⟩

/-- KeyArray.ftl:65-69 `fill`. -/
theorem fill4_eq (d : α) (isEq : α → α → Bool) (fuel : Nat) (a : Arr α) (v : α) (off len : Int)
    (s : σ) (ha : (a.len : Int) < 2 ^ 31) (hl : len < 2 ^ 31) (hf : 2 ^ 31 ≤ fuel) :
    SameRes (KeyArray.fill4 d isEq fuel a v off len s) (fill a v off len s) := by
  have := fill_loop d isEq v len hl s _ fuel a 0 off ha rfl (by omega) (by omega)
  unfold KeyArray.fill4
  simp only [JM.bind_apply]
  rw [show len - 0 = len by omega] at this
  revert this
  cases KeyArray.fill4_loop1 d isEq v len fuel a 0 off s <;> exact id

/-- KeyArray.ftl:72-74 `fill`. -/
theorem fill2_eq (d : α) (isEq : α → α → Bool) (fuel : Nat) (a : Arr α) (v : α)
    (s : σ) (ha : (a.len : Int) < 2 ^ 31) (hf : 2 ^ 31 ≤ fuel) :
    SameRes (KeyArray.fill2 d isEq fuel a v s) (fillAll a v s) := by
  have := fill4_eq d isEq fuel a v 0 a.len s ha ha hf
  exact this

/-- KeyArray.ftl:41-43 `create`. -/
theorem create1_eq (d : α) (isEq : α → α → Bool) (n : Int) (s : σ) :
    KeyArray.create1 d isEq n s = createArr n d s := by
  rfl

/-- KeyArray.ftl:49-55 `create`. -/
theorem create2_eq (d : α) (isEq : α → α → Bool) (fuel : Nat) (n : Int) (v : α) (s : σ)
    (hn : n < 2 ^ 31) (hf : 2 ^ 31 ≤ fuel) :
    SameRes (KeyArray.create2 d isEq fuel n v s) (createFilled (isEq · d) d n v s) := by
  unfold KeyArray.create2 createFilled
  by_cases h : 0 ≤ n
  · rw [JM.bind_ok (newArr_ok d h), JM.bind_ok (newArr_ok d h)]
    have := fill2_eq d isEq fuel (Arr.create n d) v s (by simp; omega) hf
    by_cases hv : isEq v d = true
    · simp [hv, JM.bind_apply, SameRes, Same.refl]
    · simp only [hv, Bool.not_false, if_true, JM.bind_apply]
      revert this
      cases KeyArray.fill2 d isEq fuel (Arr.create n d) v s <;> exact id
  · have : (newArr n d : JM σ (Arr α)) s = .err .negativeArraySize s := by simp [newArr, h]
    rw [JM.bind_err this, JM.bind_err this]; exact ⟨rfl, rfl⟩

/-- KeyArray.ftl:58-62 `resize`. -/
theorem resize_eq (d : α) (isEq : α → α → Bool) (a : Arr α) (n : Int) (s : σ) :
    KeyArray.resize d isEq a n s = resize a n d s := by
  unfold KeyArray.resize resize
  simp only [JM.bind_apply, create1_eq, createArr]
  cases newArr n d s with
  | err => rfl
  | ok b t =>
    simp only
    cases arraycopy a 0 b 0 (min (a.len : Int) n) t <;> rfl

/-- KeyArray.ftl:80-84 `copyOf`, three arguments. -/
theorem copyOf3_eq (d v : α) (isEq : α → α → Bool) (fuel : Nat) (a : Arr α) (n : Int) (s : σ)
    (ha : (a.len : Int) < 2 ^ 31) (hn : n < 2 ^ 31) (hf : 2 ^ 31 ≤ fuel) :
    SameRes (KeyArray.copyOf3 d isEq fuel a n v s) (copyOf a n v s) := by
  unfold KeyArray.copyOf3
  by_cases h : 0 ≤ n
  · rw [JM.bind_ok (copyOf_ok a d h), copyOf_ok a v h]
    have e : i32 (((a.copyOf n d).len : Int) - a.len) = n - a.len := by
      rw [i32_of_range (by simp; omega)]; simp; omega
    have := fill4_eq d isEq fuel (a.copyOf n d) v a.len (n - a.len) s (by simp; omega) (by omega) hf
    simp only [e, JM.bind_apply]
    have key : SameRes (fill (a.copyOf n d) v a.len (n - a.len) s) (.ok (a.copyOf n v) s) := by
      by_cases h2 : n - (a.len : Int) ≤ 0
      · rw [fill_none h2]
        refine ⟨⟨rfl, fun j h0 hj => ?_⟩, rfl⟩
        simp only [Arr.len_copyOf] at hj
        simp only [Arr.get_copyOf]; rw [if_pos (by omega), if_pos (by omega)]
      · rw [fill_in h2 (by simp; omega)]
        refine ⟨⟨rfl, fun j h0 hj => ?_⟩, rfl⟩
        simp only [Arr.len_copyOf, Arr.len_fillRange] at hj
        simp only [Arr.get_copyOf, Arr.get_fillRange]
        by_cases h3 : j < a.len
        · rw [if_neg (by omega), if_pos h3, if_pos h3]
        · rw [if_pos (by omega), if_neg h3]
    revert this key
    generalize fill (a.copyOf n d) v a.len (n - a.len) s = r2
    cases KeyArray.fill4 d isEq fuel (a.copyOf n d) v a.len (n - a.len) s <;> cases r2 <;>
      simp only [SameRes] <;> intro h1 h2
    · exact ⟨⟨h1.1.1.trans h2.1.1, fun j h0 hj => by rw [h1.1.2 j h0 hj, h2.1.2 j h0 (by rw [← h1.1.1]; exact hj)]⟩,
        h1.2.trans h2.2⟩
    all_goals (first | exact h1.elim | exact h2.elim)
  · have e : ∀ x : α, (copyOf a n x : JM σ (Arr α)) s = .err .negativeArraySize s := by
      intro x; simp [copyOf, h]
    rw [JM.bind_err (e d), e v]; exact ⟨rfl, rfl⟩

/-- KeyArray.ftl:87-89 `copyOf`, two arguments. -/
theorem copyOf2_eq (d : α) (isEq : α → α → Bool) (a : Arr α) (n : Int) (s : σ) :
    KeyArray.copyOf2 d isEq a n s = copyOf a n d s := by
  rfl

theorem grow_loop (d : α) (isEq : α → α → Bool) (N : Int) (s : σ) : ∀ (f : Nat) (n : Int),
    KeyArray.grow_loop1 d isEq N (f + 1) n s =
      match growLoop N f n with
      | some r => .ok r s
      | none => .err .diverge s
  | 0, n => by
    by_cases h : n < N <;> simp [KeyArray.grow_loop1, growLoop, h, JM.bind_apply]
  | f + 1, n => by
    by_cases h : n < N
    · have := grow_loop d isEq N s f (shl32 n 1)
      rw [KeyArray.grow_loop1]
      simp only [h, decide_true, if_true, growLoop]
      exact this
    · simp [KeyArray.grow_loop1, growLoop, h]

/-- KeyArray.ftl:139-148 `grow`: 64 iterations of the loop decide, so any larger bound gives the
same. -/
theorem grow_eq (d : α) (isEq : α → α → Bool) (fuel : Nat) (N n : Int) (s : σ) (hN : 0 < N)
    (hn : 0 ≤ n ∧ n < 2 ^ 31) (hf : 64 < fuel) :
    KeyArray.grow d isEq fuel N n s = grow N n s := by
  obtain ⟨f, rfl⟩ : ∃ f, fuel = f + 1 := ⟨fuel - 1, by omega⟩
  unfold KeyArray.grow grow
  simp only [JM.bind_apply]
  have key : ∀ m : Int, 0 ≤ m ∧ m < 2 ^ 31 →
      KeyArray.grow_loop1 d isEq N (f + 1) m s =
      match growLoop N 64 m with
      | some r => .ok r s
      | none => .err .diverge s := by
    intro m hm
    rw [grow_loop]
    cases h : growLoop N 64 m with
    | none => rw [growLoop_none_forever N m hN (by omega) h f]
    | some r =>
      have : ∀ k, growLoop N (64 + k) m = some r := by
        intro k
        induction k with
        | zero => exact h
        | succ k ih => exact growLoop_mono N _ _ _ ih
      rw [show f = 64 + (f - 64) by omega, this]
  by_cases h0 : n = 0
  · have := key 1 (by omega)
    simp only [h0, decide_true, if_true]
    show KeyArray.grow_loop1 d isEq N (f + 1) 1 s = _
    rw [this]; cases growLoop N 64 1 <;> rfl
  · have := key n hn
    simp only [h0, decide_false, Bool.false_eq_true, if_false]
    show KeyArray.grow_loop1 d isEq N (f + 1) n s = _
    rw [this]; cases growLoop N 64 n <;> rfl

/-- KeyArray.ftl:96-101 `ensureSize`, two arguments. -/
theorem ensureSize2_eq (d : α) (isEq : α → α → Bool) (fuel : Nat) (a : Arr α) (n : Int) (s : σ)
    (ha : (a.len : Int) < 2 ^ 31) (hf : 64 < fuel) :
    KeyArray.ensureSize2 d isEq fuel a n s = ensureSize a n d s := by
  unfold KeyArray.ensureSize2 ensureSize
  by_cases h : n > a.len
  · simp only [h, decide_true, if_true]
    simp only [JM.bind_apply]
    rw [grow_eq d isEq fuel n a.len s (by omega) (by omega) hf]
    cases grow n (a.len : Int) s with
    | err => rfl
    | ok r t =>
      rfl
  · simp [h]

theorem grow_lt {N n r : Int} {s t : σ} (hn : n < 2 ^ 31) (h : grow N n s = .ok r t) :
    r < 2 ^ 31 := by
  unfold grow at h
  simp only at h
  split at h
  · rename_i h1
    simp at h
    rw [← h.1]
    refine growLoop_lt _ _ _ _ ?_ h1
    split <;> omega
  · simp at h

/-- KeyArray.ftl:109-114 `ensureSize`, three arguments. -/
theorem ensureSize3_eq (d v : α) (isEq : α → α → Bool) (fuel : Nat) (a : Arr α) (n : Int) (s : σ)
    (ha : (a.len : Int) < 2 ^ 31) (hf : 2 ^ 31 ≤ fuel) :
    SameRes (KeyArray.ensureSize3 d isEq fuel a n v s) (ensureSize a n v s) := by
  unfold KeyArray.ensureSize3 ensureSize
  by_cases h : n > a.len
  · simp only [h, decide_true, if_true]
    simp only [JM.bind_apply]
    rw [grow_eq d isEq fuel n a.len s (by omega) (by omega) (by omega)]
    cases hg : grow n (a.len : Int) s with
    | err => exact ⟨rfl, rfl⟩
    | ok r t =>
      have := copyOf3_eq d v isEq fuel a r t ha (grow_lt ha hg) hf
      simp only
      revert this
      cases KeyArray.copyOf3 d isEq fuel a r v t <;> exact id
  · simp [h, SameRes, Same.refl]

/-- KeyArray.ftl:121-123 `ensureEntry`, two arguments. -/
theorem ensureEntry2_eq (d : α) (isEq : α → α → Bool) (fuel : Nat) (a : Arr α) (n : Int) (s : σ)
    (ha : (a.len : Int) < 2 ^ 31) (hf : 64 < fuel) :
    KeyArray.ensureEntry2 d isEq fuel a n s = ensureEntry a n d s := by
  unfold KeyArray.ensureEntry2 ensureEntry
  exact ensureSize2_eq d isEq fuel a _ s ha hf

/-- KeyArray.ftl:131-133 `ensureEntry`, three arguments. -/
theorem ensureEntry3_eq (d v : α) (isEq : α → α → Bool) (fuel : Nat) (a : Arr α) (n : Int) (s : σ)
    (ha : (a.len : Int) < 2 ^ 31) (hf : 2 ^ 31 ≤ fuel) :
    SameRes (KeyArray.ensureEntry3 d isEq fuel a n v s) (ensureEntry a n v s) := by
  unfold KeyArray.ensureEntry3 ensureEntry
  exact ensureSize3_eq d v isEq fuel a (i32 (n + 1)) s ha hf

end Verif.Link

import Verif.Trace
import Verif.Proofs.Arrays
import Verif.Gen.NumUtils
import Verif.Gen.CapacityCalculator
import Verif.Gen.RangeCheckException
import Verif.Gen.InitializationException
/-!
Tools for the link theorems: the definitions in `Verif.Gen`, which a program wrote from the Java
text, agree with the hand-written model.
-/
deriving instance DecidableEq for Except

namespace Verif.Link

/-- Two implementations that agree, call by call, in every state that satisfies `I` (indexed by
how many calls are still allowed), agree on histories. -/
theorem runM_congr {σ op β : Type} {A B : op → JM σ β} (I : Nat → σ → Prop)
    (h : ∀ n s o, I (n + 1) s → A o s = B o s ∧ I n (B o s).state) :
    ∀ (ops : List op) (n : Nat) (s : σ), I n s → ops.length ≤ n → runM A s ops = runM B s ops
  | [], _, _, _, _ => rfl
  | o :: os, n + 1, s, hs, hn => by
    obtain ⟨h1, h2⟩ := h n s o hs
    simp only [runM]
    rw [h1, runM_congr I h os n _ h2 (by simpa using hn)]

/-- The same along an abstract history. -/
theorem runM_congr_spec {σ S op β : Type} {A B : op → JM σ β} {spec : op → S → Except Err β × S}
    {Inv : σ → S → Prop} {G : op → S → Prop}
    (H : ∀ s a o, Inv s a → G o a →
      (B o s).out = (spec o a).1 ∧ Inv (B o s).state (spec o a).2)
    (h : ∀ s a o, Inv s a → G o a → A o s = B o s) :
    ∀ (ops : List op) (s : σ) (a : S), Inv s a → Allowed spec G a ops →
      runM A s ops = runM B s ops
  | [], _, _, _, _ => rfl
  | o :: os, s, a, hs, hg => by
    simp only [runM]
    rw [h s a o hs hg.1, runM_congr_spec H h os _ _ (H s a o hs hg.1).2 hg.2]

/-- Two implementations in step with each other, in related states. -/
theorem runM_bisim {σ τ op β : Type} {A : op → JM σ β} {B : op → JM τ β} {R : σ → τ → Prop}
    (h : ∀ s t o, R s t → (A o s).out = (B o t).out ∧ R (A o s).state (B o t).state) :
    ∀ (ops : List op) (s : σ) (t : τ), R s t →
      (runM A s ops).1 = (runM B t ops).1 ∧ R (runM A s ops).2 (runM B t ops).2
  | [], _, _, hs => ⟨rfl, hs⟩
  | o :: os, s, t, hs => by
    obtain ⟨h1, h2⟩ := h s t o hs
    obtain ⟨h3, h4⟩ := runM_bisim h os _ _ h2
    exact ⟨by simp only [runM, h1, h3], h4⟩

theorem ite_apply {σ α : Type} (c : Prop) [Decidable c] (m n : JM σ α) (s : σ) :
    (if c then m else n) s = if c then m s else n s := by split <;> rfl

theorem when_apply {σ : Type} (c : Prop) [Decidable c] (m : JM σ Unit) (s : σ) :
    (JM.when c m) s = if c then m s else .ok () s := by unfold JM.when; split <;> rfl

theorem growLoop_lt (N : Int) : ∀ (f : Nat) (n r : Int), n < 2 ^ 31 → growLoop N f n = some r →
    r < 2 ^ 31
  | 0, n, r, hn, h => by
    unfold growLoop at h; split at h <;> simp at h; omega
  | f + 1, n, r, hn, h => by
    unfold growLoop at h; split at h
    · refine growLoop_lt N f _ r ?_ h
      rw [shl32_one']; have := i32_range (2 * n); omega
    · simp at h; omega

/-- NumUtils.java: generated = model. -/
theorem nextPowerOf2_eq {σ : Type} (v : Int) :
    (Gen.NumUtils.nextPowerOf2 v : JM σ Int) = pure (nextPowerOf2 v) := by
  unfold Gen.NumUtils.nextPowerOf2 nextPowerOf2
  congr 2
  apply i32_of_range
  unfold numberOfLeadingZeros
  have h := i32_range (v - 1)
  split
  · omega
  · split
    · omega
    · rename_i h1 h2
      have : Nat.log2 (i32 (v - 1)).toNat < 31 := by
        rw [Nat.log2_lt (by omega)]; omega
      omega

/-- CapacityCalculator.java: generated = model. -/
theorem calculateNewCapacity_eq {σ : Type} (c t : Int) :
    (Gen.CapacityCalculator.calculateNewCapacity c t : JM σ Int) = calculateNewCapacity c t := by
  have e : i32 (i32 (Int.tdiv MAX_INT 4) + 1) = MAX_CAPACITY := by decide
  unfold Gen.CapacityCalculator.calculateNewCapacity calculateNewCapacity
  rw [e]
  by_cases h1 : c = MAX_CAPACITY
  · by_cases h2 : t = MAX_CAPACITY
    · simp [h1, h2]; rfl
    · simp [h1, h2]; rfl
  · simp only [h1, decide_false, Bool.false_eq_true, if_false, decide_eq_true_eq]
    split
    · rfl
    · rfl

theorem JM_ext {σ α : Type} {m n : JM σ α} (h : ∀ s, m s = n s) : m = n := by
  cases m; cases n; congr 1; funext s; exact h s

theorem bind_unit {σ : Type} (m : JM σ Unit) : (m >>= fun _ => pure ()) = m := by
  apply JM_ext; intro s
  rw [JM.bind_apply]
  cases m s <;> rfl

/-- A computation that does not look at the object. -/
def ofExcept {σ α : Type} (r : Except Err α) : JM σ α := ⟨fun s =>
  match r with
  | .ok a => .ok a s
  | .error e => .err e s⟩

@[simp] theorem ofExcept_ok {σ α : Type} (a : α) (s : σ) :
    (ofExcept (.ok a) : JM σ α) s = .ok a s := rfl
@[simp] theorem ofExcept_error {σ α : Type} (e : Err) (s : σ) :
    (ofExcept (.error e) : JM σ α) s = .err e s := rfl

theorem calc_local (σ : Type) (c t : Int) :
    ∃ r, ∀ s, (calculateNewCapacity c t : JM σ Int) s = ofExcept r s := by
  unfold calculateNewCapacity
  by_cases h1 : c = MAX_CAPACITY
  · by_cases h2 : t = MAX_CAPACITY
    · exact ⟨.error .resize, fun s => by simp [h1, h2]⟩
    · exact ⟨.ok c, fun s => by simp [h1, h2]⟩
  · by_cases h2 : shl32 c 1 ≤ c
    · exact ⟨.error .resize, fun s => by simp [h1, h2]⟩
    · exact ⟨.ok (min (shl32 c 1) MAX_CAPACITY), fun s => by simp [h1, h2]⟩

theorem newArr_local (σ : Type) {α : Type} (n : Int) (d : α) :
    ∃ r, ∀ s, (newArr n d : JM σ (Arr α)) s = ofExcept r s := by
  by_cases h : 0 ≤ n
  · exact ⟨.ok (Arr.create n d), fun s => by simp [newArr, h]⟩
  · exact ⟨.error .negativeArraySize, fun s => by simp [newArr, h]⟩

theorem fill_local (σ : Type) {α : Type} (a : Arr α) (v : α) (off n : Int) :
    ∃ r, ∀ s, (fill a v off n : JM σ (Arr α)) s = ofExcept r s := by
  by_cases h : n ≤ 0
  · exact ⟨.ok a, fun s => by simp [fill, h]⟩
  · by_cases h2 : 0 ≤ off ∧ off + n ≤ a.len
    · exact ⟨.ok (a.fillRange v off n), fun s => by simp only [fill, h, if_false]; rw [if_pos h2]; rfl⟩
    · exact ⟨.error .indexOutOfBounds, fun s => by simp only [fill, h, if_false]; rw [if_neg h2]; rfl⟩

theorem arraycopy_local (σ : Type) {α : Type} (a : Arr α) (sp : Int) (b : Arr α) (dp n : Int) :
    ∃ r, ∀ s, (arraycopy a sp b dp n : JM σ (Arr α)) s = ofExcept r s := by
  by_cases h : 0 ≤ sp ∧ 0 ≤ dp ∧ 0 ≤ n ∧ sp + n ≤ a.len ∧ dp + n ≤ b.len
  · exact ⟨.ok (Arr.copyRange a sp b dp n), fun s => by simp only [arraycopy]; rw [if_pos h]; rfl⟩
  · exact ⟨.error .indexOutOfBounds, fun s => by simp only [arraycopy]; rw [if_neg h]; rfl⟩

theorem ensureSize_local (σ : Type) {α : Type} (a : Arr α) (n : Int) (d : α) :
    ∃ r, (∀ s, (ensureSize a n d : JM σ (Arr α)) s = ofExcept r s) ∧
      ∀ b, r = .ok b → n ≤ b.len ∧ a.len ≤ b.len ∧
        ((a.len : Int) < 2 ^ 31 → (b.len : Int) < 2 ^ 31) := by
  by_cases h : n > a.len
  · cases hg : growLoop n 64 (if (a.len : Int) = 0 then 1 else a.len) with
    | none =>
      refine ⟨.error .diverge, fun s => ?_, by simp⟩
      unfold ensureSize
      simp only [h, if_true, JM.bind_apply, grow, hg]; rfl
    | some r =>
      have hr := growLoop_ge _ _ _ _ hg
      have hr0 : 0 ≤ r := by omega
      refine ⟨.ok (a.copyOf r d), fun s => ?_, fun b hb => ?_⟩
      · unfold ensureSize
        simp only [h, if_true, JM.bind_apply, grow, hg, copyOf, hr0]; rfl
      · simp only [Except.ok.injEq] at hb; subst hb
        simp only [Arr.len_copyOf]
        refine ⟨by omega, by omega, fun ha => ?_⟩
        have := growLoop_lt _ _ _ _ (by split <;> omega) hg
        omega
  · refine ⟨.ok a, fun s => ?_, fun b hb => ?_⟩
    · unfold ensureSize; simp only [h, if_false]; rfl
    · simp only [Except.ok.injEq] at hb; subst hb
      exact ⟨by omega, by omega, id⟩

theorem ensureEntry_local (σ : Type) {α : Type} (a : Arr α) (n : Int) (d : α) :
    ∃ r, (∀ s, (ensureEntry a n d : JM σ (Arr α)) s = ofExcept r s) ∧
      ∀ b, r = .ok b → i32 (n + 1) ≤ b.len ∧ a.len ≤ b.len ∧
        ((a.len : Int) < 2 ^ 31 → (b.len : Int) < 2 ^ 31) :=
  ensureSize_local σ a (i32 (n + 1)) d

end Verif.Link

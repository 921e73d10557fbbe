import Verif.Gen.GenericArray
import Verif.Link.Arrays
import Verif.Props.Arrays
/-!
C05 to C08 and C69 for the code generated from `KeyArray.ftl`, `NumUtils.java` and
`CapacityCalculator.java`.  `fuel` bounds the passes of a loop and is never reached; arrays have
fewer than `2 ^ 31` cells, as in Java.
-/
namespace Verif.Link
open Gen
variable {α : Type}

theorem same_of {r r' : Res Unit (Arr α)} {b : Arr α} (h : SameRes r r') (e : r' = .ok b ()) :
    ∃ a, r = .ok a () ∧ Same a b := by
  subst e
  cases r with
  | ok a s => exact ⟨a, by cases s; rfl, h.1⟩
  | err => exact h.elim

theorem err_of {r r' : Res Unit (Arr α)} {e : Err} (h : SameRes r r') (he : r' = .err e ()) :
    r = .err e () := by
  subst he
  cases r with
  | ok => exact h.elim
  | err f s => cases s; rw [h.1]

theorem GrownFrom.congr {old : Arr α} {n : Int} {d : α} {r r' : Arr α} (h : GrownFrom old n d r')
    (hs : Same r r') (hsmall : n ≤ old.len → r = old) : GrownFrom old n d r := by
  obtain ⟨h1, h2, h3, _⟩ := h
  obtain ⟨g1, g2⟩ := hs
  by_cases hn : n ≤ old.len
  · rw [hsmall hn]
    exact ⟨hn, fun _ _ _ => rfl, fun i _ _ => by omega, fun _ => rfl⟩
  · refine ⟨by omega, ?_, ?_, fun h => absurd h hn⟩
    · intro i h0 h4
      rw [g2 i h0 (by omega), h2 i h0 h4]
    · intro i h0 h4; rw [g2 i (by omega) h4, h3 i h0 (by omega)]

theorem ensureSize3_small (d v : α) (isEq : α → α → Bool) (fuel : Nat) (a : Arr α) (n : Int)
    (h : n ≤ a.len) : KeyArray.ensureSize3 d isEq fuel a n v () = .ok a () := by
  unfold KeyArray.ensureSize3
  have : ¬ n > a.len := by omega
  simp [this]

theorem ensureSize3_any (d v : α) (isEq : α → α → Bool) (fuel : Nat) (a : Arr α) (n : Int)
    (ha : (a.len : Int) < 2 ^ 31) (hf : 2 ^ 31 ≤ fuel) :
    (∃ r, KeyArray.ensureSize3 d isEq fuel a n v () = .ok r () ∧ GrownFrom a n v r) ∨
    (KeyArray.ensureSize3 d isEq fuel a n v () = .err .diverge () ∧ 1073741824 < n) := by
  have h := ensureSize3_eq d v isEq fuel a n () ha hf
  rcases C05_ensureSize_any a n v with ⟨r, h1, h2⟩ | ⟨h1, h2⟩
  · obtain ⟨b, hb, hs⟩ := same_of h h1
    refine .inl ⟨b, hb, GrownFrom.congr h2 hs fun hn => ?_⟩
    rw [ensureSize3_small d v isEq fuel a n hn] at hb
    cases hb; rfl
  · exact .inr ⟨err_of h h1, h2⟩

theorem ensureSize2_any (d : α) (isEq : α → α → Bool) (fuel : Nat) (a : Arr α) (n : Int)
    (ha : (a.len : Int) < 2 ^ 31) (hf : 64 < fuel) :
    (∃ r, KeyArray.ensureSize2 d isEq fuel a n () = .ok r () ∧ GrownFrom a n d r) ∨
    (KeyArray.ensureSize2 d isEq fuel a n () = .err .diverge () ∧ 1073741824 < n) := by
  rw [ensureSize2_eq d isEq fuel a n () ha hf]
  exact C05_ensureSize_any a n d

end Verif.Link

namespace Verif
open Verif.Link
variable {α : Type}

/-- C05 for the generated `ensureSize` and `ensureEntry`, with the type's default `d` or a value `v`
given for the new cells: up to 2^30 the array returned is the old one, grown; beyond that it is
so whenever the call returns, and the only other outcome is that it never does (C06). -/
theorem C05_generated (d v : α) (isEq : α → α → Bool) (fuel : Nat) (hf : 2 ^ 31 ≤ fuel)
    (a : Arr α) (ha : (a.len : Int) < 2 ^ 31) :
    (∀ size : Int, size ≤ 2 ^ 30 →
      (∃ r, Gen.KeyArray.ensureSize2 d isEq fuel a size () = .ok r () ∧ GrownFrom a size d r) ∧
      (∃ r, Gen.KeyArray.ensureSize3 d isEq fuel a size v () = .ok r () ∧ GrownFrom a size v r)) ∧
    (∀ entry : Int, 0 ≤ entry → entry < 2 ^ 30 →
      (∃ r, Gen.KeyArray.ensureEntry2 d isEq fuel a entry () = .ok r () ∧
        entry < r.len ∧ GrownFrom a (entry + 1) d r) ∧
      (∃ r, Gen.KeyArray.ensureEntry3 d isEq fuel a entry v () = .ok r () ∧
        entry < r.len ∧ GrownFrom a (entry + 1) v r)) ∧
    (∀ size : Int, 2 ^ 30 < size →
      ((∃ r, Gen.KeyArray.ensureSize2 d isEq fuel a size () = .ok r () ∧ GrownFrom a size d r) ∨
        Gen.KeyArray.ensureSize2 d isEq fuel a size () = .err .diverge ()) ∧
      ((∃ r, Gen.KeyArray.ensureSize3 d isEq fuel a size v () = .ok r () ∧ GrownFrom a size v r) ∨
        Gen.KeyArray.ensureSize3 d isEq fuel a size v () = .err .diverge ())) := by
  have h2 := fun n => ensureSize2_any d isEq fuel a n ha (by omega)
  have h3 := fun n => ensureSize3_any d v isEq fuel a n ha hf
  have k2 : ∀ size : Int, size ≤ 2 ^ 30 → ∃ r,
      Gen.KeyArray.ensureSize2 d isEq fuel a size () = .ok r () ∧ GrownFrom a size d r := by
    intro size hs
    rcases h2 size with h | ⟨_, h⟩
    · exact h
    · omega
  have k3 : ∀ size : Int, size ≤ 2 ^ 30 → ∃ r,
      Gen.KeyArray.ensureSize3 d isEq fuel a size v () = .ok r () ∧ GrownFrom a size v r := by
    intro size hs
    rcases h3 size with h | ⟨_, h⟩
    · exact h
    · omega
  refine ⟨fun size hs => ⟨k2 size hs, k3 size hs⟩, fun entry h0 h1 => ?_, fun size _ => ?_⟩
  · have e : i32 (entry + 1) = entry + 1 := i32_of_range (by omega)
    constructor
    · obtain ⟨r, g1, g2⟩ := k2 (entry + 1) (by omega)
      refine ⟨r, ?_, by have := g2.1; omega, g2⟩
      unfold Gen.KeyArray.ensureEntry2; rw [e]; exact g1
    · obtain ⟨r, g1, g2⟩ := k3 (entry + 1) (by omega)
      refine ⟨r, ?_, by have := g2.1; omega, g2⟩
      unfold Gen.KeyArray.ensureEntry3; rw [e]; exact g1
  · exact ⟨(h2 size).imp id And.left, (h3 size).imp id And.left⟩

/-- C06 for the generated `grow` (partial: requests up to 2^30; `C06_generated_refuted` is the
rest). -/
theorem C06_generated_partial (d : α) (isEq : α → α → Bool) (fuel : Nat) (hf : 64 < fuel)
    (request : Int) (current : Nat) (h : request ≤ 2 ^ 30) (hlt : (current : Int) < request) :
    ∃ k : Nat,
      Gen.KeyArray.grow d isEq fuel request current () =
        .ok (max 1 (current : Int) * (2 ^ k : Nat)) () ∧
      request ≤ max 1 (current : Int) * (2 ^ k : Nat) ∧
      ∀ j : Nat, j < k → max 1 (current : Int) * (2 ^ j : Nat) < request := by
  rw [grow_eq d isEq fuel request current () (by omega) (by omega) hf]
  exact C06_grow_partial request current (by omega) hlt

/-- C06 refuted for the generated `grow`: above 2^30, from a length that is zero or a power of two, no
number of passes is enough. -/
theorem C06_generated_refuted (d : α) (isEq : α → α → Bool) (request : Int)
    (h : 2 ^ 30 < request) (h' : request ≤ MAX_INT)
    (current : Int) (hc : current = 0 ∨ ∃ j : Nat, j ≤ 30 ∧ current = (2 ^ j : Nat)) (fuel : Nat) :
    64 < fuel → Gen.KeyArray.grow d isEq fuel request current () = .err .diverge () := by
  intro hf
  have hr : 0 ≤ current ∧ current < 2 ^ 31 := by
    rcases hc with rfl | ⟨j, hj, rfl⟩
    · omega
    · have hb : 2 ^ j ≤ 2 ^ 30 := Nat.pow_le_pow_right (by omega) hj
      generalize 2 ^ j = y at *; omega
  rw [grow_eq d isEq fuel request current () (by omega) hr hf]
  exact (C06_grow_refuted request (by omega) h' current hc).1

/-- C07 for the generated `nextPowerOf2`. -/
theorem C07_generated (v : Int) (h1 : -2 ^ 31 ≤ v) (h2 : v ≤ MAX_INT) :
    ∃ r, Gen.NumUtils.nextPowerOf2 v () = .ok r () ∧
      (1 ≤ v → v ≤ 2 ^ 30 → (∃ k : Nat, r = 2 ^ k) ∧ v ≤ r ∧ ∀ k : Nat, v ≤ 2 ^ k → r ≤ 2 ^ k) ∧
      (-2 ^ 31 < v → v ≤ 0 → r = 1) ∧
      (2 ^ 30 < v ∨ v = -2 ^ 31 → r = -2 ^ 31) := by
  refine ⟨nextPowerOf2 v, by rw [nextPowerOf2_eq]; rfl, C07_nextPowerOf2_least v, ?_, ?_⟩
  · intro a b; exact (C07_nextPowerOf2_outside v (by omega) h2).1 (by omega) b
  · intro a
    have := (C07_nextPowerOf2_outside v (by omega) h2).2 (by omega)
    omega

/-- C08 for the generated `calculateNewCapacity` (partial: it grows for capacities up to 2^29; the
last clause is the refutation above that). -/
theorem C08_generated_partial (capacity threshold : Int) :
    (1 ≤ capacity → capacity < 2 ^ 29 →
      Gen.CapacityCalculator.calculateNewCapacity capacity threshold () =
        .ok (min (2 * capacity) (2 ^ 29)) () ∧ capacity < min (2 * capacity) (2 ^ 29)) ∧
    (capacity = 2 ^ 29 → threshold ≠ 2 ^ 29 →
      Gen.CapacityCalculator.calculateNewCapacity capacity threshold () = .ok capacity ()) ∧
    (capacity = 2 ^ 29 → threshold = 2 ^ 29 →
      Gen.CapacityCalculator.calculateNewCapacity capacity threshold () = .err .resize ()) ∧
    (∀ k : Nat, k < 29 → capacity = 2 ^ k →
      Gen.CapacityCalculator.calculateNewCapacity capacity threshold () = .ok (2 ^ (k + 1)) ()) ∧
    (∀ r, Gen.CapacityCalculator.calculateNewCapacity capacity threshold () = .ok r () →
      r ≤ 2 ^ 29) ∧
    (-2 ^ 30 ≤ capacity ∧ capacity ≤ 0 ∨ 2 ^ 30 ≤ capacity ∧ capacity ≤ MAX_INT →
      Gen.CapacityCalculator.calculateNewCapacity capacity threshold () = .err .resize ()) ∧
    (2 ^ 29 < capacity → capacity < 2 ^ 30 →
      Gen.CapacityCalculator.calculateNewCapacity capacity threshold () = .ok (2 ^ 29) ()) := by
  rw [calculateNewCapacity_eq]
  refine ⟨fun h1 h2 => ?_, fun h1 => ?_, fun h1 => ?_, fun k hk e => ?_, fun r => ?_, fun h => ?_,
    fun h1 h2 => ?_⟩
  · exact (C08_newCapacity_partial capacity threshold h1 (by omega)).1 h2
  · exact (C08_newCapacity_partial capacity threshold (by omega) (by omega)).2.1 h1
  · exact (C08_newCapacity_partial capacity threshold (by omega) (by omega)).2.2 h1
  · rw [e]; exact C08_newCapacity_pow2 k hk threshold
  · exact C08_newCapacity_le_max capacity threshold r
  · exact C08_newCapacity_refuses capacity threshold
      (h.imp (fun g => ⟨by omega, g.2⟩) id) (by omega)
  · exact C08_shrinks_refuted capacity threshold h1 h2

/-- C69 for the generated `create`, `fill`, `resize` and `copyOf` (partial: the filled `create` when the
type's equality compares `v` with the default as identity does). -/
theorem C69_generated_partial (d v : α) (isEq : α → α → Bool) (fuel : Nat) (hf : 2 ^ 31 ≤ fuel)
    (a : Arr α) (ha : (a.len : Int) < 2 ^ 31) (size : Int) (hs : size < 2 ^ 31) :
    (0 ≤ size →
      (∃ r, Gen.KeyArray.create1 d isEq size () = .ok r () ∧ (r.len : Int) = size ∧
        ∀ i, 0 ≤ i → i < size → r.get i = d) ∧
      ((isEq v d = true → v = d) →
        ∃ r, Gen.KeyArray.create2 d isEq fuel size v () = .ok r () ∧ (r.len : Int) = size ∧
          ∀ i, 0 ≤ i → i < size → r.get i = v) ∧
      (∃ r, Gen.KeyArray.resize d isEq a size () = .ok r () ∧ (r.len : Int) = size ∧
        ∀ i, 0 ≤ i → i < size → r.get i = if i < a.len then a.get i else d) ∧
      (∃ r, Gen.KeyArray.copyOf2 d isEq a size () = .ok r () ∧ (r.len : Int) = size ∧
        ∀ i, 0 ≤ i → i < size → r.get i = if i < a.len then a.get i else d) ∧
      (∃ r, Gen.KeyArray.copyOf3 d isEq fuel a size v () = .ok r () ∧ (r.len : Int) = size ∧
        ∀ i, 0 ≤ i → i < size → r.get i = if i < a.len then a.get i else v)) ∧
    (size < 0 →
      Gen.KeyArray.create1 d isEq size () = .err .negativeArraySize () ∧
      Gen.KeyArray.create2 d isEq fuel size v () = .err .negativeArraySize () ∧
      Gen.KeyArray.resize d isEq a size () = .err .negativeArraySize () ∧
      Gen.KeyArray.copyOf2 d isEq a size () = .err .negativeArraySize () ∧
      Gen.KeyArray.copyOf3 d isEq fuel a size v () = .err .negativeArraySize ()) ∧
    (∃ r, Gen.KeyArray.fill2 d isEq fuel a v () = .ok r () ∧ r.len = a.len ∧
      ∀ i : Int, 0 ≤ i → i < a.len → r.get i = v) ∧
    (∀ start : Int, 0 ≤ start → start + size ≤ a.len →
      ∃ r, Gen.KeyArray.fill4 d isEq fuel a v start size () = .ok r () ∧ r.len = a.len ∧
        ∀ i : Int, 0 ≤ i → i < a.len →
          r.get i = if start ≤ i ∧ i < start + size then v else a.get i) ∧
    (∀ start : Int, 0 < size → ¬ (0 ≤ start ∧ start + size ≤ a.len) →
      Gen.KeyArray.fill4 d isEq fuel a v start size () = .err .indexOutOfBounds ()) := by
  have cp : ∀ (w : α), (0 ≤ size → ∃ r, copyOf a size w () = .ok r () ∧ (r.len : Int) = size ∧
      ∀ i, 0 ≤ i → i < size → r.get i = if i < a.len then a.get i else w) ∧
      (size < 0 → copyOf a size w () = .err .negativeArraySize ()) := by
    intro w
    constructor
    · intro h
      refine ⟨_, copyOf_ok _ _ h, by simp; omega, fun i h1 h2 => ?_⟩
      simp [Arr.get_copyOf]
    · intro h; unfold copyOf; exact if_neg (by omega)
  have lift : ∀ {m m' : Res Unit (Arr α)} {f : Int → α} {n : Int}, SameRes m m' →
      (∃ r, m' = .ok r () ∧ (r.len : Int) = n ∧ ∀ i, 0 ≤ i → i < n → r.get i = f i) →
      ∃ r, m = .ok r () ∧ (r.len : Int) = n ∧ ∀ i, 0 ≤ i → i < n → r.get i = f i := by
    rintro m m' f n hs ⟨r, h1, h2, h3⟩
    obtain ⟨b, hb, g1, g2⟩ := same_of hs h1
    refine ⟨b, hb, by omega, fun i h0 h4 => ?_⟩
    rw [g2 i h0 (by omega), h3 i h0 h4]
  refine ⟨fun h => ⟨?_, fun he => ?_, ?_, ?_, ?_⟩, fun h => ⟨?_, ?_, ?_, ?_, ?_⟩, ?_, ?_, ?_⟩
  · rw [create1_eq]; exact (C69_create size d).1 h
  · exact lift (create2_eq d isEq fuel size v () hs hf)
      (C69_create_filled_partial (isEq · d) d v size h he)
  · rw [resize_eq]; exact (C69_resize a size d).1 h
  · rw [copyOf2_eq]; exact (cp d).1 h
  · exact lift (copyOf3_eq d v isEq fuel a size () ha hs hf) ((cp v).1 h)
  · rw [create1_eq]; exact (C69_create size d).2 h
  · refine err_of (create2_eq d isEq fuel size v () hs hf) ?_
    unfold createFilled
    rw [JM.bind_err (s' := ()) (e := .negativeArraySize)]
    unfold newArr; exact if_neg (by omega)
  · rw [resize_eq]; exact (C69_resize a size d).2 h
  · rw [copyOf2_eq]; exact (cp d).2 h
  · exact err_of (copyOf3_eq d v isEq fuel a size () ha hs hf) ((cp v).2 h)
  · obtain ⟨r, h1, h2, h3⟩ := (C69_fill a v).1
    obtain ⟨b, hb, g1, g2⟩ := same_of (fill2_eq d isEq fuel a v () ha hf) h1
    exact ⟨b, hb, by omega, fun i h0 h4 => by rw [g2 i h0 (by omega), h3 i h0 (by omega)]⟩
  · intro start h0 h4
    obtain ⟨r, h1, h2, h3⟩ := (C69_fill a v).2.1 start size h0 h4
    obtain ⟨b, hb, g1, g2⟩ := same_of (fill4_eq d isEq fuel a v start size () ha hs hf) h1
    exact ⟨b, hb, by omega, fun i h5 h6 => by rw [g2 i h5 (by omega), h3 i]⟩
  · intro start h0 h4
    exact err_of (fill4_eq d isEq fuel a v start size () ha hs hf)
      ((C69_fill a v).2.2 start size h0 h4)

/-- C69 for arrays of references: the template instantiated for a generic element type, where `create` makes an
`Object[]`, does what the other instances do, so that C05, C06 and C69 above hold for it as well. -/
theorem C69_generated_of_references :
    @Gen.GenericArray.create1 = @Gen.KeyArray.create1 ∧
    @Gen.GenericArray.fill4 = @Gen.KeyArray.fill4 ∧
    @Gen.GenericArray.fill2 = @Gen.KeyArray.fill2 ∧
    @Gen.GenericArray.create2 = @Gen.KeyArray.create2 ∧
    @Gen.GenericArray.resize = @Gen.KeyArray.resize ∧
    @Gen.GenericArray.copyOf3 = @Gen.KeyArray.copyOf3 ∧
    @Gen.GenericArray.copyOf2 = @Gen.KeyArray.copyOf2 ∧
    @Gen.GenericArray.grow = @Gen.KeyArray.grow ∧
    @Gen.GenericArray.ensureSize2 = @Gen.KeyArray.ensureSize2 ∧
    @Gen.GenericArray.ensureSize3 = @Gen.KeyArray.ensureSize3 ∧
    @Gen.GenericArray.ensureEntry2 = @Gen.KeyArray.ensureEntry2 ∧
    @Gen.GenericArray.ensureEntry3 = @Gen.KeyArray.ensureEntry3 := by
  have l1 : @Gen.GenericArray.fill4_loop1 = @Gen.KeyArray.fill4_loop1 := by
    funext σ α d isEq v l n
    induction n with
    | zero => rfl
    | succ n ih => funext a i o; simp only [Gen.GenericArray.fill4_loop1, Gen.KeyArray.fill4_loop1, ih]
  have l2 : @Gen.GenericArray.grow_loop1 = @Gen.KeyArray.grow_loop1 := by
    funext σ α d isEq v n
    induction n with
    | zero => rfl
    | succ n ih => funext a; simp only [Gen.GenericArray.grow_loop1, Gen.KeyArray.grow_loop1, ih]
  have e1 : @Gen.GenericArray.fill4 = @Gen.KeyArray.fill4 := by
    unfold Gen.GenericArray.fill4 Gen.KeyArray.fill4; rw [l1]
  have e2 : @Gen.GenericArray.copyOf3 = @Gen.KeyArray.copyOf3 := by
    unfold Gen.GenericArray.copyOf3 Gen.KeyArray.copyOf3; rw [e1]
  have e3 : @Gen.GenericArray.grow = @Gen.KeyArray.grow := by
    unfold Gen.GenericArray.grow Gen.KeyArray.grow; rw [l2]
  have e4 : @Gen.GenericArray.fill2 = @Gen.KeyArray.fill2 := by
    unfold Gen.GenericArray.fill2 Gen.KeyArray.fill2; rw [e1]
  have e5 : @Gen.GenericArray.ensureSize2 = @Gen.KeyArray.ensureSize2 := by
    unfold Gen.GenericArray.ensureSize2 Gen.KeyArray.ensureSize2; rw [e3]; rfl
  have e6 : @Gen.GenericArray.ensureSize3 = @Gen.KeyArray.ensureSize3 := by
    unfold Gen.GenericArray.ensureSize3 Gen.KeyArray.ensureSize3; rw [e3, e2]
  refine ⟨rfl, e1, e4, ?_, rfl, e2, rfl, e3, e5, e6, ?_, ?_⟩
  · unfold Gen.GenericArray.create2 Gen.KeyArray.create2; rw [e4]
  · unfold Gen.GenericArray.ensureEntry2 Gen.KeyArray.ensureEntry2; rw [e5]
  · unfold Gen.GenericArray.ensureEntry3 Gen.KeyArray.ensureEntry3; rw [e6]

/- Non-vacuity: the generated code on concrete arrays. -/
example : (∃ r, Gen.KeyArray.ensureEntry3 (0 : Int) (· == ·) 70 ⟨3, fun i => i + 10⟩ 6 (-1) () = .ok r () ∧
    r.toList = [10, 11, 12, -1, -1, -1, -1, -1, -1, -1, -1, -1]) ∧
    Gen.KeyArray.grow (0 : Int) (· == ·) 70 100 3 () = .ok 192 () ∧
    (∃ r, Gen.KeyArray.create2 (0 : Int) (· == ·) 9 3 7 () = .ok r () ∧ r.toList = [7, 7, 7]) :=
  ⟨⟨_, rfl, by decide +kernel⟩, rfl, ⟨_, rfl, by decide +kernel⟩⟩

end Verif

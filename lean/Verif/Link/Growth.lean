import Verif.Proofs.Growth
import Verif.Link.DequeProps
import Verif.Link.HeapProps
/-! C109: how far deque, vector and heap grow, in the model and in the generated code. -/
namespace Verif
open GrowthSpec
variable {α : Type}

theorem Deque.new_pow {c : Int} {d : α} {s : Deque α} (h : Deque.new c d = .ok s) :
    (s.values.len : Int) = nextPowerOf2 c ∧ ∃ k, s.values.len = 2 ^ k := by
  have hi := (Deque.inv_new (ref := false) h).cap
  unfold Deque.new at h
  split at h
  · cases h
  · simp only at h
    split at h
    · cases h
    · rename_i h1 h2
      injection h with h
      subst h
      simp only [Arr.len_create] at hi ⊢
      unfold nextPowerOf2 at h2 hi ⊢
      rcases shl32_of_one (32 - numberOfLeadingZeros (i32 (c - 1))) with ⟨k, -, e⟩ | e
      · rw [e]; exact ⟨by omega, k, by omega⟩
      · rw [e] at h2; exact absurd (by decide) h2

/-- C109, deque: after every history the array has the least of the lengths `c`, `2c`, `4c`, ... that is more than
the largest number of values the deque held, where `c` is the power of two next to the capacity asked for. -/
theorem C109_deque (ref : Bool) (d : α) (c : Int) (s : Deque α) (hnew : Deque.new c d = .ok s) (ops : List (Deque.Op α))
    (hb : Allowed DequeSpec.step DequeSpec.Bounded [] ops) :
    LeastDoubling (nextPowerOf2 c).toNat (DequeSpec.peak [] ops + 1) (runM (Deque.step ref d) s ops).2.values.len := by
  obtain ⟨h1, k, h2⟩ := Deque.new_pow hnew
  have := Deque.history_len ops (Deque.inv_new (ref := ref) hnew) h2 hb
  rwa [← h1, Int.toNat_natCast]

/-- C109, vector: after every history the array has the least of the lengths `c`, `2c`, `4c`, ... that is at least the
largest number of elements the vector had, and at least every size `ensureSize` was given; `c` is the initial
capacity. -/
theorem C109_vector (ref : Bool) (d : α) (c : Int) (s : Vec α) (hnew : Vec.new c d = .ok s) (ops : List (Vec.Op α))
    (hb : Allowed VecSpec.step VecSpec.Legal [] ops) :
    LeastDoubling c.toNat (vectorPeak [] ops) (runM (Vec.step ref d) s ops).2.values.len := by
  have hl : s.values.len = c.toNat ∧ 1 ≤ s.values.len := by
    unfold Vec.new at hnew
    split at hnew
    · cases hnew
    · injection hnew with hnew; subst hnew; simp; omega
  have := Vec.history_len ops (Vec.inv_new (ref := ref) hnew) hl.2 hb
  rwa [hl.1] at this

section Heap
open HeapSpec Heap
variable {K V : Type} [BEq K] [BEq V]

/-- C109, heap: after every history in which it never has more than 2^28 entries, `getCapacity` is the least of `n`,
`2n`, `4n`, ... that is at least the largest number of entries the heap had; `n` is the initial capacity. -/
theorem C109_heap {c : Comparator K} {dk : K} {dv : V} {n : Int} (hn : 1 ≤ n) {ops : List (Op K V)}
    (hg : Guarded (empty c dk dv n) ops) {s : Heap K V} (hs : afterRun c dk dv n ops = some s)
    (hp : heapPeak (empty c dk dv n) ops ≤ 2 ^ 28) :
    ∃ m : Nat, (step .getCapacity s).out = .ok (.int m) ∧
      LeastDoubling n.toNat (heapPeak (empty c dk dv n) ops) m := by
  obtain ⟨h1, -⟩ := afterRun_spec hs hg
  obtain ⟨h2, h3⟩ := history_cap ops (a := empty c dk dv n) hn (by simp [empty]; omega) hp
  have ho := (HeapProof.step_spec h1 .getCapacity trivial).1
  refine ⟨_, ?_, h2⟩
  have ho : (step .getCapacity s).out = .ok (.int (ideal (empty c dk dv n) ops).cap) := ho
  rw [ho, Int.toNat_of_nonneg (by omega)]

end Heap

/-- C109 for the generated deque. -/
theorem C109_generated_deque (fuel : Nat) (hf : 2 ^ 31 ≤ fuel) (ref : Bool) (d : α) (c : Int)
    (z s : Deque α) (u : Unit) (hnew : Gen.KeyDeque.init ref d c z = .ok u s) (ops : List (Deque.Op α))
    (hb : Allowed DequeSpec.step DequeSpec.Bounded [] ops) :
    LeastDoubling (nextPowerOf2 c).toNat (DequeSpec.peak [] ops + 1)
      (runM (Link.Deque.step fuel ref d) s ops).2.values.len := by
  have hm := Link.Deque.made hnew
  rw [Link.Deque.history_eq fuel hf ref d c s hm ops hb]
  exact C109_deque ref d c s hm ops hb

/-- C109 for the generated vector. -/
theorem C109_generated_vector (fuel : Nat) (hf : 2 ^ 31 ≤ fuel) (ref : Bool) (d : α) (c : Int)
    (z s : Vec α) (u : Unit) (hnew : Gen.KeyVector.init ref d c z = .ok u s) (ops : List (Vec.Op α))
    (hb : Allowed VecSpec.step VecSpec.Legal [] ops) :
    LeastDoubling c.toNat (vectorPeak [] ops) (runM (Link.Vec.step fuel ref d) s ops).2.values.len := by
  have hm := Link.Vec.made hnew
  rw [Link.Vec.history_eq fuel hf ref d c s hm ops hb]
  exact C109_vector ref d c s hm ops hb

/-- C109 for the generated heap. -/
theorem C109_generated_heap {K V : Type} [BEq K] [BEq V] {fuel : Nat} (hfu : 2 ^ 31 ≤ fuel) {c : Comparator K} {dk : K}
    {dv : V} {n : Int} (hn : 1 ≤ n ∧ n < 2 ^ 31) {ops : List (Heap.Op K V)} (hg : HeapSpec.Guarded (HeapSpec.empty c dk dv n) ops)
    {s : Heap K V} (hs : Link.HeapL.Made fuel c dk dv n ops s) (hp : heapPeak (HeapSpec.empty c dk dv n) ops ≤ 2 ^ 28) :
    ∃ m : Nat, (Link.HeapL.step fuel .getCapacity s).out = .ok (.int m) ∧
      LeastDoubling n.toNat (heapPeak (HeapSpec.empty c dk dv n) ops) m := by
  have hm := hs.model hfu hn.2 hg
  rw [Link.HeapL.eq1 hfu hn.2 hg hm .getCapacity trivial]
  exact C109_heap hn.1 hg hm hp

/- Non-vacuity: a deque of capacity 3 (4 cells) that held 5 values has 8 cells, also after they are gone. -/
example : (match Gen.KeyDeque.init false (0 : Int) 3 ⟨Arr.create 0 0, 7, 7, 7⟩ with
    | .ok _ s =>
      let ops : List (Deque.Op Int) := [.addLast 1, .addLast 2, .addFirst 3, .addLast 4, .addLast 5, .removeLast, .clear, .addLast 6]
      some ((nextPowerOf2 3).toNat, DequeSpec.peak [] ops, (runM (Link.Deque.step 50 false 0) s ops).2.values.len)
    | _ => none) = some (4, 5, 8) := by decide +kernel
example : LeastDoubling 4 (5 + 1) 8 := .of (k := 1) rfl (by omega) (.inr (by decide))

/- A vector of capacity 3 that was asked for 20 cells has 24. -/
example : (match Gen.KeyVector.init false (0 : Int) 3 ⟨Arr.create 0 0, 7, 7⟩ with
    | .ok _ s =>
      let ops : List (Vec.Op Int) := [.append 1, .append 2, .append 3, .append 4, .ensureSize 20, .clear, .append 1]
      some (vectorPeak [] ops, (runM (Link.Vec.step 50 false 0) s ops).2.values.len)
    | _ => none) = some (20, 24) := by decide +kernel
example : LeastDoubling 3 20 24 := .of (k := 3) rfl (by omega) (.inr (by decide))

/- A heap of capacity 3 that had 4 entries has capacity 6. -/
example : Link.HeapL.results 3 [.insert 5, .insert 3, .insert 2, .removeAt 0, .insert 4, .insert 1, .clear, .insert 7, .getCapacity] =
    some [.ok (.int 0), .ok (.int 1), .ok (.int 2), .ok .unit, .ok (.int 0), .ok (.int 3), .ok .unit, .ok (.int 0),
      .ok (.int 6)] := by decide +kernel

end Verif

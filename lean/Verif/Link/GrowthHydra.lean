import Verif.Proofs.GrowthHydra
import Verif.Link.HydraProps
/-! C112: how much storage the multi-headed deque takes, in the model and in the generated code. -/
namespace Verif
open Hydra HydraSpec GrowthSpec
variable {α : Type}

/-- C112: the entries `addFirst` and `addLast` handed out are exactly 0, 1, ..., n-1, where n adds up, over the stretches
between `clear`s, the largest number of values all lists together held in the stretch. -/
theorem C112_entries (d : α) (q c : Int) (s : Hydra α) (hnew : Hydra.new q c d = .ok s) (ops : List (Op α))
    (hf : Fits ops) (e : Int) :
    .ok (.entry e) ∈ (runM (Hydra.step d) s ops).1 ↔ 0 ≤ e ∧ e < hydraSpent Family.empty 0 ops := by
  have hs := spent_run ops (Stored.empty (α := α)) 0 (by simp [Stored.empty])
  rw [forget_empty] at hs
  simp only [Stored.empty, Int.zero_add, Int.sub_zero] at hs
  rw [(run_spec hnew hf).1, ← hs]
  obtain ⟨-, r2, r3⟩ := seen_run ops (a := Stored.empty (α := α)) ⟨by simp [Stored.empty], by simp [Stored.empty], by simp [Stored.empty]⟩
  exact ⟨r2 e, fun h => r3 e h.1 h.2⟩

theorem Hydra.new_grown {d : α} {q c : Int} {s : Hydra α} (h : Hydra.new q c d = .ok s) :
    1 ≤ (nextPowerOf2 c).toNat ∧ Grown (nextPowerOf2 c).toNat s := by
  unfold Hydra.new at h
  split at h
  · cases h
  · simp only at h
    split at h
    · cases h
    · rename_i h1 h2
      injection h with h
      subst h
      have hp : 1 ≤ nextPowerOf2 c := by
        unfold nextPowerOf2 at h2 ⊢
        rcases shl32_of_one (32 - numberOfLeadingZeros (i32 (c - 1))) with ⟨k, -, e⟩ | e
        · rw [e]; have := Nat.two_pow_pos k; omega
        · rw [e] at h2; exact absurd (.inr (by decide)) h2
      refine ⟨by omega, by simp, fun _ => ?_⟩
      simp only [Arr.len_create]
      exact ⟨⟨0, by simp⟩, by simp, fun j _ => Nat.le_mul_of_pos_right _ (Nat.two_pow_pos j)⟩

/-- C112: after every history the value array has the least of the lengths `c`, `2c`, `4c`, ... that is at least that
number of entries, where `c` is the power of two next to the capacity asked for. -/
theorem C112_length (d : α) (q c : Int) (s : Hydra α) (hnew : Hydra.new q c d = .ok s) (ops : List (Op α))
    (hf : Fits ops) :
    LeastDoubling (nextPowerOf2 c).toNat (hydraSpent Family.empty 0 ops).toNat (runM (Hydra.step d) s ops).2.values.len := by
  have hs := spent_run ops (Stored.empty (α := α)) 0 (by simp [Stored.empty])
  rw [forget_empty] at hs
  simp only [Stored.empty, Int.zero_add, Int.sub_zero] at hs
  obtain ⟨h1, h2⟩ := new_grown hnew
  have hi := (run_spec hnew hf).2
  have hg := (grown_run h1 d ops s h2).2
  have hb := Link.HydraL.bounds_run ops (Stored.empty (α := α))
  have hf2 := hf.2
  simp only [Stored.empty] at hb
  have hx := hi.nx
  simp only [Stored.empty] at hx
  have := hg (by rw [hx]; omega)
  rwa [hx, hs] at this

/-- C112: without `clear`, that is the largest number of values the lists held together; freed cells are used again before
new ones are taken. -/
theorem C112_without_clear (ops : List (Op α)) (hc : .clear ∉ ops) :
    hydraSpent Family.empty 0 ops =
      ((List.range (ops.length + 1)).map fun k => (runS HydraSpec.step Family.empty (ops.take k)).2.total).foldl max 0 := by
  have key : ∀ (ops : List (Op α)) (a : Family α) (p : Int), .clear ∉ ops →
      hydraSpent a p ops = ((List.range ops.length).map fun k =>
        (runS HydraSpec.step a (ops.take (k + 1))).2.total).foldl max p := by
    intro ops
    induction ops with
    | nil => intro a p _; rfl
    | cons o ops ih =>
      intro a p hc
      have ho : o ≠ .clear := fun h => hc (by simp [h])
      have : hydraSpent a p (o :: ops) =
          hydraSpent (HydraSpec.step o a).2 (max p (HydraSpec.step o a).2.total) ops := by
        cases o <;> first | exact absurd rfl ho | rfl
      rw [this, ih _ _ (fun h => hc (by simp [h])), List.length_cons, List.range_succ_eq_map]
      simp only [List.map_cons, List.foldl_cons, List.map_map]
      rfl
  rw [key ops _ 0 hc, List.range_succ_eq_map]
  simp only [List.map_cons, List.foldl_cons, List.map_map]
  rfl

/-- C112 for the generated code. -/
theorem C112_generated {fuel : Nat} (hfu : 2 ^ 31 ≤ fuel) {d : α} {q c : Int} {s₀ : Hydra α} {ops : List (Op α)}
    (hf : Fits ops) {rs : List (Except Err (Out α))} {s : Hydra α}
    (h : Link.HydraL.afterRun fuel d q c s₀ ops = some (rs, s)) :
    (∀ e, .ok (.entry e) ∈ rs ↔ 0 ≤ e ∧ e < hydraSpent Family.empty 0 ops) ∧
    LeastDoubling (nextPowerOf2 c).toNat (hydraSpent Family.empty 0 ops).toNat s.values.len := by
  obtain ⟨s0, h0, h1⟩ := Link.HydraL.afterRun_model hfu hf h
  have k1 := C112_entries d q c s0 h0 ops hf
  have k2 := C112_length d q c s0 h0 ops hf
  rw [h1] at k1 k2
  exact ⟨k1, k2⟩

/- Non-vacuity: three values, one removed, one added again (its cell is reused), `clear`, two values: 3 + 2 entries, and
an array that began with 2 cells has 8. -/
example : (let ops : List (Op Int) := [.addLast 0 1, .addFirst 1 2, .addLast 0 3, .removeFirst 0, .addLast 2 4, .clear,
      .addLast 1 5, .addLast 1 6]
    match Link.HydraL.afterRun 50 (0 : Int) 1 2 ⟨Arr.create 0 0, Arr.create 0 0, Arr.create 0 0, Arr.create 0 0,
        Arr.create 0 0, Arr.create 0 0, 7, 7, 7⟩ ops with
    | some (rs, s) => some (rs, hydraSpent Family.empty 0 ops, s.values.len)
    | none => none) = some ([.ok (.entry 0), .ok (.entry 1), .ok (.entry 2), .ok (.val 1), .ok (.entry 0), .ok .unit,
      .ok (.entry 3), .ok (.entry 4)], 5, 8) := by rfl
example : LeastDoubling 2 5 8 := .of (k := 2) rfl (by omega) (.inr (by decide))

end Verif

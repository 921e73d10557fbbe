import Verif.Link.Stores
import Verif.Link.Keeps
/-! C10 and C12 for the code generated from KeyChunkStore.ftl and KeyChunkMatrixStore.ftl. -/
namespace Verif
variable {α : Type}

open ChunkStore in
/-- C10 for the generated code (power-of-two chunk sizes as in C09): what `getCapacity` answers after every legal
history is a whole number of chunks, at least the initial size, more than every index that was set, and no more than
it answers later. -/
theorem C10_generated_capacity_partial (fuel : Nat) (hf : 2 ^ 31 ≤ fuel) (k : Nat) (hk : k ≤ 30) (initialSize : Int)
    (hn : initialSize ≤ 2 ^ 30) (d : α) (s₀ s : ChunkStore α) (h0 : s₀.limit = 0) (u : Unit)
    (hnew : Gen.KeyChunkStore.init d initialSize (2 ^ k : Nat) s₀ = .ok u s) (ops more : List (Op α))
    (hb : Allowed ChunkStoreSpec.step ChunkStoreSpec.Legal (fun _ => d) (ops ++ more)) :
    ∃ c c', Gen.KeyChunkStore.getCapacity d (runM (Link.ChunkStore.step fuel d) s ops).2 =
        .ok c (runM (Link.ChunkStore.step fuel d) s ops).2 ∧
      Gen.KeyChunkStore.getCapacity d (runM (Link.ChunkStore.step fuel d) s (ops ++ more)).2 =
        .ok c' (runM (Link.ChunkStore.step fuel d) s (ops ++ more)).2 ∧
      (∃ n : Nat, c = n * (2 ^ k : Nat)) ∧ initialSize ≤ c ∧ (∀ i ∈ setIndexes ops, i < c) ∧ c ≤ c' := by
  rcases Link.ChunkStore.init_eq d initialSize (2 ^ k : Nat) s₀ h0 (by omega) with ⟨s1, t, e1, e2, hr⟩ | ⟨e, s1, e1, e2⟩
  · rw [e1] at hnew
    injection hnew with _ hs
    subst hs
    obtain ⟨k1, k2, k3, k4, _⟩ := C10_capacity k hk initialSize hn d t e2 ops more hb
    have r1 := (Link.runM_bisim (fun s t o h => Link.ChunkStore.step_eq fuel hf d s t o h) ops _ t hr).2.capacity
    have r2 := (Link.runM_bisim (fun s t o h => Link.ChunkStore.step_eq fuel hf d s t o h) (ops ++ more) _ t hr).2.capacity
    refine ⟨_, _, rfl, rfl, ?_⟩
    rw [r1, r2]
    exact ⟨k1, k2, k3, k4⟩
  · rw [e1] at hnew; cases hnew

/-- Five cells in chunks of four, then a set at 9: the capacity goes from 8 to 12. -/
example : ∃ s : ChunkStore Int, Gen.KeyChunkStore.init 0 5 4 ⟨5, 5, 5, Arr.create 0 (Arr.create 0 0), 5, 0⟩ = .ok () s ∧
    (Gen.KeyChunkStore.getCapacity 0 s).out = .ok 8 ∧
    (Gen.KeyChunkStore.getCapacity 0 (runM (Link.ChunkStore.step 50 0) s [.set 9 5]).2).out = .ok 12 :=
  ⟨_, rfl, by decide +kernel, by decide +kernel⟩

/-- C10 refuted for the generated code: a store asked for `Integer.MAX_VALUE` cells in chunks of 2 says its capacity
is negative, and every `get` gives the default. -/
theorem C10_generated_overflow_refuted (d : α) (s₀ : ChunkStore α) (h0 : s₀.limit = 0) :
    ∃ s, Gen.KeyChunkStore.init d MAX_INT 2 s₀ = .ok () s ∧
      Gen.KeyChunkStore.getCapacity d s = .ok (-2147483648) s ∧
      ∀ i : Int, 0 ≤ i → Gen.KeyChunkStore.getElem d i s = .ok d s := by
  obtain ⟨t, ht, hc, hg⟩ := C10_overflow_refuted d
  rcases Link.ChunkStore.init_eq d MAX_INT 2 s₀ h0 (by unfold MAX_INT; omega) with ⟨s1, t1, e1, e2, hr⟩ | ⟨e, s1, e1, e2⟩
  · rw [ht] at e2
    injection e2 with e2
    subst e2
    refine ⟨s1, e1, ?_, fun i hi => ?_⟩
    · rw [← hc, ← hr.capacity]; rfl
    · rcases Link.ChunkStore.get_eq d i hr with ⟨v, k1, k2⟩ | ⟨e, k1, k2⟩
      · rw [hg i hi] at k2; injection k2 with k2; rw [k1, k2]
      · rw [hg i hi] at k2; cases k2
  · rw [ht] at e2; cases e2

namespace Link.MatrixStore

/-- `s` was made by the generated constructor with `nf` fields and any calls of generated methods. -/
def Made (fuel : Nat) (d : α) (nf : Int) (s : MatrixStore α) : Prop :=
  nf < 2 ^ 31 ∧ ∃ initialSize chunkSize s₀ s₁ ops,
    Gen.KeyChunkMatrixStore.init d initialSize chunkSize nf s₀ = .ok () s₁ ∧ s = (runM (step fuel d) s₁ ops).2

theorem keeps_wr (nf : Int) (i : Int) (v : Arr α) : Keeps (fun s : MatrixStore α => s.numFields = nf)
    (wr MatrixStore.chunks (fun self a => { self with chunks := a }) i v) :=
  .wr (fun s x (h : s.numFields = nf) _ => (h : ({ s with chunks := x } : MatrixStore α).numFields = nf)) i v

theorem keeps_loop (d : α) (nf : Int) : ∀ n i,
    Keeps (fun s : MatrixStore α => s.numFields = nf) (Gen.KeyChunkMatrixStore.grow_loop1 d n i)
  | 0, _ => .throw _
  | n + 1, i => .bind .get fun s => .ite
      (.bind (.same fun s => by unfold newArr; split <;> rfl) fun _ =>
        .bind (keeps_wr nf _ _) fun _ => keeps_loop d nf n _) (.pure _)

theorem keeps_set (fuel : Nat) (d : α) (nf : Int) (r f : Int) (v : α) :
    Keeps (fun s : MatrixStore α => s.numFields = nf) (Gen.KeyChunkMatrixStore.setElem d fuel r f v) := by
  refine .bind .get fun s' => .bind (.same fun s => ?_) fun _ => .bind .get fun _ => .bind (.ite (.bind ?_ fun _ => .pure _)
    (.pure _)) fun _ => .bind .get fun _ => .bind (.rd _) fun _ => .bind (.same fun s => ?_) fun _ =>
      .bind (keeps_wr nf _ _) fun _ => .pure _
  · unfold Gen.RangeCheckException.assertWithinRange
    rw [JM.bind_apply, Link.ite_apply]
    by_cases hc : (decide (f < 0) || decide (f > i32 (s'.numFields - 1))) = true
    · rw [if_pos hc]; rfl
    · rw [if_neg hc]; rfl
  · refine .bind .get fun _ => .bind (.same fun s => ?_) fun _ => .bind (.modify fun _ h => h) fun _ =>
      .bind (keeps_loop d nf _ _) fun _ => .bind .get fun _ => .bind (.modify fun _ h => h) fun _ => .pure _
    unfold copyOf; split <;> rfl
  · unfold Verif.Gen.wrA; split <;> rfl

theorem keeps_get (d : α) (nf : Int) (r f : Int) :
    Keeps (fun s : MatrixStore α => s.numFields = nf) (Gen.KeyChunkMatrixStore.getElem d r f) := by
  refine .bind .get fun s' => .bind (.same fun s => ?_) fun _ => .bind .get fun _ => .ite (.pure _)
    (.bind (.rd _) fun _ => .rdA _ _)
  unfold Gen.RangeCheckException.assertWithinRange
  rw [JM.bind_apply, Link.ite_apply]
  by_cases hc : (decide (f < 0) || decide (f > i32 (s'.numFields - 1))) = true
  · rw [if_pos hc]; rfl
  · rw [if_neg hc]; rfl

theorem made_inv {fuel : Nat} (hf : 2 ^ 31 ≤ fuel) {d : α} {nf : Int} {s : MatrixStore α} (h : Made fuel d nf s) :
    ∃ t, R s t ∧ t.numFields = nf := by
  obtain ⟨hn, initialSize, chunkSize, s₀, s₁, ops, h1, rfl⟩ := h
  rcases init_eq d initialSize chunkSize nf s₀ hn with ⟨s1, t, e1, e2, hr⟩ | ⟨e, s1, e1, e2⟩
  · rw [e1] at h1
    injection h1 with _ hs
    subst hs
    have hr' := (Link.runM_bisim (fun s t o h => step_eq fuel hf d s t o h) ops _ t hr).2
    refine ⟨_, hr', ?_⟩
    rw [← hr'.nf]
    have h0 : s1.numFields = nf := by
      rw [hr.nf]
      unfold MatrixStore.new at e2
      split at e2; · cases e2
      split at e2; · cases e2
      split at e2; · cases e2
      dsimp only at e2
      split at e2; · cases e2
      injection e2 with e2
      rw [← e2]
    have key : ∀ (ops : List (MatrixStore.Op α)) (s : MatrixStore α), s.numFields = nf →
        (runM (step fuel d) s ops).2.numFields = nf := by
      intro ops
      induction ops with
      | nil => intro s h; exact h
      | cons o os ih =>
        intro s h
        refine ih _ ?_
        cases o with
        | get r f =>
          exact (Keeps.bind (keeps_get d nf r f) fun _ => .pure _) s h
        | set r f v => exact (Keeps.bind (keeps_set fuel d nf r f v) fun _ => .pure _) s h
    exact key ops s1 h0
  · rw [e1] at h1; cases h1

end Link.MatrixStore

/-- C12 for the generated code: after any history, both calls throw RangeCheckException exactly for the fields outside
`[0, numFields)`, and the store is exactly as before. -/
theorem C12_generated_bad_field (fuel : Nat) (hf : 2 ^ 31 ≤ fuel) (d v : α) (nf : Int) (s : MatrixStore α)
    (h : Link.MatrixStore.Made fuel d nf s) (row field : Int) :
    (field < 0 ∨ nf ≤ field → Gen.KeyChunkMatrixStore.getElem d row field s = .err .rangeCheck s ∧
      Gen.KeyChunkMatrixStore.setElem d fuel row field v s = .err .rangeCheck s) ∧
    ∀ s', Gen.KeyChunkMatrixStore.getElem d row field s = .err .rangeCheck s' ∨
      Gen.KeyChunkMatrixStore.setElem d fuel row field v s = .err .rangeCheck s' → field < 0 ∨ nf ≤ field := by
  obtain ⟨t, hr, rfl⟩ := Link.MatrixStore.made_inv hf h
  have hnf := hr.nf
  have hfl := hr.fields
  refine ⟨fun hb => ?_, fun s' hs => ?_⟩
  · have en : i32 (s.numFields - 1) = s.numFields - 1 := i32_of_range (by omega)
    have er : (Gen.RangeCheckException.assertWithinRange 0 (i32 (s.numFields - 1)) field : JM (MatrixStore α) Unit) s =
        .err .rangeCheck s := by
      rw [en]
      unfold Gen.RangeCheckException.assertWithinRange
      rw [JM.bind_apply, Link.ite_apply, if_pos (by simp; omega)]
      rfl
    constructor
    · unfold Gen.KeyChunkMatrixStore.getElem
      rw [JM.bind_ok (JM.get_apply _), JM.bind_err er]
    · unfold Gen.KeyChunkMatrixStore.setElem
      rw [JM.bind_ok (JM.get_apply _), JM.bind_err er]
  · rcases hs with hs | hs
    · rcases Link.MatrixStore.get_eq d row field hr with ⟨w, k1, k2⟩ | ⟨e, k1, k2⟩
      · rw [k1] at hs; cases hs
      · rw [k1] at hs
        injection hs with he
        subst he
        exact C12_only_bad_field d v t t row field (.inl k2)
    · rcases Link.MatrixStore.set_eq d fuel hf row field v hr with ⟨w, t', k1, k2, k3⟩ | ⟨e, w, t', k1, k2, k3⟩
      · rw [k1] at hs; cases hs
      · rw [k1] at hs
        injection hs with he
        subst he
        exact C12_only_bad_field d v t t' row field (.inr k2)

/-- C12 for the generated code: reading a row at or beyond what `getCapacity` answers gives the default and changes
nothing. -/
theorem C12_generated_get_beyond (fuel : Nat) (hf : 2 ^ 31 ≤ fuel) (d : α) (nf : Int) (s : MatrixStore α)
    (h : Link.MatrixStore.Made fuel d nf s) (row field : Int) (hb : 0 ≤ field ∧ field < nf) :
    ∃ c, Gen.KeyChunkMatrixStore.getCapacity d s = .ok c s ∧
      (c ≤ row → Gen.KeyChunkMatrixStore.getElem d row field s = .ok d s) := by
  obtain ⟨t, hr, rfl⟩ := Link.MatrixStore.made_inv hf h
  refine ⟨_, rfl, fun hc => ?_⟩
  have := C12_get_beyond d t row field hb (by rw [← hr.capacity]; exact hc)
  rcases Link.MatrixStore.get_eq d row field hr with ⟨w, k1, k2⟩ | ⟨e, k1, k2⟩
  · rw [this] at k2; injection k2 with k2; rw [k1, k2]
  · rw [this] at k2; cases k2

/-- Three fields, after a set: field 3 is refused, and a row beyond the capacity reads as the default. -/
example : ∃ s : MatrixStore Int, Link.MatrixStore.Made 50 0 3 s ∧
    (Gen.KeyChunkMatrixStore.getElem 0 1 3 s).out = .error .rangeCheck ∧
    (Gen.KeyChunkMatrixStore.getElem 0 1 2 s).out = .ok 7 ∧
    (Gen.KeyChunkMatrixStore.getCapacity 0 s).out = .ok 2 ∧ (Gen.KeyChunkMatrixStore.getElem 0 2 2 s).out = .ok 0 :=
  ⟨_, ⟨by decide, 1, 4, ⟨5, 5, 5, 5, Arr.create 0 (Arr.create 0 0), 0⟩, _, [.set 1 2 7], rfl, rfl⟩,
    by decide +kernel, by decide +kernel, by decide +kernel, by decide +kernel⟩

end Verif

import Verif.Link.StoresProps
import Verif.Props.StoresAny
/-! C110, C111 and C10 for every chunk size, for the code generated from KeyChunkStore.ftl and KeyChunkMatrixStore.ftl. -/
namespace Verif
variable {α : Type}

open ChunkStore in
/-- C110 for the generated code: for every chunk size from 1 to 2^30, every history gives what an array gives in which
`set` writes all the indexes that share a cell. -/
theorem C110_generated_chunkStore_any (fuel : Nat) (hf : 2 ^ 31 ≤ fuel) (c : Int) (k : Nat) (h1 : 1 ≤ c)
    (h2 : c ≤ 2 ^ 30) (hr : RoundsTo c k) (initialSize : Int) (hn : initialSize ≤ 2 ^ 30) (d : α)
    (s₀ s : ChunkStore α) (h0 : s₀.limit = 0) (u : Unit)
    (hnew : Gen.KeyChunkStore.init d initialSize c s₀ = .ok u s) (ops : List (Op α))
    (hb : ∀ o ∈ ops, ∀ f : Int → α, ChunkStoreSpec.Legal o f) :
    (runM (Link.ChunkStore.step fuel d) s ops).1 =
      (runS (ChunkStoreSpec.stepAny c k) (fun _ => d) ops).1 := by
  obtain ⟨t, ht, h⟩ :=
    (C09_generated_chunkStore_model fuel hf d initialSize c (by omega) s₀ h0).1 s u hnew
  rw [h ops]
  exact C110_chunkStore_any c k h1 h2 hr initialSize hn d t ht ops hb

open ChunkStore in
/-- C110 for the generated code: C09 for every chunk size, when no two indexes of the history share a cell. -/
theorem C110_generated_no_shared_cell (fuel : Nat) (hf : 2 ^ 31 ≤ fuel) (c : Int) (k : Nat) (h1 : 1 ≤ c)
    (h2 : c ≤ 2 ^ 30) (hr : RoundsTo c k) (initialSize : Int) (hn : initialSize ≤ 2 ^ 30) (d : α)
    (s₀ s : ChunkStore α) (h0 : s₀.limit = 0) (u : Unit)
    (hnew : Gen.KeyChunkStore.init d initialSize c s₀ = .ok u s) (ops : List (Op α))
    (hb : ∀ o ∈ ops, ∀ f : Int → α, ChunkStoreSpec.Legal o f)
    (hx : ∀ o ∈ ops, ∀ o' ∈ ops, SameCell c k (opIndex o) (opIndex o') → opIndex o = opIndex o') :
    (runM (Link.ChunkStore.step fuel d) s ops).1 = (runS ChunkStoreSpec.step (fun _ => d) ops).1 := by
  obtain ⟨t, ht, h⟩ :=
    (C09_generated_chunkStore_model fuel hf d initialSize c (by omega) s₀ h0).1 s u hnew
  rw [h ops]
  exact C110_no_shared_cell c k h1 h2 hr initialSize hn d t ht ops hb hx

/-- Chunk size 3: 0 and 1 share a cell, 2 and 3 share one, 4 does not share one with them. -/
example : ∃ s : ChunkStore Int, Gen.KeyChunkStore.init 0 1 3 ⟨5, 5, 5, Arr.create 0 (Arr.create 0 0), 5, 0⟩ = .ok () s ∧
    (runM (Link.ChunkStore.step 50 0) s [.set 0 7, .set 1 8, .get 0, .get 3, .set 2 9, .get 3, .get 4]).1 =
      [.ok none, .ok none, .ok (some 8), .ok (some 0), .ok none, .ok (some 9), .ok (some 0)] := ⟨_, rfl, rfl⟩

open ChunkStore in
/-- C10 for the generated code, for every chunk size from 1 to 2^30. -/
theorem C10_generated_capacity_any (fuel : Nat) (hf : 2 ^ 31 ≤ fuel) (c : Int) (k : Nat) (h1 : 1 ≤ c)
    (h2 : c ≤ 2 ^ 30) (hr : RoundsTo c k) (initialSize : Int) (hn : initialSize ≤ 2 ^ 30) (d : α)
    (s₀ s : ChunkStore α) (h0 : s₀.limit = 0) (u : Unit)
    (hnew : Gen.KeyChunkStore.init d initialSize c s₀ = .ok u s) (ops more : List (Op α))
    (hb : ∀ o ∈ ops ++ more, ∀ f : Int → α, ChunkStoreSpec.Legal o f) :
    ∃ n n', Gen.KeyChunkStore.getCapacity d (runM (Link.ChunkStore.step fuel d) s ops).2 =
        .ok n (runM (Link.ChunkStore.step fuel d) s ops).2 ∧
      Gen.KeyChunkStore.getCapacity d (runM (Link.ChunkStore.step fuel d) s (ops ++ more)).2 =
        .ok n' (runM (Link.ChunkStore.step fuel d) s (ops ++ more)).2 ∧
      (∃ q : Nat, n = q * (2 ^ k : Nat)) ∧ initialSize ≤ n ∧ (∀ i ∈ setIndexes ops, i < n) ∧ n ≤ n' := by
  rcases Link.ChunkStore.init_eq d initialSize c s₀ h0 (by omega) with ⟨s1, t, e1, e2, hr'⟩ | ⟨e, s1, e1, e2⟩
  · rw [e1] at hnew
    injection hnew with _ hs
    subst hs
    obtain ⟨k1, k2, k3, k4, _⟩ := C10_capacity_any c k h1 h2 hr initialSize hn d t e2 ops more hb
    have r1 := (Link.runM_bisim (fun s t o h => Link.ChunkStore.step_eq fuel hf d s t o h) ops _ t hr').2.capacity
    have r2 := (Link.runM_bisim (fun s t o h => Link.ChunkStore.step_eq fuel hf d s t o h) (ops ++ more) _ t hr').2.capacity
    refine ⟨_, _, rfl, rfl, ?_⟩
    rw [r1, r2]
    exact ⟨k1, k2, k3, k4⟩
  · rw [e1] at hnew; cases hnew

open MatrixStore in
/-- C111 for the generated code. -/
theorem C111_generated_matrixStore_any (fuel : Nat) (hf : 2 ^ 31 ≤ fuel) (c : Int) (k : Nat) (h2 : c ≤ 2 ^ 30)
    (hr : RoundsTo c k) (initialSize nf : Int) (hn : initialSize * nf ≤ 2 ^ 30) (hi : nf < 2 ^ 31) (d : α)
    (s₀ s : MatrixStore α) (u : Unit)
    (hnew : Gen.KeyChunkMatrixStore.init d initialSize c nf s₀ = .ok u s) (ops : List (Op α))
    (hb : ∀ o ∈ ops, ∀ f : Int → Int → α, MatrixStoreSpec.Legal nf o f) :
    let spec := runS (MatrixStoreSpec.stepAny d nf c k) (MatrixStoreSpec.room nf k initialSize, fun _ _ => d) ops
    (runM (Link.MatrixStore.step fuel d) s ops).1 = spec.1 ∧
      Gen.KeyChunkMatrixStore.getCapacity d (runM (Link.MatrixStore.step fuel d) s ops).2 =
        .ok spec.2.1 (runM (Link.MatrixStore.step fuel d) s ops).2 := by
  rcases Link.MatrixStore.init_eq d initialSize c nf s₀ hi with ⟨s1, t, e1, e2, hr'⟩ | ⟨e, s1, e1, e2⟩
  · rw [e1] at hnew
    injection hnew with _ hs
    subst hs
    obtain ⟨k1, k2⟩ := C111_matrixStore_any c k h2 hr initialSize nf hn d t e2 ops hb
    have r := Link.runM_bisim (fun s t o h => Link.MatrixStore.step_eq fuel hf d s t o h) ops _ t hr'
    refine ⟨r.1.trans k1, ?_⟩
    have hc := r.2.capacity
    injection k2 with k2
    rw [← k2]
    show Res.ok _ _ = _
    rw [hc]
  · rw [e1] at hnew; cases hnew

open MatrixStore in
/-- C111 for the generated code: the capacity never shrinks and exceeds every row that was set. -/
theorem C111_generated_capacity (fuel : Nat) (hf : 2 ^ 31 ≤ fuel) (c : Int) (k : Nat) (h2 : c ≤ 2 ^ 30)
    (hr : RoundsTo c k) (initialSize nf : Int) (hn : initialSize * nf ≤ 2 ^ 30) (hi : nf < 2 ^ 31) (d : α)
    (s₀ s : MatrixStore α) (u : Unit)
    (hnew : Gen.KeyChunkMatrixStore.init d initialSize c nf s₀ = .ok u s) (ops more : List (Op α))
    (hb : ∀ o ∈ ops ++ more, ∀ f : Int → Int → α, MatrixStoreSpec.Legal nf o f) :
    ∃ n n', Gen.KeyChunkMatrixStore.getCapacity d (runM (Link.MatrixStore.step fuel d) s ops).2 =
        .ok n (runM (Link.MatrixStore.step fuel d) s ops).2 ∧
      Gen.KeyChunkMatrixStore.getCapacity d (runM (Link.MatrixStore.step fuel d) s (ops ++ more)).2 =
        .ok n' (runM (Link.MatrixStore.step fuel d) s (ops ++ more)).2 ∧
      initialSize ≤ n ∧ n ≤ n' ∧ ∀ r x v, .set r x v ∈ ops → 0 ≤ x → x < nf → r < n := by
  rcases Link.MatrixStore.init_eq d initialSize c nf s₀ hi with ⟨s1, t, e1, e2, hr'⟩ | ⟨e, s1, e1, e2⟩
  · rw [e1] at hnew
    injection hnew with _ hs
    subst hs
    obtain ⟨n, n', g1, g2, g3⟩ := C111_capacity c k h2 hr initialSize nf hn d t e2 ops more hb
    have r1 := (Link.runM_bisim (fun s t o h => Link.MatrixStore.step_eq fuel hf d s t o h) ops _ t hr').2.capacity
    have r2 := (Link.runM_bisim (fun s t o h => Link.MatrixStore.step_eq fuel hf d s t o h) (ops ++ more) _ t hr').2.capacity
    injection g1 with g1
    injection g2 with g2
    refine ⟨_, _, rfl, rfl, ?_⟩
    rw [r1, r2, g1, g2]
    exact g3
  · rw [e1] at hnew; cases hnew

/-- Chunk size 3, three fields: row 0 field 2 shares a cell with row 1 field 0. -/
example : ∃ s : MatrixStore Int,
    Gen.KeyChunkMatrixStore.init 0 1 3 3 ⟨5, 5, 5, 5, Arr.create 0 (Arr.create 0 0), 0⟩ = .ok () s ∧
    (runM (Link.MatrixStore.step 50 0) s [.set 0 2 7, .get 1 0, .set 1 1 8, .get 1 0, .get 0 0]).1 =
      [.ok none, .ok (some 0), .ok none, .ok (some 7), .ok (some 0)] ∧
    (Gen.KeyChunkMatrixStore.getCapacity 0 (runM (Link.MatrixStore.step 50 0) s [.set 0 2 7, .set 1 1 8]).2).out =
      .ok 2 := ⟨_, rfl, rfl, by decide +kernel⟩

end Verif

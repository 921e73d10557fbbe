import Verif.Proofs.StoresAny
import Verif.Props.Stores
/-! # Properties C110 and C111: the chunk stores for every chunk size, power of two or not

C09 and C11 fail for chunk sizes that are not powers of two; these theorems say what the stores do there. -/
namespace Verif
variable {α : Type}

/-- Every chunk size of at least 1 rounds to one power of two. -/
theorem C110_roundsTo (c : Int) (h1 : 1 ≤ c) (h2 : c ≤ 2 ^ 30) :
    ∃ k, RoundsTo c k ∧ ∀ j, RoundsTo c j → j = k := by
  obtain ⟨k, hk, _, hv, hm⟩ := nextPowerOf2_spec h1 (by omega)
  have hle : ∀ j : Nat, c ≤ (2 ^ j : Nat) → k ≤ j := by
    intro j hj
    rcases hm with h0 | h0
    · omega
    · apply Classical.byContradiction
      intro hne
      have h3 : 2 ^ j ≤ 2 ^ (k - 1) := Nat.pow_le_pow_right (by omega) (by omega)
      generalize 2 ^ (k - 1) = y at *
      generalize 2 ^ j = z at *
      omega
  exact ⟨k, ⟨hv, hle⟩, fun j hj => Nat.le_antisymm (hj.2 k hv) (hle j hj.1)⟩

/-- For a power of two no two indexes share a cell. -/
theorem C110_pow2_cells (k : Nat) (i j : Int) (hi : 0 ≤ i) (hj : 0 ≤ j) :
    RoundsTo (2 ^ k : Nat) k ∧ (SameCell (2 ^ k : Nat) k i j ↔ i = j) := by
  have hp := Nat.two_pow_pos k
  refine ⟨⟨Int.le_refl _, fun m hm => ?_⟩, ?_, fun h => by subst h; exact ⟨rfl, rfl⟩⟩
  · exact (Nat.pow_le_pow_iff_right (by omega : 1 < 2)).1 (by exact_mod_cast hm)
  · rintro ⟨e1, e2⟩
    have em : (((2 ^ k : Nat) : Int) - 1).toNat = 2 ^ k - 1 := by omega
    rw [em, Nat.and_two_pow_sub_one_eq_mod, Nat.and_two_pow_sub_one_eq_mod] at e2
    have e3 : i % (2 ^ k : Nat) = j % (2 ^ k : Nat) := by
      obtain ⟨n, rfl⟩ : ∃ n : Nat, i = n := ⟨i.toNat, by omega⟩
      obtain ⟨m, rfl⟩ : ∃ m : Nat, j = m := ⟨j.toNat, by omega⟩
      simp only [Int.toNat_natCast] at e2
      exact_mod_cast e2
    rw [← Int.mul_ediv_add_emod i (2 ^ k : Nat), ← Int.mul_ediv_add_emod j (2 ^ k : Nat), e1, e3]

section chunk
open ChunkStore

theorem allowedAny {c : Int} {k : Nat} : ∀ (ops : List (Op α)) (f : Int → α),
    (∀ o ∈ ops, ∀ f : Int → α, ChunkStoreSpec.Legal o f) →
    Allowed (ChunkStoreSpec.stepAny c k) ChunkStoreSpec.Legal f ops
  | [], _, _ => trivial
  | o :: os, f, h => ⟨h o (List.mem_cons_self ..) f,
      allowedAny os _ (fun p hp => h p (List.mem_cons_of_mem _ hp))⟩

/-- C110: for every chunk size `c` from 1 to 2^30 and every initial size up to 2^30, every history of calls (indexes
below 2^30 for `set`) gives what an array gives in which `set` writes all the indexes that share a cell. -/
theorem C110_chunkStore_any (c : Int) (k : Nat) (h1 : 1 ≤ c) (h2 : c ≤ 2 ^ 30) (hr : RoundsTo c k)
    (initialSize : Int) (hn : initialSize ≤ 2 ^ 30) (d : α) (s : ChunkStore α)
    (hnew : ChunkStore.new initialSize c d = .ok s) (ops : List (Op α))
    (hb : ∀ o ∈ ops, ∀ f : Int → α, ChunkStoreSpec.Legal o f) :
    (runM (step d) s ops).1 = (runS (ChunkStoreSpec.stepAny c k) (fun _ => d) ops).1 :=
  (runM_refines (Inv := RelAny c k d) (fun s a o h g => (stepAny_spec s a o h g).1) ops s _
    ⟨_, (invAny_new h1 h2 hr hn hnew).1, fun _ => rfl⟩ (allowedAny ops _ hb)).1

/-- Chunk size 3 (rounded to 4, bits of 2): 0 and 1 share a cell, 2 and 3 share one, 4 is in the next chunk. -/
example : RoundsTo 3 2 ∧ ∃ s : ChunkStore Int, ChunkStore.new 3 3 0 = .ok s ∧
    (runM (step 0) s [.set 0 7, .set 1 8, .get 0, .get 3, .set 2 9, .get 3, .get 1, .get 4, .set 5 6, .get 4]).1 =
      [.ok none, .ok none, .ok (some 8), .ok (some 0), .ok none, .ok (some 9), .ok (some 8), .ok (some 0),
       .ok none, .ok (some 6)] ∧
    (runS (ChunkStoreSpec.stepAny 3 2) (fun _ => (0 : Int))
      [.set 0 7, .set 1 8, .get 0, .get 3, .set 2 9, .get 3, .get 1, .get 4, .set 5 6, .get 4]).1 =
      [.ok none, .ok none, .ok (some 8), .ok (some 0), .ok none, .ok (some 9), .ok (some 8), .ok (some 0),
       .ok none, .ok (some 6)] := by
  refine ⟨⟨by decide, fun j hj => ?_⟩, _, rfl, rfl, rfl⟩
  match j, hj with
  | 0, hj => exact absurd hj (by decide)
  | 1, hj => exact absurd hj (by decide)
  | j + 2, _ => omega

/-- The index of a call. -/
def opIndex : Op α → Int
  | .get i => i
  | .set i _ => i

theorem noAlias_run {c : Int} {k : Nat} (P : Int → Prop) (hP : ∀ i j, P i → P j → SameCell c k i j → i = j) :
    ∀ (ops : List (Op α)) (f g : Int → α), (∀ o ∈ ops, 0 ≤ opIndex o → P (opIndex o)) → (∀ i, P i → f i = g i) →
      (runS (ChunkStoreSpec.stepAny c k) f ops).1 = (runS ChunkStoreSpec.step g ops).1
  | [], _, _, _, _ => rfl
  | .get i :: os, f, g, hu, he => by
    simp only [runS, ChunkStoreSpec.stepAny, ChunkStoreSpec.step]
    have ih := noAlias_run P hP os f g (fun o ho => hu o (List.mem_cons_of_mem _ ho)) he
    by_cases hi : i < 0
    · simp only [if_pos hi, ih]
    · simp only [if_neg hi, ih, he i (hu (.get i) (List.mem_cons_self ..) (by simp only [opIndex]; omega))]
  | .set i v :: os, f, g, hu, he => by
    simp only [runS, ChunkStoreSpec.stepAny, ChunkStoreSpec.step]
    by_cases hi : i < 0
    · simp only [if_pos hi]
      rw [noAlias_run P hP os f g (fun o ho => hu o (List.mem_cons_of_mem _ ho)) he]
    · simp only [if_neg hi]
      have hpi : P i := hu (.set i v) (List.mem_cons_self ..) (by simp only [opIndex]; omega)
      rw [noAlias_run P hP os _ (fun j => if j = i then v else g j)
        (fun o ho => hu o (List.mem_cons_of_mem _ ho))]
      intro j hj
      by_cases hs : SameCell c k j i
      · simp only [if_pos hs, if_pos (hP j i hj hpi hs)]
      · rw [if_neg hs, if_neg (fun e : j = i => hs (e ▸ ⟨rfl, rfl⟩)), he j hj]

/-- C110: C09 for every chunk size, for the histories none of whose indexes share a cell: `get` returns the value last
set, or the default. -/
theorem C110_no_shared_cell (c : Int) (k : Nat) (h1 : 1 ≤ c) (h2 : c ≤ 2 ^ 30) (hr : RoundsTo c k)
    (initialSize : Int) (hn : initialSize ≤ 2 ^ 30) (d : α) (s : ChunkStore α)
    (hnew : ChunkStore.new initialSize c d = .ok s) (ops : List (Op α))
    (hb : ∀ o ∈ ops, ∀ f : Int → α, ChunkStoreSpec.Legal o f)
    (hx : ∀ o ∈ ops, ∀ o' ∈ ops, SameCell c k (opIndex o) (opIndex o') → opIndex o = opIndex o') :
    (runM (step d) s ops).1 = (runS ChunkStoreSpec.step (fun _ => d) ops).1 := by
  rw [C110_chunkStore_any c k h1 h2 hr initialSize hn d s hnew ops hb]
  refine noAlias_run (fun i => ∃ o ∈ ops, opIndex o = i) ?_ ops _ _ (fun o ho _ => ⟨o, ho, rfl⟩) (fun _ _ => rfl)
  rintro _ _ ⟨o, ho, rfl⟩ ⟨o', ho', rfl⟩ hs
  exact hx o ho o' ho' hs

/-- Chunk size 3, indexes 0, 2, 4 and 6 have cells of their own. -/
example : ∃ s : ChunkStore Int, ChunkStore.new 0 3 0 = .ok s ∧
    (∀ o ∈ [Op.set 0 7, .set 2 8, .set 6 9, .set 4 5, .get 0, .get 2, .get 6, .get 4],
      ∀ o' ∈ [Op.set 0 7, .set 2 8, .set 6 9, .set 4 5, .get 0, .get 2, .get 6, .get (4 : Int)],
        SameCell 3 2 (opIndex o) (opIndex o') → opIndex o = opIndex o') ∧
    (runM (step 0) s [.set 0 7, .set 2 8, .set 6 9, .set 4 5, .get 0, .get 2, .get 6, .get 4]).1 =
      [.ok none, .ok none, .ok none, .ok none, .ok (some 7), .ok (some 8), .ok (some 9), .ok (some 5)] :=
  ⟨_, rfl, by simp [opIndex, SameCell], rfl⟩

/-- C10 for every chunk size from 1 to 2^30: after every history the capacity is a whole number of chunks of the
rounded size, at least the initial size, more than every index that was set, and it only grows. -/
theorem C10_capacity_any (c : Int) (k : Nat) (h1 : 1 ≤ c) (h2 : c ≤ 2 ^ 30) (hr : RoundsTo c k)
    (initialSize : Int) (hn : initialSize ≤ 2 ^ 30) (d : α) (s0 : ChunkStore α)
    (hnew : ChunkStore.new initialSize c d = .ok s0) (ops more : List (Op α))
    (hb : ∀ o ∈ ops ++ more, ∀ f : Int → α, ChunkStoreSpec.Legal o f) :
    let s := (runM (step d) s0 ops).2
    let s' := (runM (step d) s0 (ops ++ more)).2
    (∃ n : Nat, s.capacity = n * (2 ^ k : Nat)) ∧ initialSize ≤ s.capacity ∧
    (∀ i ∈ setIndexes ops, i < s.capacity) ∧ s.capacity ≤ s'.capacity ∧
    getCapacity s = .ok s.capacity s := by
  have key : ∀ (ops : List (Op α)) (s : ChunkStore α) (f : Int → α), RelAny c k d s f →
      (∀ o ∈ ops, ∀ f : Int → α, ChunkStoreSpec.Legal o f) →
      (∃ g, RelAny c k d (runM (step d) s ops).2 g) ∧
      s.capacity ≤ (runM (step d) s ops).2.capacity ∧
      ∀ i ∈ setIndexes ops, i < (runM (step d) s ops).2.capacity := by
    intro ops
    induction ops with
    | nil => intro s f h _; exact ⟨⟨f, h⟩, Int.le_refl _, by simp [setIndexes]⟩
    | cons o os ih =>
      intro s f h hg
      obtain ⟨⟨_, hrel⟩, hc1, hc2⟩ := stepAny_spec s f o h (hg o (List.mem_cons_self ..) f)
      have := ih _ _ hrel (fun p hp => hg p (List.mem_cons_of_mem _ hp))
      simp only [runM]
      refine ⟨this.1, by omega, ?_⟩
      cases o with
      | get i => exact this.2.2
      | set i v =>
        intro j hj
        simp only [setIndexes, List.mem_cons] at hj
        rcases hj with rfl | hj
        · have := hc2 _ _ rfl; omega
        · exact this.2.2 j hj
  obtain ⟨hi0, hn0⟩ := invAny_new h1 h2 hr hn hnew
  obtain ⟨⟨g, hrel⟩, k2, k3⟩ := key ops s0 (fun _ => d) ⟨_, hi0, fun _ => rfl⟩
    (fun o ho => hb o (List.mem_append_left _ ho))
  have hrel' := hrel
  obtain ⟨f, hinv, _⟩ := hrel'
  have k4 := (key more _ g hrel (fun o ho => hb o (List.mem_append_right _ ho))).2.1
  intro s s'
  refine ⟨⟨_, hinv.cap⟩, ?_, k3, ?_, rfl⟩
  · show initialSize ≤ (runM (step d) s0 ops).2.capacity
    omega
  · show (runM (step d) s0 ops).2.capacity ≤ (runM (step d) s0 (ops ++ more)).2.capacity
    rw [runM_append]
    exact k4

example : ∃ s0 : ChunkStore Int, ChunkStore.new 3 3 0 = .ok s0 ∧
    s0.capacity = 4 ∧ (runM (step 0) s0 [.set 9 5]).2.capacity = 12 := ⟨_, rfl, rfl, by decide +kernel⟩
end chunk

section matrix
open MatrixStore

theorem allowedAnyM {d : α} {nf c : Int} {k : Nat} : ∀ (ops : List (Op α)) (a : Int × (Int → Int → α)),
    (∀ o ∈ ops, ∀ f : Int → Int → α, MatrixStoreSpec.Legal nf o f) →
    Allowed (MatrixStoreSpec.stepAny d nf c k) (MatrixStoreSpec.LegalAny nf) a ops
  | [], _, _ => trivial
  | o :: os, a, h => ⟨h o (List.mem_cons_self ..) a.2,
      allowedAnyM os _ (fun p hp => h p (List.mem_cons_of_mem _ hp))⟩

/-- C111: for every chunk size from 2 to 2^30 and every number of fields, every history gives what the ideal matrix
does in which `set` makes room for its row and writes every row and field sharing its cell, and rows beyond the room
read as the default; and `getCapacity` answers that room. -/
theorem C111_matrixStore_any (c : Int) (k : Nat) (h2 : c ≤ 2 ^ 30) (hr : RoundsTo c k)
    (initialSize nf : Int) (hn : initialSize * nf ≤ 2 ^ 30) (d : α) (s : MatrixStore α)
    (hnew : MatrixStore.new initialSize c nf d = .ok s) (ops : List (Op α))
    (hb : ∀ o ∈ ops, ∀ f : Int → Int → α, MatrixStoreSpec.Legal nf o f) :
    let spec := runS (MatrixStoreSpec.stepAny d nf c k) (MatrixStoreSpec.room nf k initialSize, fun _ _ => d) ops
    (runM (step d) s ops).1 = spec.1 ∧
      getCapacity (runM (step d) s ops).2 = .ok spec.2.1 (runM (step d) s ops).2 := by
  obtain ⟨hi, hc, _, _⟩ := invAny_new hr h2 hn hnew
  have := runM_refines (Inv := RelAny c k nf d) (fun s a o h g => stepAny_spec s a o h g) ops s
    (MatrixStoreSpec.room nf k initialSize, fun _ _ => d) ⟨hc, _, hi, fun _ _ => rfl⟩ (allowedAnyM ops _ hb)
  refine ⟨this.1, ?_⟩
  rw [← this.2.1]
  rfl

/-- What the room for `rows` rows is: a number of rows that fits in whole chunks, at least `rows`, and less than one
chunk's worth of cells more. -/
theorem C111_room (nf : Int) (k : Nat) (rows : Int) (hnf : 1 ≤ nf) (_hr : 0 ≤ rows) :
    rows ≤ MatrixStoreSpec.room nf k rows ∧
    MatrixStoreSpec.room nf k rows * nf < rows * nf + (2 ^ k : Nat) ∧
    rows * nf < (MatrixStoreSpec.room nf k rows + 1) * nf := by
  have hp : (0 : Int) < (2 ^ k : Nat) := by have := Nat.two_pow_pos k; omega
  have hge := ceilDiv_mul_ge (a := rows * nf) hp
  have hle : ceilDiv (rows * nf) (2 ^ k : Nat) * (2 ^ k : Nat) < rows * nf + (2 ^ k : Nat) := by
    have h1 : ¬ ceilDiv (rows * nf) (2 ^ k : Nat) ≤ ceilDiv (rows * nf) (2 ^ k : Nat) - 1 := by omega
    rw [ceilDiv_le_iff hp, Int.sub_mul] at h1
    omega
  unfold MatrixStoreSpec.room
  generalize ceilDiv (rows * nf) (2 ^ k : Nat) * (2 ^ k : Nat) = q at *
  have h1 : rows ≤ q / nf := by rw [Int.le_ediv_iff_mul_le (by omega)]; exact hge
  have h2 : q / nf * nf ≤ q := Int.ediv_mul_le _ (by omega)
  refine ⟨h1, by omega, ?_⟩
  have := Int.mul_le_mul_of_nonneg_right h1 (by omega : (0 : Int) ≤ nf)
  rw [Int.add_mul]
  omega

/-- C111: the capacity of a matrix store never shrinks and exceeds every row that was set, for every chunk size. -/
theorem C111_capacity (c : Int) (k : Nat) (h2 : c ≤ 2 ^ 30) (hr : RoundsTo c k)
    (initialSize nf : Int) (hn : initialSize * nf ≤ 2 ^ 30) (d : α) (s0 : MatrixStore α)
    (hnew : MatrixStore.new initialSize c nf d = .ok s0) (ops more : List (Op α))
    (hb : ∀ o ∈ ops ++ more, ∀ f : Int → Int → α, MatrixStoreSpec.Legal nf o f) :
    ∃ n n', getCapacity (runM (step d) s0 ops).2 = .ok n (runM (step d) s0 ops).2 ∧
      getCapacity (runM (step d) s0 (ops ++ more)).2 = .ok n' (runM (step d) s0 (ops ++ more)).2 ∧
      initialSize ≤ n ∧ n ≤ n' ∧ ∀ r x v, .set r x v ∈ ops → 0 ≤ x → x < nf → r < n := by
  obtain ⟨hi, hc, hi1, _⟩ := invAny_new hr h2 hn hnew
  have hnf := hi.hnf
  have hs : ∀ (o : Op α) (a : Int × (Int → Int → α)), 0 ≤ a.1 →
      a.1 ≤ (MatrixStoreSpec.stepAny d nf c k o a).2.1 ∧
      ∀ r x v, o = .set r x v → 0 ≤ x → x < nf → r < (MatrixStoreSpec.stepAny d nf c k o a).2.1 := by
    intro o a ha
    obtain ⟨n, f⟩ := a
    simp only at ha
    cases o with
    | get r x =>
      simp only [MatrixStoreSpec.stepAny]
      refine ⟨?_, by simp⟩
      split
      · exact Int.le_refl _
      · split <;> exact Int.le_refl _
    | set r x v =>
      simp only [MatrixStoreSpec.stepAny]
      by_cases hx : x < 0 ∨ nf ≤ x
      · rw [if_pos hx]
        refine ⟨Int.le_refl _, ?_⟩
        rintro r' x' v' e h3 h4
        injection e with e1 e2 e3
        omega
      · rw [if_neg hx]
        by_cases hr0 : r < 0
        · rw [if_pos hr0]
          refine ⟨Int.le_refl _, ?_⟩
          rintro r' x' v' e h3 h4
          injection e with e1 e2 e3
          simp only; omega
        · rw [if_neg hr0]
          have := (C111_room nf k (r + 1) hnf (by omega)).1
          by_cases hq : n ≤ r
          · simp only [if_pos hq]
            refine ⟨by omega, ?_⟩
            rintro r' x' v' e h3 h4
            injection e with e1 e2 e3
            omega
          · simp only [if_neg hq]
            refine ⟨by omega, ?_⟩
            rintro r' x' v' e h3 h4
            injection e with e1 e2 e3
            omega
  have key : ∀ (ops : List (Op α)) (a : Int × (Int → Int → α)), 0 ≤ a.1 →
      a.1 ≤ (runS (MatrixStoreSpec.stepAny d nf c k) a ops).2.1 ∧
      ∀ r x v, .set r x v ∈ ops → 0 ≤ x → x < nf → r < (runS (MatrixStoreSpec.stepAny d nf c k) a ops).2.1 := by
    intro ops
    induction ops with
    | nil => intro a _; exact ⟨Int.le_refl _, by simp⟩
    | cons o os ih =>
      intro a ha
      have h1 := hs o a ha
      have h3 := ih (MatrixStoreSpec.stepAny d nf c k o a).2 (by omega)
      simp only [runS]
      refine ⟨by omega, ?_⟩
      intro r x v hm hx0 hx1
      rcases List.mem_cons.1 hm with hm | hm
      · have := h1.2 r x v hm.symm hx0 hx1; omega
      · exact h3.2 r x v hm hx0 hx1
  have hroom := (C111_room nf k initialSize hnf (by omega)).1
  have a1 := C111_matrixStore_any c k h2 hr initialSize nf hn d s0 hnew ops
    (fun o ho => hb o (List.mem_append_left _ ho))
  have a2 := C111_matrixStore_any c k h2 hr initialSize nf hn d s0 hnew (ops ++ more) hb
  have k1 := key ops (MatrixStoreSpec.room nf k initialSize, fun _ _ => d) (by simp only; omega)
  refine ⟨_, _, a1.2, a2.2, by simp only at k1; omega, ?_, k1.2⟩
  rw [runS_append]
  exact (key more _ (by simp only at k1; omega)).1

/-- Chunk size 3 and three fields: the last cell of row 0 shares a cell with the first of row 1, once there is room for
row 1. -/
example : ∃ s : MatrixStore Int, MatrixStore.new 1 3 3 0 = .ok s ∧
    (runM (step 0) s [.set 0 2 7, .get 1 0, .set 1 1 8, .get 1 0, .get 0 0, .get 1 2, .get 2 0]).1 =
      [.ok none, .ok (some 0), .ok none, .ok (some 7), .ok (some 0), .ok (some 8), .ok (some 0)] ∧
    (runS (MatrixStoreSpec.stepAny 0 3 3 2) (MatrixStoreSpec.room 3 2 1, fun _ _ => (0 : Int))
      [.set 0 2 7, .get 1 0, .set 1 1 8, .get 1 0, .get 0 0, .get 1 2, .get 2 0]).1 =
      [.ok none, .ok (some 0), .ok none, .ok (some 7), .ok (some 0), .ok (some 8), .ok (some 0)] :=
  ⟨_, rfl, rfl, rfl⟩
end matrix
end Verif

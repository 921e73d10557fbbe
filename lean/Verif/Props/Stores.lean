import Verif.Proofs.Stores
/-! # Properties C09 - C12: the chunk stores -/
namespace Verif
variable {α : Type}

section chunk
open ChunkStore

/-- C09 (partial: for power-of-two chunk sizes; `C09_not_pow2_refuted` shows it fails for *every*
other chunk size): for every initial size up to 2^30, every chunk size `2^k` and every history,
`get` returns the value last set, or the default. -/
theorem C09_chunkStore_partial (k : Nat) (hk : k ≤ 30) (initialSize : Int)
    (hn : initialSize ≤ 2 ^ 30) (d : α) (s : ChunkStore α)
    (hnew : ChunkStore.new initialSize (2 ^ k : Nat) d = .ok s) (ops : List (Op α))
    (hb : Allowed ChunkStoreSpec.step ChunkStoreSpec.Legal (fun _ => d) ops) :
    (runM (step d) s ops).1 = (runS ChunkStoreSpec.step (fun _ => d) ops).1 :=
  (runM_refines (fun s a o h g => step_spec s a o h g) ops s _ (inv_new hk hn hnew) hb).1

/-- Construction succeeds for every non-negative initial size. -/
theorem C09_new (k : Nat) (hk : k ≤ 30) (initialSize : Int) (h0 : 0 ≤ initialSize) (d : α) :
    ∃ s, ChunkStore.new initialSize (2 ^ k : Nat) d = .ok s := by
  have hp := pow_le_30 hk
  unfold ChunkStore.new
  simp only [nextPowerOf2_pow hk]
  have : 0 ≤ ceilDiv initialSize (2 ^ k : Nat) := by
    have h1 := ceilDiv_mul_ge (a := initialSize) (m := (2 ^ k : Nat)) (by omega)
    exact Int.nonneg_of_mul_nonneg_left (by omega) (by omega : (0:Int) < (2 ^ k : Nat))
  rw [if_neg (by omega)]
  exact ⟨_, rfl⟩

example : ∃ s : ChunkStore Int, ChunkStore.new 3 4 0 = .ok s ∧
    Allowed ChunkStoreSpec.step ChunkStoreSpec.Legal (fun _ => 0)
      [Op.set 9 5, .get 9, .get 1, .set 9 6, .set 1 7, .get 9, .get 1, .get 100] ∧
    (runM (step 0) s [Op.set 9 5, .get 9, .get 1, .set 9 6, .set 1 7, .get 9, .get 1, .get 100]).1 =
      [.ok none, .ok (some 5), .ok (some 0), .ok none, .ok none, .ok (some 6), .ok (some 7),
       .ok (some 0)] :=
  ⟨_, rfl, by simp [Allowed, ChunkStoreSpec.Legal], rfl⟩

/-- A number that is not one below a power of two has a zero bit below the power above it. -/
theorem exists_zero_bit {c k : Nat} (h : c < 2 ^ k - 1) : ∃ b, b < k ∧ c.testBit b = false := by
  apply Classical.byContradiction
  intro hno
  have : c = 2 ^ k - 1 := by
    apply Nat.eq_of_testBit_eq
    intro i
    rw [Nat.testBit_two_pow_sub_one]
    by_cases hi : i < k
    · cases hb : c.testBit i with
      | true => simp [hi]
      | false => exact absurd ⟨i, hi, hb⟩ hno
    · have : c < 2 ^ i := Nat.lt_of_lt_of_le (by omega)
        (Nat.pow_le_pow_right (by omega) (by omega : k ≤ i))
      simp [hi, Nat.testBit_lt_two_pow this]
  omega

theorem and32_zero_bit {c b : Nat} (hc : c < 2 ^ 30) (hb : b < 30) (h : c.testBit b = false) :
    and32 ((2 ^ b : Nat) : Int) (c : Int) = 0 := by
  have hb' : 2 ^ b ≤ 2 ^ 29 := Nat.pow_le_pow_right (by omega) (by omega)
  unfold and32
  rw [BitVec.ofInt_natCast, BitVec.ofInt_natCast]
  have : BitVec.ofNat 32 (2 ^ b) &&& BitVec.ofNat 32 c = 0#32 := by
    apply BitVec.eq_of_toNat_eq
    rw [BitVec.toNat_and, BitVec.toNat_ofNat, BitVec.toNat_ofNat, Nat.mod_eq_of_lt (by omega),
      Nat.mod_eq_of_lt (by omega)]
    simp only [BitVec.toNat_ofNat, Nat.zero_mod]
    apply Nat.eq_of_testBit_eq
    intro i
    rw [Nat.testBit_and, Nat.testBit_two_pow, Nat.zero_testBit]
    by_cases hi : b = i
    · subst hi; simp [h]
    · simp [hi]
  rw [this]; rfl

theorem and32_zero (c : Int) : and32 0 c = 0 := by
  unfold and32
  have : BitVec.ofInt 32 0 = 0#32 := by decide
  rw [this, BitVec.zero_and]; rfl

/-- The aliasing computation, for an abstract rounded chunk size `K`. -/
theorem alias_run {c j m : Int} {K k : Nat} {d v w : α} (hK : 0 < K) (hj : j < K)
    (he : nextPowerOf2 c = K) (hreq : ceilDiv c K = 1) (e1 : i32 (c - 1) = m)
    (e2 : numberOfTrailingZeros K = k) (e3 : i32 (1 * K) = K)
    (hz : and32 j m = 0) (hs0 : shr32 0 (k : Int) = 0) (hsb : shr32 j (k : Int) = 0) :
    ∃ s, ChunkStore.new c c d = .ok s ∧
      (runM (step d) s [.set 0 v, .set j w, .get 0]).1 = [.ok none, .ok none, .ok (some w)] := by
  have hnew : ChunkStore.new c c d = .ok
      { chunkSize := K, chunkMask := m, shift := k,
        chunks := Arr.create 1 (Arr.create K d), capacity := K, limit := 0 } := by
    unfold ChunkStore.new
    simp only [he, hreq, e1, e2, e3]
    rw [if_neg (by omega)]
  refine ⟨_, hnew, ?_⟩
  have hset : ∀ (x : Int) (val : α) (t : ChunkStore α), x < t.capacity →
      and32 x t.chunkMask = 0 → shr32 x t.shift = 0 → 0 < t.chunks.len → 0 < (t.chunks.get 0).len →
      setAt d x val t = .ok () { t with
        limit := max t.limit x, chunks := t.chunks.set 0 ((t.chunks.get 0).set 0 val) } := by
    intro x val t hx ha hsx hl1 hl2
    unfold setAt
    rw [JM.bind_ok (JM.get_apply _), JM.when_neg (by omega), JM.bind_ok (JM.pure_apply _ _),
      JM.bind_ok (JM.modify_apply _ _), JM.bind_ok (JM.get_apply _)]
    simp only [ha, hsx]
    simp only [JM.bind_apply, rd, wr]
    simp [hl1, hl2]
  have hget : ∀ t : ChunkStore α, 0 < t.capacity →
      shr32 0 t.shift = 0 → 0 < t.chunks.len → 0 < (t.chunks.get 0).len →
      getAt d 0 t = .ok ((t.chunks.get 0).get 0) t := by
    intro t hx hsx hl1 hl2
    unfold getAt
    rw [JM.bind_ok (JM.get_apply _), if_neg (by omega)]
    simp only [and32_zero, hsx]
    simp only [JM.bind_apply, rd, rdA]
    simp [hl1, hl2]
  have hK' : (0:Int) < K := by omega
  generalize hs : (ChunkStore.mk (K : Int) m k (Arr.create 1 (Arr.create (K : Int) d)) K 0) = s0
  have p1 : s0.capacity = K := by rw [← hs]
  have p2 : s0.chunkMask = m := by rw [← hs]
  have p3 : s0.shift = k := by rw [← hs]
  have p4 : s0.chunks = Arr.create 1 (Arr.create (K : Int) d) := by rw [← hs]
  clear hs hnew
  have h1 := hset 0 v s0 (by omega) (and32_zero _) (by rw [p3]; exact hs0) (by simp [p4])
    (by simpa [p4] using hK)
  generalize hs1 : ({ s0 with
        limit := max s0.limit 0, chunks := s0.chunks.set 0 ((s0.chunks.get 0).set 0 v) }
        : ChunkStore α) = s1 at h1
  have q1 : s1.capacity = K := by rw [← hs1]; exact p1
  have q2 : s1.chunkMask = m := by rw [← hs1]; exact p2
  have q3 : s1.shift = k := by rw [← hs1]; exact p3
  have q4 : s1.chunks = (Arr.create 1 (Arr.create (K : Int) d)).set 0
    ((Arr.create (K : Int) d).set 0 v) := by rw [← hs1]; simp [p4]
  clear hs1
  have h2 := hset j w s1 (by omega) (by rw [q2]; exact hz) (by rw [q3]; exact hsb) (by simp [q4])
    (by simpa [q4] using hK)
  generalize hs2 : ({ s1 with
        limit := max s1.limit j, chunks := s1.chunks.set 0 ((s1.chunks.get 0).set 0 w) }
        : ChunkStore α) = s2 at h2
  have r1 : s2.capacity = K := by rw [← hs2]; exact q1
  have r3 : s2.shift = k := by rw [← hs2]; exact q3
  have r4 : 0 < s2.chunks.len ∧ 0 < (s2.chunks.get 0).len ∧ (s2.chunks.get 0).get 0 = w := by
    rw [← hs2]; simpa [q4] using hK
  have h3 := hget s2 (by omega) (by rw [r3]; exact hs0) r4.1 r4.2.1
  simp only [runM, step, JM.bind_apply, h1, h2, h3, JM.pure_apply, Res.state_ok, Res.out_ok, r4.2.2]

/-- C09 refuted for every chunk size that is not a power of two (the constructor rounds the chunk
size up but computes the index mask from the unrounded value, KeyChunkStore.ftl:27): some index
`j > 0` shares its cell with index 0, so setting `j` overwrites what was set at 0. -/
theorem C09_not_pow2_refuted (c : Int) (h1 : 1 ≤ c) (h2 : c < 2 ^ 30)
    (hc : ∀ k : Nat, c ≠ (2 ^ k : Nat)) (d v w : α) :
    ∃ j : Int, 0 < j ∧ ∃ s, ChunkStore.new c c d = .ok s ∧
      (runM (step d) s [.set 0 v, .set j w, .get 0]).1 = [.ok none, .ok none, .ok (some w)] := by
  obtain ⟨k, hk, he, hv, hm⟩ := nextPowerOf2_spec h1 (by omega)
  have hlt : c < (2 ^ k : Nat) := by have := hc k; omega
  obtain ⟨m, hmeq⟩ : ∃ m : Nat, c - 1 = (m : Int) := ⟨(c - 1).toNat, by omega⟩
  have hm1 : m < 2 ^ k - 1 := by omega
  obtain ⟨b, hb, hbit⟩ := exists_zero_bit hm1
  have hbk : 2 ^ b < 2 ^ k := Nat.pow_lt_pow_right (by omega) hb
  have hp := Nat.two_pow_pos b
  have hb30 : 2 ^ k ≤ 2 ^ 30 := Nat.pow_le_pow_right (by omega) hk
  have hreq : ceilDiv c (2 ^ k : Nat) = 1 := by
    have a1 : ceilDiv c (2 ^ k : Nat) ≤ 1 := by rw [ceilDiv_le_iff (by omega)]; omega
    have a2 : ¬ ceilDiv c (2 ^ k : Nat) ≤ 0 := by rw [ceilDiv_le_iff (by omega)]; omega
    omega
  refine ⟨(2 ^ b : Nat), by omega, ?_⟩
  have hK : 0 < 2 ^ k := by omega
  have hj : ((2 ^ b : Nat) : Int) < (2 ^ k : Nat) := by omega
  have hz : and32 ((2 ^ b : Nat) : Int) (m : Int) = 0 :=
    and32_zero_bit (by omega) (by omega) hbit
  have hs0 : shr32 0 (k : Int) = 0 := by rw [shr32_pow hk]; simp
  have hsb : shr32 ((2 ^ b : Nat) : Int) (k : Int) = 0 := by
    rw [shr32_pow hk]
    exact Int.ediv_eq_zero_of_lt (by omega) (by omega)
  have e1 : i32 (c - 1) = m := by rw [i32_of_range (by omega)]; exact hmeq
  have e2 : numberOfTrailingZeros (2 ^ k : Nat) = k := ntzLoop_pow 64 k (by omega)
  have e3 : i32 (1 * (2 ^ k : Nat)) = (2 ^ k : Nat) := by
    rw [Int.one_mul, i32_of_range (by omega)]
  clear hbk hb30 hp hlt hm1 hv hm hbit
  generalize 2 ^ k = K at *
  generalize ((2 ^ b : Nat) : Int) = j at *
  exact alias_run hK hj he hreq e1 e2 e3 hz hs0 hsb

example : ∀ k : Nat, (3 : Int) ≠ (2 ^ k : Nat) := by
  intro k
  match k with
  | 0 => decide
  | 1 => decide
  | k + 2 =>
    have : 2 ^ (k + 2) = 4 * 2 ^ k := by rw [Nat.pow_add]; omega
    rw [this]; omega

/-- The indexes that were set in a history. -/
def setIndexes : List (Op α) → List Int
  | [] => []
  | .get _ :: os => setIndexes os
  | .set i _ :: os => i :: setIndexes os

theorem step_capacity {k : Nat} {d : α} (s : ChunkStore α) (f : Int → α) (o : Op α)
    (h : Inv k d s f) (hb : ChunkStoreSpec.Legal o f) :
    s.capacity ≤ (step d o s).state.capacity ∧
      ∀ i v, o = .set i v → i < (step d o s).state.capacity := by
  have hcap0 : 0 ≤ s.capacity := by
    rw [h.cap]; exact Int.mul_nonneg (Int.natCast_nonneg _) (Int.natCast_nonneg _)
  cases o with
  | get i =>
    by_cases hi : i < 0
    · simp [step, JM.bind_apply, getAt_neg h hi]
    · simp [step, JM.bind_apply, getAt_spec h (i := i) (by omega)]
  | set i v =>
    by_cases hi : i < 0
    · obtain ⟨s', h1, h2, h3⟩ := setAt_neg (v := v) h hi
      simp [step, JM.bind_apply, h1, h3]; omega
    · obtain ⟨s', h1, h2, h3, h4⟩ := setAt_spec (v := v) h (i := i) (by omega)
        (by simpa [ChunkStoreSpec.Legal] using hb.2)
      simp [step, JM.bind_apply, h1, h3, h4]

/-- C10 (power-of-two chunk sizes as in C09): after every legal history the capacity is a whole
number of chunks, is at least the initial one, exceeds every index that was set, and it only
grows along the way. -/
theorem C10_capacity (k : Nat) (hk : k ≤ 30) (initialSize : Int)
    (hn : initialSize ≤ 2 ^ 30) (d : α) (s0 : ChunkStore α)
    (hnew : ChunkStore.new initialSize (2 ^ k : Nat) d = .ok s0) (ops more : List (Op α))
    (hb : Allowed ChunkStoreSpec.step ChunkStoreSpec.Legal (fun _ => d) (ops ++ more)) :
    let s := (runM (step d) s0 ops).2
    let s' := (runM (step d) s0 (ops ++ more)).2
    (∃ n : Nat, s.capacity = n * (2 ^ k : Nat)) ∧ initialSize ≤ s.capacity ∧
    (∀ i ∈ setIndexes ops, i < s.capacity) ∧ s.capacity ≤ s'.capacity ∧
    getCapacity s = .ok s.capacity s := by
  -- one induction for monotonicity and the set indexes
  have key : ∀ (ops : List (Op α)) (s : ChunkStore α) (f : Int → α), Inv k d s f →
      Allowed ChunkStoreSpec.step ChunkStoreSpec.Legal f ops →
      s.capacity ≤ (runM (step d) s ops).2.capacity ∧
      ∀ i ∈ setIndexes ops, i < (runM (step d) s ops).2.capacity := by
    intro ops
    induction ops with
    | nil => intro s f _ _; exact ⟨Int.le_refl _, by simp [setIndexes]⟩
    | cons o os ih =>
      intro s f h hg
      have hc := step_capacity s f o h hg.1
      have := ih _ _ (step_spec s f o h hg.1).2 hg.2
      simp only [runM]
      refine ⟨by omega, ?_⟩
      cases o with
      | get i => exact this.2
      | set i v =>
        intro j hj
        simp only [setIndexes, List.mem_cons] at hj
        rcases hj with rfl | hj
        · have := hc.2 _ _ rfl; omega
        · exact this.2 j hj
  have hinv0 := inv_new hk hn hnew
  obtain ⟨hb1, hb2⟩ := (Allowed_append _ _ _ _ _).1 hb
  have hinv := (runM_refines (fun s a o h g => step_spec s a o h g) ops s0 _ hinv0 hb1).2
  intro s s'
  refine ⟨⟨_, hinv.cap⟩, ?_, (key ops s0 _ hinv0 hb1).2, ?_, rfl⟩
  · have h1 := (key ops s0 _ hinv0 hb1).1
    have h2 : initialSize ≤ s0.capacity := by
      have hp := pow_le_30 hk
      unfold ChunkStore.new at hnew
      simp only [nextPowerOf2_pow hk] at hnew
      split at hnew
      · simp at hnew
      · simp only [Except.ok.injEq] at hnew
        have hr : 0 ≤ ceilDiv initialSize (2 ^ k : Nat) := by omega
        have hmul : 0 ≤ ceilDiv initialSize (2 ^ k : Nat) * (2 ^ k : Nat) :=
          Int.mul_nonneg hr (by omega)
        have hle := ceilDiv_mul_le (a := initialSize) hk (by omega)
        have hge := ceilDiv_mul_ge (a := initialSize) (m := (2 ^ k : Nat)) (by omega)
        rw [← hnew]
        simp only
        rw [i32_of_range (by omega)]; exact hge
    show initialSize ≤ (runM (step d) s0 ops).2.capacity
    omega
  · show (runM (step d) s0 ops).2.capacity ≤ (runM (step d) s0 (ops ++ more)).2.capacity
    rw [runM_append]
    exact (key more _ _ hinv hb2).1

example : ∃ s0 : ChunkStore Int, ChunkStore.new 3 4 0 = .ok s0 ∧
    s0.capacity = 4 ∧ (runM (step 0) s0 [.set 9 5]).2.capacity = 12 := ⟨_, rfl, rfl, by decide⟩

/-- C10 refuted near 2^31: a store asked for `Integer.MAX_VALUE` cells in chunks of 2 computes a
*negative* capacity (32-bit overflow), so every `get` returns the default. -/
theorem C10_overflow_refuted (d : α) : ∃ s : ChunkStore α,
    ChunkStore.new MAX_INT 2 d = .ok s ∧ s.capacity = -2147483648 ∧
    ∀ i : Int, 0 ≤ i → getAt d i s = .ok d s := by
  have e1 : nextPowerOf2 2 = 2 := by decide
  have e2 : ceilDiv MAX_INT 2 = 1073741824 := by decide
  have e3 : i32 (1073741824 * 2) = -2147483648 := by decide
  unfold ChunkStore.new
  simp only [e1, e2, e3]
  rw [if_neg (by omega)]
  refine ⟨_, rfl, rfl, ?_⟩
  intro i hi
  unfold getAt
  rw [JM.bind_ok (JM.get_apply _), if_pos (by simp only; omega)]
  rfl
end chunk

section matrix
open MatrixStore

/-- C11 (partial: for power-of-two chunk sizes; `C11_not_pow2_refuted` shows that chunk size 3
fails): for every number of fields and every history, `get(row, field)` returns the value last set
at that row and field, or the default. -/
theorem C11_matrixStore_partial (k : Nat) (hk : k ≤ 30) (initialSize nf : Int)
    (hn : initialSize * nf ≤ 2 ^ 30) (d : α) (s : MatrixStore α)
    (hnew : MatrixStore.new initialSize (2 ^ k : Nat) nf d = .ok s) (ops : List (Op α))
    (hb : Allowed (MatrixStoreSpec.step nf) (MatrixStoreSpec.Legal nf) (fun _ _ => d) ops) :
    (runM (step d) s ops).1 = (runS (MatrixStoreSpec.step nf) (fun _ _ => d) ops).1 := by
  refine (runM_refines (fun s a o h g => step_spec (k := k) s a o h g) ops s _ ?_ hb).1
  exact ⟨_, inv_new hk hn hnew, fun _ _ _ _ _ => rfl, fun _ _ _ _ _ => rfl⟩

example : ∃ s : MatrixStore Int, MatrixStore.new 1 4 3 0 = .ok s ∧
    Allowed (MatrixStoreSpec.step 3) (MatrixStoreSpec.Legal 3) (fun _ _ => 0)
      [Op.set 2 1 5, .set 1 2 6, .get 2 1, .get 1 2, .get 0 3, .get (-1) 0, .get 9 0] ∧
    (runM (step 0) s
      [Op.set 2 1 5, .set 1 2 6, .get 2 1, .get 1 2, .get 0 3, .get (-1) 0, .get 9 0]).1 =
      [.ok none, .ok none, .ok (some 5), .ok (some 6), .error .rangeCheck,
       .error .indexOutOfBounds, .ok (some 0)] :=
  ⟨_, rfl, by simp [Allowed, MatrixStoreSpec.Legal], rfl⟩

/-- The aliasing computation, for an abstract rounded chunk size `K` (also the field count). -/
theorem MatrixStore.alias_run {c j m : Int} {K k : Nat} {d v w : α} (hc : 2 ≤ c) (hK : 0 < K)
    (hj0 : 0 ≤ j) (hj : j < K) (hj2 : j < 2147483648)
    (he : nextPowerOf2 c = K) (hreq : ceilDiv K K = 1) (e1 : i32 (c - 1) = m)
    (e2 : numberOfTrailingZeros K = k) (e3 : i32 (1 * K) = K)
    (hz : and32 j m = 0) (hs0 : shr32 0 (k : Int) = 0) (hsb : shr32 j (k : Int) = 0) :
    ∃ s, MatrixStore.new 1 c K d = .ok s ∧
      (runM (step d) s [.set 0 0 v, .set 0 j w, .get 0 0]).1 =
        [.ok none, .ok none, .ok (some w)] := by
  have hnew : MatrixStore.new 1 c K d = .ok
      { chunkSize := K, chunkMask := m, shift := k, numFields := K,
        chunks := Arr.create 1 (Arr.create K d), capacity := 1 } := by
    unfold MatrixStore.new
    have e4 : Int.tdiv K K = 1 := Int.tdiv_self (by omega)
    simp only [he, e3, hreq, e1, e2, e4]
    rw [if_neg (by omega), if_neg (by omega), if_neg (by omega), if_neg (by omega)]
  refine ⟨_, hnew, ?_⟩
  have i0 : i32 0 = 0 := by decide
  have hset : ∀ (x : Int) (val : α) (t : MatrixStore α), 0 < t.capacity → 0 ≤ x →
      x < t.numFields → x < 2147483648 →
      and32 x t.chunkMask = 0 → shr32 x t.shift = 0 → 0 < t.chunks.len → 0 < (t.chunks.get 0).len →
      setAt d 0 x val t = .ok () { t with
        chunks := t.chunks.set 0 ((t.chunks.get 0).set 0 val) } := by
    intro x val t hx hx0 hx1 hx2 ha hsx hl1 hl2
    unfold setAt
    rw [JM.bind_ok (JM.get_apply _), JM.bind_ok (range_ok t ⟨hx0, hx1⟩), JM.when_neg (by omega),
      JM.bind_ok (JM.pure_apply _ _), JM.bind_ok (JM.get_apply _)]
    have ix : i32 (i32 (0 * t.numFields) + x) = x := by
      rw [Int.zero_mul, i0, Int.zero_add, i32_of_range (by omega)]
    simp only [ix, ha, hsx]
    simp only [JM.bind_apply, rd, wr]
    simp [hl1, hl2]
  have hget : ∀ t : MatrixStore α, 0 < t.capacity → 0 < t.numFields →
      shr32 0 t.shift = 0 → 0 < t.chunks.len → 0 < (t.chunks.get 0).len →
      getAt d 0 0 t = .ok ((t.chunks.get 0).get 0) t := by
    intro t hx hn hsx hl1 hl2
    unfold getAt
    rw [JM.bind_ok (JM.get_apply _), JM.bind_ok (range_ok t ⟨by omega, hn⟩), if_neg (by omega)]
    have ix : i32 (i32 (0 * t.numFields) + 0) = 0 := by
      rw [Int.zero_mul, i0, Int.zero_add, i0]
    simp only [ix, and32_zero, hsx]
    simp only [JM.bind_apply, rd, rdA]
    simp [hl1, hl2]
  have hK' : (0:Int) < K := by omega
  generalize hs : (MatrixStore.mk (K : Int) m k (K : Int) (Arr.create 1 (Arr.create (K : Int) d)) 1)
    = s0
  have p1 : s0.capacity = 1 := by rw [← hs]
  have p2 : s0.chunkMask = m := by rw [← hs]
  have p3 : s0.shift = k := by rw [← hs]
  have p4 : s0.chunks = Arr.create 1 (Arr.create (K : Int) d) := by rw [← hs]
  have p5 : s0.numFields = K := by rw [← hs]
  clear hs hnew
  have h1 := hset 0 v s0 (by omega) (by omega) (by omega) (by omega) (and32_zero _)
    (by rw [p3]; exact hs0) (by simp [p4]) (by simpa [p4] using hK)
  generalize hs1 : ({ s0 with chunks := s0.chunks.set 0 ((s0.chunks.get 0).set 0 v) }
        : MatrixStore α) = s1 at h1
  have q1 : s1.capacity = 1 := by rw [← hs1]; exact p1
  have q2 : s1.chunkMask = m := by rw [← hs1]; exact p2
  have q3 : s1.shift = k := by rw [← hs1]; exact p3
  have q4 : s1.chunks = (Arr.create 1 (Arr.create (K : Int) d)).set 0
    ((Arr.create (K : Int) d).set 0 v) := by rw [← hs1]; simp [p4]
  have q5 : s1.numFields = K := by rw [← hs1]; exact p5
  clear hs1
  have h2 := hset j w s1 (by omega) (by omega) (by omega) hj2 (by rw [q2]; exact hz)
    (by rw [q3]; exact hsb) (by simp [q4]) (by simpa [q4] using hK)
  generalize hs2 : ({ s1 with chunks := s1.chunks.set 0 ((s1.chunks.get 0).set 0 w) }
        : MatrixStore α) = s2 at h2
  have r1 : s2.capacity = 1 := by rw [← hs2]; exact q1
  have r3 : s2.shift = k := by rw [← hs2]; exact q3
  have r5 : s2.numFields = K := by rw [← hs2]; exact q5
  have r4 : 0 < s2.chunks.len ∧ 0 < (s2.chunks.get 0).len ∧ (s2.chunks.get 0).get 0 = w := by
    rw [← hs2]; simpa [q4] using hK
  have h3 := hget s2 (by omega) (by omega) (by rw [r3]; exact hs0) r4.1 r4.2.1
  simp only [runM, step, JM.bind_apply, h1, h2, h3, JM.pure_apply, Res.state_ok, Res.out_ok, r4.2.2]

/-- C11 refuted for every chunk size that is not a power of two (same wrong mask,
KeyChunkMatrixStore.ftl:39): there are a number of fields and a field `j > 0` sharing its cell
with field 0 of the same row. -/
theorem C11_not_pow2_refuted (c : Int) (h1 : 2 ≤ c) (h2 : c < 2 ^ 30)
    (hc : ∀ k : Nat, c ≠ (2 ^ k : Nat)) (d v w : α) :
    ∃ nf j : Int, 0 < j ∧ j < nf ∧ ∃ s, MatrixStore.new 1 c nf d = .ok s ∧
      (runM (step d) s [.set 0 0 v, .set 0 j w, .get 0 0]).1 =
        [.ok none, .ok none, .ok (some w)] := by
  obtain ⟨k, hk, he, hv, hm⟩ := nextPowerOf2_spec (v := c) (by omega) (by omega)
  have hlt : c < (2 ^ k : Nat) := by have := hc k; omega
  obtain ⟨m, hmeq⟩ : ∃ m : Nat, c - 1 = (m : Int) := ⟨(c - 1).toNat, by omega⟩
  have hm1 : m < 2 ^ k - 1 := by omega
  obtain ⟨b, hb, hbit⟩ := exists_zero_bit hm1
  have hbk : 2 ^ b < 2 ^ k := Nat.pow_lt_pow_right (by omega) hb
  have hp := Nat.two_pow_pos b
  have hb30 : 2 ^ k ≤ 2 ^ 30 := Nat.pow_le_pow_right (by omega) hk
  have hreq : ceilDiv (2 ^ k : Nat) (2 ^ k : Nat) = 1 := by
    have a1 : ceilDiv (2 ^ k : Nat) (2 ^ k : Nat) ≤ 1 := by
      rw [ceilDiv_le_iff (by omega)]; omega
    have a2 : ¬ ceilDiv (2 ^ k : Nat) (2 ^ k : Nat) ≤ 0 := by
      rw [ceilDiv_le_iff (by omega)]; omega
    omega
  refine ⟨(2 ^ k : Nat), (2 ^ b : Nat), by omega, by omega, ?_⟩
  have hK : 0 < 2 ^ k := by omega
  have hj0 : 0 ≤ ((2 ^ b : Nat) : Int) := by omega
  have hj : ((2 ^ b : Nat) : Int) < (2 ^ k : Nat) := by omega
  have hj2 : ((2 ^ b : Nat) : Int) < 2147483648 := by omega
  have hz : and32 ((2 ^ b : Nat) : Int) (m : Int) = 0 :=
    and32_zero_bit (by omega) (by omega) hbit
  have hs0 : shr32 0 (k : Int) = 0 := by rw [shr32_pow hk]; simp
  have hsb : shr32 ((2 ^ b : Nat) : Int) (k : Int) = 0 := by
    rw [shr32_pow hk]
    exact Int.ediv_eq_zero_of_lt (by omega) (by omega)
  have e1 : i32 (c - 1) = m := by rw [i32_of_range (by omega)]; exact hmeq
  have e2 : numberOfTrailingZeros (2 ^ k : Nat) = k := ntzLoop_pow 64 k (by omega)
  have e3 : i32 (1 * (2 ^ k : Nat)) = (2 ^ k : Nat) := by
    rw [Int.one_mul, i32_of_range (by omega)]
  clear hbk hb30 hp hlt hm1 hv hm hbit
  generalize 2 ^ k = K at *
  generalize ((2 ^ b : Nat) : Int) = j at *
  exact MatrixStore.alias_run h1 hK hj0 hj hj2 he hreq e1 e2 e3 hz hs0 hsb

/-- C12: in *every* state, a field outside `[0, numFields)` is rejected with RangeCheckException
by both calls, and the store is exactly as before. -/
theorem C12_bad_field (d v : α) (s : MatrixStore α) (row field : Int)
    (h : field < 0 ∨ s.numFields ≤ field) :
    getAt d row field s = .err .rangeCheck s ∧ setAt d row field v s = .err .rangeCheck s := by
  constructor
  · unfold getAt
    rw [JM.bind_ok (JM.get_apply _), JM.bind_err (range_bad s h)]
  · unfold setAt
    rw [JM.bind_ok (JM.get_apply _), JM.bind_err (range_bad s h)]

/-- C12: RangeCheckException is thrown only for such fields. -/
theorem C12_only_bad_field (d v : α) (s s' : MatrixStore α) (row field : Int)
    (h : getAt d row field s = .err .rangeCheck s' ∨ setAt d row field v s = .err .rangeCheck s') :
    field < 0 ∨ s.numFields ≤ field := by
  apply Classical.byContradiction
  intro hok
  have hr := range_ok (nf := s.numFields) (c := field) s (by omega)
  rcases h with h | h
  · unfold getAt at h
    rw [JM.bind_ok (JM.get_apply _), JM.bind_ok hr] at h
    refine absurd rfl ((?_ : JM.ErrIn (· ≠ .rangeCheck) _) s _ s' h)
    refine .ite (fun _ => .pure _) (fun _ => ?_)
    exact .bind (ErrIn_rd (by decide) _ _) (fun _ => ErrIn_rdA (by decide) _ _)
  · unfold setAt at h
    rw [JM.bind_ok (JM.get_apply _), JM.bind_ok hr] at h
    refine absurd rfl ((?_ : JM.ErrIn (· ≠ .rangeCheck) _) s _ s' h)
    refine .bind (.when ?_) (fun _ => .bind .get (fun _ => .bind (ErrIn_rd (by decide) _ _)
      (fun _ => .ite (fun _ => ErrIn_wr (by decide) _ _ _ _) (fun _ => .throw (by decide)))))
    refine .bind .get (fun _ => .bind ?_ (fun _ => .modify _))
    intro t e t' hh
    unfold copyOf at hh
    simp only at hh
    split at hh <;> simp at hh
    rw [← hh.1]; decide

/-- C12: reading a row at or beyond the capacity gives the default and changes nothing. -/
theorem C12_get_beyond (d : α) (s : MatrixStore α) (row field : Int)
    (hf : 0 ≤ field ∧ field < s.numFields) (hr : s.capacity ≤ row) :
    getAt d row field s = .ok d s := by
  unfold getAt
  rw [JM.bind_ok (JM.get_apply _), JM.bind_ok (range_ok s hf), if_pos hr]
  rfl

example : ∃ s : MatrixStore Int, MatrixStore.new 1 4 3 0 = .ok s ∧
    getAt 0 1 2 s = .ok 0 s ∧ s.capacity = 1 := ⟨_, rfl, rfl, rfl⟩
end matrix

end Verif

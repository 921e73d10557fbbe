import Verif.Spec.Stores
import Verif.Proofs.Arrays
import Verif.Trace
namespace Verif
variable {α : Type}

theorem pow_le_30 {k : Nat} (hk : k ≤ 30) : 1 ≤ ((2 ^ k : Nat) : Int) ∧
    ((2 ^ k : Nat) : Int) ≤ 1073741824 := by
  have hb : 2 ^ k ≤ 2 ^ 30 := Nat.pow_le_pow_right (by omega) hk
  have := Nat.two_pow_pos k
  generalize 2 ^ k = y at *
  omega

theorem nextPowerOf2_pow {k : Nat} (hk : k ≤ 30) :
    nextPowerOf2 ((2 ^ k : Nat) : Int) = (2 ^ k : Nat) := by
  have hp := pow_le_30 hk
  obtain ⟨j, hj, he, hv, hm⟩ := nextPowerOf2_spec hp.1 hp.2
  have hjk : j = k := by
    have h1 : k ≤ j := by
      apply Classical.byContradiction
      intro hlt
      have : 2 ^ (j + 1) ≤ 2 ^ k := Nat.pow_le_pow_right (by omega) (by omega)
      rw [Nat.pow_succ] at this
      have := Nat.two_pow_pos j
      generalize 2 ^ j = y at *
      generalize 2 ^ k = z at *
      omega
    rcases hm with h0 | h0
    · omega
    · apply Classical.byContradiction
      intro hne
      have : 2 ^ k ≤ 2 ^ (j - 1) := Nat.pow_le_pow_right (by omega) (by omega)
      generalize 2 ^ (j - 1) = y at *
      generalize 2 ^ k = z at *
      omega
  rw [he, hjk]

theorem ntzLoop_pow : ∀ (fuel k : Nat), k < fuel → ntzLoop fuel ((2 ^ k : Nat) : Int) = k
  | 0, k, h => by omega
  | fuel + 1, 0, _ => by
    unfold ntzLoop; simp
  | fuel + 1, k + 1, h => by
    unfold ntzLoop
    rw [Nat.pow_succ]
    have e : (((2 ^ k * 2 : Nat) : Int)) % 2 = 0 := by omega
    have e' : (((2 ^ k * 2 : Nat) : Int)) / 2 = ((2 ^ k : Nat) : Int) := by omega
    rw [if_neg (by omega), e', ntzLoop_pow fuel k (by omega)]
    omega

theorem and32_mask {x : Int} {k : Nat} (h0 : 0 ≤ x) (h1 : x < 2147483648) (hk : k ≤ 30) :
    and32 x (((2 ^ k : Nat) : Int) - 1) = x % (2 ^ k : Nat) := by
  obtain ⟨n, rfl⟩ : ∃ n : Nat, x = n := ⟨x.toNat, by omega⟩
  have hp := Nat.two_pow_pos k
  have hb : 2 ^ k ≤ 2 ^ 30 := Nat.pow_le_pow_right (by omega) hk
  have e1 : ((2 ^ k : Nat) : Int) - 1 = ((2 ^ k - 1 : Nat) : Int) := by omega
  unfold and32
  rw [e1, BitVec.ofInt_natCast, BitVec.ofInt_natCast]
  have e2 : (BitVec.ofNat 32 n &&& BitVec.ofNat 32 (2 ^ k - 1)).toNat = n % 2 ^ k := by
    rw [BitVec.toNat_and, BitVec.toNat_ofNat, BitVec.toNat_ofNat,
      Nat.mod_eq_of_lt (by omega), Nat.mod_eq_of_lt (a := 2 ^ k - 1) (by omega),
      Nat.and_two_pow_sub_one_eq_mod]
  rw [BitVec.toInt_eq_toNat_of_lt]
  · rw [e2]; simp
  · rw [e2]
    have := Nat.mod_lt n hp
    generalize 2 ^ k = y at *
    omega

theorem shr32_pow {x : Int} {k : Nat} (hk : k ≤ 30) : shr32 x k = x / (2 ^ k : Nat) := by
  unfold shr32
  have : ((k : Int) % 32).toNat = k := by omega
  rw [this]

theorem ceilDiv_le_iff {a m q : Int} (hm : 0 < m) : ceilDiv a m ≤ q ↔ a ≤ q * m := by
  unfold ceilDiv
  have := Int.le_ediv_iff_mul_le (a := -q) (b := -a) (c := m) hm
  rw [Int.neg_mul] at this
  omega

theorem ceilDiv_mul_ge {a m : Int} (hm : 0 < m) : a ≤ ceilDiv a m * m :=
  (ceilDiv_le_iff hm).1 (Int.le_refl _)

/-- Rounding a size of at most 2^30 up to whole chunks of 2^k stays within 2^30. -/
theorem ceilDiv_mul_le {a : Int} {k : Nat} (hk : k ≤ 30) (ha : a ≤ 1073741824) :
    ceilDiv a (2 ^ k : Nat) * (2 ^ k : Nat) ≤ 1073741824 := by
  have hm : (0 : Int) < (2 ^ k : Nat) := by have := pow_le_30 hk; omega
  have e : ((2 ^ (30 - k) : Nat) : Int) * ((2 ^ k : Nat) : Int) = 1073741824 := by
    rw [← Int.natCast_mul, ← Nat.pow_add]
    have : 30 - k + k = 30 := by omega
    rw [this]; rfl
  have h1 : ceilDiv a (2 ^ k : Nat) ≤ (2 ^ (30 - k) : Nat) := by
    rw [ceilDiv_le_iff hm]
    rw [e]; exact ha
  have := Int.mul_le_mul_of_nonneg_right h1 (Int.le_of_lt hm)
  rw [e] at this
  exact this

/-- The cells of `L` chunks of size `2^k`, read as one flat array. -/
structure Flat (k : Nat) (chunks : Arr (Arr α)) (d : α) (f : Int → α) : Prop where
  lens : ∀ c : Int, 0 ≤ c → c < chunks.len → (chunks.get c).len = 2 ^ k
  vals : ∀ x : Int, 0 ≤ x → x < chunks.len * (2 ^ k : Nat) →
    (chunks.get (x / (2 ^ k : Nat))).get (x % (2 ^ k : Nat)) = f x
  rest : ∀ x : Int, (chunks.len : Int) * (2 ^ k : Nat) ≤ x → f x = d

theorem Flat.create (k : Nat) (n : Int) (d : α) :
    Flat k (Arr.create n (Arr.create (2 ^ k : Nat) d)) d (fun _ => d) := by
  constructor <;> intros <;> simp
  exact_mod_cast Int.toNat_natCast (2 ^ k)

theorem Flat.grown {k : Nat} {chunks : Arr (Arr α)} {d : α} {f : Int → α}
    (h : Flat k chunks d f) {n : Int} (hn : (chunks.len : Int) ≤ n) :
    Flat k (chunks.copyOf n (Arr.create (2 ^ k : Nat) d)) d f := by
  have hm : (0 : Int) < (2 ^ k : Nat) := by have := Nat.two_pow_pos k; omega
  have hle : (chunks.len : Int) * (2 ^ k : Nat) ≤ n.toNat * (2 ^ k : Nat) :=
    Int.mul_le_mul_of_nonneg_right (by omega) (by omega)
  constructor
  · intro c h0 h1
    rw [Arr.get_copyOf]
    split
    · exact h.lens c h0 (by assumption)
    · simp
      exact_mod_cast Int.toNat_natCast (2 ^ k)
  · intro x h0 h1
    simp only [Arr.len_copyOf] at h1
    rw [Arr.get_copyOf]
    split
    · rename_i hlt
      refine h.vals x h0 ?_
      have := (Int.ediv_lt_iff_lt_mul hm).1 hlt
      exact this
    · rename_i hlt
      rw [Int.ediv_lt_iff_lt_mul hm] at hlt
      simp only [Arr.get_create]
      exact (h.rest x (by omega)).symm
  · intro x hx
    simp only [Arr.len_copyOf] at hx
    exact h.rest x (by omega)

theorem Flat.set {k : Nat} {chunks : Arr (Arr α)} {d : α} {f : Int → α}
    (h : Flat k chunks d f) {x : Int} (v : α) (h0 : 0 ≤ x)
    (h1 : x < chunks.len * (2 ^ k : Nat)) :
    Flat k (chunks.set (x / (2 ^ k : Nat))
      ((chunks.get (x / (2 ^ k : Nat))).set (x % (2 ^ k : Nat)) v)) d
      (fun j => if j = x then v else f j) := by
  have hm : (0 : Int) < (2 ^ k : Nat) := by have := Nat.two_pow_pos k; omega
  constructor
  · intro c hc0 hc1
    rw [Arr.get_set]
    split
    · subst_vars; exact h.lens _ hc0 hc1
    · exact h.lens c hc0 hc1
  · intro y hy0 hy1
    by_cases hyx : y = x
    · subst hyx; simp
    · rw [if_neg hyx, Arr.get_set]
      split
      · rename_i hc
        rw [Arr.get_set_ne]
        · rw [← hc]; exact h.vals y hy0 hy1
        · intro hmod
          apply hyx
          rw [← Int.mul_ediv_add_emod y (2 ^ k : Nat), ← Int.mul_ediv_add_emod x (2 ^ k : Nat),
            hc, hmod]
      · exact h.vals y hy0 hy1
  · intro y hy
    simp only [Arr.len_set] at hy
    rw [if_neg (by omega)]; exact h.rest y hy

theorem Flat.chunk_bounds {k : Nat} {chunks : Arr (Arr α)} {d : α} {f : Int → α}
    (h : Flat k chunks d f) {x : Int} (h0 : 0 ≤ x)
    (h1 : x < chunks.len * (2 ^ k : Nat)) :
    (0 ≤ x / (2 ^ k : Nat) ∧ x / (2 ^ k : Nat) < chunks.len) ∧
    (0 ≤ x % (2 ^ k : Nat) ∧ x % (2 ^ k : Nat) < (chunks.get (x / (2 ^ k : Nat))).len) := by
  have hm : (0 : Int) < (2 ^ k : Nat) := by have := Nat.two_pow_pos k; omega
  have hc : 0 ≤ x / (2 ^ k : Nat) ∧ x / (2 ^ k : Nat) < chunks.len :=
    ⟨Int.ediv_nonneg h0 (by omega), (Int.ediv_lt_iff_lt_mul hm).2 h1⟩
  refine ⟨hc, Int.emod_nonneg _ (by omega), ?_⟩
  rw [h.lens _ hc.1 hc.2]
  exact Int.emod_lt_of_pos _ hm

theorem ediv_pow_neg {x : Int} {k : Nat} (h : x < 0) : x / ((2 ^ k : Nat) : Int) < 0 := by
  have hm : (0 : Int) < (2 ^ k : Nat) := by have := Nat.two_pow_pos k; omega
  exact Int.ediv_neg_of_neg_of_pos h hm

namespace ChunkStore

structure Inv (k : Nat) (d : α) (s : ChunkStore α) (f : Int → α) : Prop where
  hk : k ≤ 30
  cs : s.chunkSize = (2 ^ k : Nat)
  mask : s.chunkMask = ((2 ^ k : Nat) : Int) - 1
  shift : s.shift = k
  cap : s.capacity = s.chunks.len * (2 ^ k : Nat)
  capLe : s.capacity ≤ 1073741824
  flat : Flat k s.chunks d f

theorem inv_new {k : Nat} (hk : k ≤ 30) {d : α} {n : Int} {s : ChunkStore α}
    (hn : n ≤ 2 ^ 30) (h : ChunkStore.new n (2 ^ k : Nat) d = .ok s) :
    Inv k d s (fun _ => d) := by
  have hp := pow_le_30 hk
  unfold ChunkStore.new at h
  simp only [nextPowerOf2_pow hk] at h
  split at h
  · simp at h
  · simp only [Except.ok.injEq] at h
    have hr : 0 ≤ ceilDiv n (2 ^ k : Nat) := by omega
    have hmul : 0 ≤ ceilDiv n (2 ^ k : Nat) * (2 ^ k : Nat) := Int.mul_nonneg hr (by omega)
    have hle := ceilDiv_mul_le (a := n) hk (by omega)
    subst h
    refine ⟨hk, rfl, ?_, ?_, ?_, ?_, Flat.create _ _ _⟩
    · exact i32_of_range (by omega)
    · exact ntzLoop_pow 64 k (by omega)
    · simp only [Arr.len_create]
      rw [i32_of_range (by omega)]
      congr 1; omega
    · simp only
      rw [i32_of_range (by omega)]; exact hle

theorem getAt_spec {k : Nat} {d : α} {s : ChunkStore α} {f : Int → α} (h : Inv k d s f)
    {i : Int} (hi : 0 ≤ i) : getAt d i s = .ok (f i) s := by
  obtain ⟨hk, hcs, hm, hsh, hcap, hle, hf⟩ := h
  unfold getAt
  rw [JM.bind_ok (JM.get_apply _)]
  by_cases hc : i ≥ s.capacity
  · rw [if_pos hc, hf.rest i (by omega)]; rfl
  · rw [if_neg hc]
    obtain ⟨h1, h2⟩ := hf.chunk_bounds hi (by omega)
    simp only [hm, hsh, shr32_pow hk, and32_mask hi (by omega) hk]
    rw [JM.bind_ok (rd_ok ChunkStore.chunks h1), rdA_ok _ h2, hf.vals i hi (by omega)]

theorem getAt_neg {k : Nat} {d : α} {s : ChunkStore α} {f : Int → α} (h : Inv k d s f)
    {i : Int} (hi : i < 0) : getAt d i s = .err .indexOutOfBounds s := by
  obtain ⟨hk, hcs, hm, hsh, hcap, hle, hf⟩ := h
  have hcap0 : 0 ≤ s.capacity := by
    rw [hcap]; exact Int.mul_nonneg (Int.natCast_nonneg _) (Int.natCast_nonneg _)
  unfold getAt
  rw [JM.bind_ok (JM.get_apply _), if_neg (by omega)]
  simp only [hsh, shr32_pow hk]
  have := ediv_pow_neg (k := k) hi
  rw [JM.bind_err]
  unfold rd
  simp only
  rw [if_neg (by omega)]

theorem grow_spec {k : Nat} {d : α} {s : ChunkStore α} {f : Int → α} (h : Inv k d s f)
    {n : Int} (hn : s.capacity ≤ n) (hn' : n ≤ 1073741824) :
    ∃ s', grow d n s = .ok () s' ∧ Inv k d s' f ∧ n ≤ s'.capacity ∧
      s.capacity ≤ s'.capacity ∧ s'.limit = s.limit := by
  obtain ⟨hk, hcs, hm, hsh, hcap, hle, hf⟩ := h
  have hp := pow_le_30 hk
  have hreq : (s.chunks.len : Int) ≤ ceilDiv n (2 ^ k : Nat) := by
    have h1 := ceilDiv_mul_ge (a := n) (m := (2 ^ k : Nat)) (by omega)
    have : (s.chunks.len : Int) * (2 ^ k : Nat) ≤ ceilDiv n (2 ^ k : Nat) * (2 ^ k : Nat) := by
      omega
    exact Int.le_of_mul_le_mul_right this (by omega)
  have hle' := ceilDiv_mul_le (a := n) hk hn'
  have hge := ceilDiv_mul_ge (a := n) (m := (2 ^ k : Nat)) (by omega)
  unfold grow
  rw [JM.bind_ok (JM.get_apply _)]
  simp only [hcs]
  rw [JM.bind_ok (copyOf_ok _ _ (by omega))]
  have e : ((ceilDiv n (2 ^ k : Nat)).toNat : Int) = ceilDiv n (2 ^ k : Nat) := by omega
  have hmul : 0 ≤ ceilDiv n (2 ^ k : Nat) * (2 ^ k : Nat) := Int.mul_nonneg (by omega) (by omega)
  have ecap : i32 ((s.chunks.copyOf (ceilDiv n (2 ^ k : Nat)) (Arr.create (2 ^ k : Nat) d)).len *
      s.chunkSize) = ceilDiv n (2 ^ k : Nat) * (2 ^ k : Nat) := by
    rw [Arr.len_copyOf, e, hcs]
    exact i32_of_range (by omega)
  generalize ceilDiv n (2 ^ k : Nat) = R at *
  refine ⟨_, rfl, ⟨hk, hcs, hm, hsh, ?_, ?_, hf.grown hreq⟩, ?_, ?_, rfl⟩
  · simp only; rw [ecap, Arr.len_copyOf, e]
  · simp only [ecap]; exact hle'
  · simp only [ecap]; exact hge
  · simp only [ecap]; omega

theorem setAt_spec {k : Nat} {d v : α} {s : ChunkStore α} {f : Int → α} (h : Inv k d s f)
    {i : Int} (hi : 0 ≤ i) (hi' : i < 1073741824) :
    ∃ s', setAt d i v s = .ok () s' ∧ Inv k d s' (fun j => if j = i then v else f j) ∧
      i < s'.capacity ∧ s.capacity ≤ s'.capacity := by
  -- first the growth step
  have key : ∃ s1, JM.when (i ≥ s.capacity) (grow d (i32 (i + 1))) s = .ok () s1 ∧
      Inv k d s1 f ∧ i < s1.capacity ∧ s.capacity ≤ s1.capacity := by
    by_cases hc : i ≥ s.capacity
    · rw [JM.when_pos hc, i32_of_range (by omega)]
      obtain ⟨s1, h1, h2, h3, h4, _⟩ := grow_spec h (n := i + 1) (by omega) (by omega)
      exact ⟨s1, h1, h2, by omega, h4⟩
    · rw [JM.when_neg hc]
      exact ⟨s, rfl, h, by omega, by omega⟩
  obtain ⟨s1, h1, h2, h3, h4⟩ := key
  unfold setAt
  rw [JM.bind_ok (JM.get_apply _)]
  rw [JM.bind_ok h1, JM.bind_ok (JM.modify_apply _ _), JM.bind_ok (JM.get_apply _)]
  have h2' : Inv k d { s1 with limit := max s1.limit i } f :=
    ⟨h2.hk, h2.cs, h2.mask, h2.shift, h2.cap, h2.capLe, h2.flat⟩
  generalize hs2 : ({ s1 with limit := max s1.limit i } : ChunkStore α) = s2 at h2' ⊢
  have hcap2 : s2.capacity = s1.capacity := by rw [← hs2]
  obtain ⟨hk, hcs, hm, hsh, hcap, hle, hf⟩ := h2'
  obtain ⟨b1, b2⟩ := hf.chunk_bounds hi (by omega)
  simp only [hm, hsh, shr32_pow hk, and32_mask hi (by omega) hk]
  rw [JM.bind_ok (rd_ok ChunkStore.chunks b1), if_pos b2, wr_ok ChunkStore.chunks _ b1]
  refine ⟨_, rfl, ⟨hk, hcs, hm, hsh, hcap, hle, hf.set v hi (by omega)⟩, ?_, ?_⟩
  · simp only; omega
  · simp only; omega

theorem setAt_neg {k : Nat} {d v : α} {s : ChunkStore α} {f : Int → α} (h : Inv k d s f)
    {i : Int} (hi : i < 0) :
    ∃ s', setAt d i v s = .err .indexOutOfBounds s' ∧ Inv k d s' f ∧ s'.capacity = s.capacity := by
  obtain ⟨hk, hcs, hm, hsh, hcap, hle, hf⟩ := h
  have hcap0 : 0 ≤ s.capacity := by
    rw [hcap]; exact Int.mul_nonneg (Int.natCast_nonneg _) (Int.natCast_nonneg _)
  unfold setAt
  rw [JM.bind_ok (JM.get_apply _), JM.when_neg (by omega), JM.bind_ok (JM.pure_apply _ _),
    JM.bind_ok (JM.modify_apply _ _), JM.bind_ok (JM.get_apply _)]
  have h2' : Inv k d { s with limit := max s.limit i } f := ⟨hk, hcs, hm, hsh, hcap, hle, hf⟩
  generalize hs2 : ({ s with limit := max s.limit i } : ChunkStore α) = s2 at h2' ⊢
  have hcap2 : s2.capacity = s.capacity := by rw [← hs2]
  have := ediv_pow_neg (k := k) hi
  simp only [h2'.shift, shr32_pow hk]
  refine ⟨s2, ?_, h2', hcap2⟩
  rw [JM.bind_err]
  unfold rd
  simp only
  rw [if_neg (by omega)]

theorem step_spec {k : Nat} {d : α} (s : ChunkStore α) (f : Int → α) (o : Op α)
    (h : Inv k d s f) (hb : ChunkStoreSpec.Legal o f) :
    (step d o s).out = (ChunkStoreSpec.step o f).1 ∧
      Inv k d (step d o s).state (ChunkStoreSpec.step o f).2 := by
  cases o with
  | get i =>
    simp only [ChunkStoreSpec.step]
    by_cases hi : i < 0
    · simp [step, JM.bind_apply, getAt_neg h hi, hi, h]
    · simp [step, JM.bind_apply, getAt_spec h (i := i) (by omega), hi, h]
  | set i v =>
    simp only [ChunkStoreSpec.step]
    by_cases hi : i < 0
    · obtain ⟨s', h1, h2, _⟩ := setAt_neg (v := v) h hi
      simp [step, JM.bind_apply, h1, hi, h2]
    · obtain ⟨s', h1, h2, _⟩ := setAt_spec (v := v) h (i := i) (by omega)
        (by simpa [ChunkStoreSpec.Legal] using hb.2)
      simp [step, JM.bind_apply, h1, hi, h2]

end ChunkStore

namespace MatrixStore

/-- `f` gives the value of each cell by absolute index. -/
structure Inv (k : Nat) (nf : Int) (d : α) (s : MatrixStore α) (f : Int → α) : Prop where
  hk : k ≤ 30
  hnf : 1 ≤ nf
  nfEq : s.numFields = nf
  cs : s.chunkSize = (2 ^ k : Nat)
  mask : s.chunkMask = ((2 ^ k : Nat) : Int) - 1
  shift : s.shift = k
  cap : s.capacity = (s.chunks.len * (2 ^ k : Nat)) / nf
  rawLe : (s.chunks.len : Int) * (2 ^ k : Nat) ≤ 1073741824
  flat : Flat k s.chunks d f

theorem Inv.cap0 {k : Nat} {nf : Int} {d : α} {s : MatrixStore α} {f : Int → α}
    (h : Inv k nf d s f) : 0 ≤ s.capacity := by
  rw [h.cap]
  exact Int.ediv_nonneg (Int.mul_nonneg (Int.natCast_nonneg _) (Int.natCast_nonneg _)) (by have := h.hnf; omega)

theorem inv_new {k : Nat} (hk : k ≤ 30) {d : α} {n nf : Int} {s : MatrixStore α}
    (hn : n * nf ≤ 2 ^ 30) (h : MatrixStore.new n (2 ^ k : Nat) nf d = .ok s) :
    Inv k nf d s (fun _ => d) := by
  have hp := pow_le_30 hk
  unfold MatrixStore.new at h
  simp only [nextPowerOf2_pow hk] at h
  split at h
  · simp at h
  split at h
  · simp at h
  split at h
  · simp at h
  rename_i g1 g2 g3
  have hnn : 0 ≤ n * nf := Int.mul_nonneg (by omega) (by omega)
  rw [i32_of_range (x := n * nf) (by omega)] at h
  split at h
  · simp at h
  · simp only [Except.ok.injEq] at h
    have hr : 0 ≤ ceilDiv (n * nf) (2 ^ k : Nat) := by omega
    have hmul : 0 ≤ ceilDiv (n * nf) (2 ^ k : Nat) * (2 ^ k : Nat) := Int.mul_nonneg hr (by omega)
    have hle := ceilDiv_mul_le (a := n * nf) hk (by omega)
    have e : ((ceilDiv (n * nf) (2 ^ k : Nat)).toNat : Int) = ceilDiv (n * nf) (2 ^ k : Nat) := by
      omega
    subst h
    refine ⟨hk, by omega, rfl, rfl, ?_, ?_, ?_, ?_, Flat.create _ _ _⟩
    · exact i32_of_range (by omega)
    · exact ntzLoop_pow 64 k (by omega)
    · simp only [Arr.len_create, e]
      rw [i32_of_range (by omega), Int.tdiv_eq_ediv_of_nonneg hmul]
    · simp only [Arr.len_create, e]; exact hle

/-- A row below the row capacity lies entirely inside the chunks. -/
theorem Inv.row_in {k : Nat} {nf : Int} {d : α} {s : MatrixStore α} {f : Int → α}
    (h : Inv k nf d s f) {r c : Int} (hr : r < s.capacity) (hc : c < nf) :
    r * nf + c < s.chunks.len * (2 ^ k : Nat) := by
  have hnf := h.hnf
  rw [h.cap] at hr
  have h1 : r + 1 ≤ (s.chunks.len * (2 ^ k : Nat)) / nf := by omega
  rw [Int.le_ediv_iff_mul_le (by omega), Int.add_mul] at h1
  omega

theorem Inv.row_out {k : Nat} {nf : Int} {d : α} {s : MatrixStore α} {f : Int → α}
    (h : Inv k nf d s f) {r : Int} (hr : s.capacity ≤ r) :
    s.chunks.len * (2 ^ k : Nat) < (r + 1) * nf := by
  have hnf := h.hnf
  rw [h.cap] at hr
  have h1 : (s.chunks.len * (2 ^ k : Nat)) / nf < r + 1 := by omega
  rwa [Int.ediv_lt_iff_lt_mul (by omega)] at h1

theorem range_ok {σ : Type} {nf c : Int} (s : σ) (h : 0 ≤ c ∧ c < nf) :
    assertWithinRange 0 (nf - 1) c s = .ok () s := by
  unfold assertWithinRange; rw [if_neg (by omega)]; rfl

theorem range_bad {σ : Type} {nf c : Int} (s : σ) (h : c < 0 ∨ nf ≤ c) :
    assertWithinRange 0 (nf - 1) c s = .err .rangeCheck s := by
  unfold assertWithinRange; rw [if_pos (by omega)]; rfl

/-- All rows at or beyond the capacity still read as default. -/
def RowsDefault (s : MatrixStore α) (nf : Int) (d : α) (f : Int → α) : Prop :=
  ∀ r c : Int, s.capacity ≤ r → 0 ≤ c → c < nf → f (r * nf + c) = d

theorem getAt_spec {k : Nat} {nf : Int} {d : α} {s : MatrixStore α} {f : Int → α}
    (h : Inv k nf d s f) (hd : RowsDefault s nf d f) {r c : Int} (hr : 0 ≤ r)
    (hc : 0 ≤ c ∧ c < nf) : getAt d r c s = .ok (f (r * nf + c)) s := by
  unfold getAt
  rw [JM.bind_ok (JM.get_apply _), h.nfEq, JM.bind_ok (range_ok s hc)]
  by_cases hcap : r ≥ s.capacity
  · rw [if_pos hcap, hd r c hcap hc.1 hc.2]; rfl
  · rw [if_neg hcap]
    have hin := h.row_in (r := r) (c := c) (by omega) hc.2
    have hraw := h.rawLe
    have hmul : 0 ≤ r * nf := Int.mul_nonneg hr (by have := h.hnf; omega)
    obtain ⟨b1, b2⟩ := h.flat.chunk_bounds (x := r * nf + c) (by omega) hin
    rw [i32_of_range (x := r * nf) (by omega), i32_of_range (x := r * nf + c) (by omega)]
    simp only [h.mask, h.shift, shr32_pow h.hk,
      and32_mask (x := r * nf + c) (by omega) (by omega) h.hk]
    rw [JM.bind_ok (rd_ok MatrixStore.chunks b1), rdA_ok _ b2,
      h.flat.vals _ (by omega) hin]

theorem getAt_negRow {k : Nat} {nf : Int} {d : α} {s : MatrixStore α} {f : Int → α}
    (h : Inv k nf d s f) {r c : Int} (hr : r < 0) (hr' : -2147483648 ≤ r * nf)
    (hc : 0 ≤ c ∧ c < nf) : getAt d r c s = .err .indexOutOfBounds s := by
  unfold getAt
  have hcap0 := h.cap0
  have hnf := h.hnf
  rw [JM.bind_ok (JM.get_apply _), h.nfEq, JM.bind_ok (range_ok s hc), if_neg (by omega)]
  have hneg : r * nf ≤ -nf := by
    have : r * nf ≤ (-1) * nf := Int.mul_le_mul_of_nonneg_right (by omega) (by omega)
    omega
  rw [i32_of_range (x := r * nf) (by omega), i32_of_range (x := r * nf + c) (by omega)]
  simp only [h.shift, shr32_pow h.hk]
  have := ediv_pow_neg (k := k) (x := r * nf + c) (by omega)
  rw [JM.bind_err]
  unfold rd
  simp only
  rw [if_neg (by omega)]

theorem grow_spec {k : Nat} {nf : Int} {d : α} {s : MatrixStore α} {f : Int → α}
    (h : Inv k nf d s f) {r : Int} (hr : s.capacity ≤ r) (hr' : (r + 1) * nf ≤ 1073741824) :
    ∃ s', grow d (r + 1) s = .ok () s' ∧ Inv k nf d s' f ∧ r < s'.capacity ∧
      s.capacity ≤ s'.capacity := by
  have hout := h.row_out hr
  have hcap0 := h.cap0
  have hr0 : 0 ≤ r := by omega
  have hpos : 0 ≤ (r + 1) * nf := Int.mul_nonneg (by omega) (by have := h.hnf; omega)
  obtain ⟨hk, hnf, hnfe, hcs, hm, hsh, hcap, hle, hf⟩ := h
  have hp := pow_le_30 hk
  have hge := ceilDiv_mul_ge (a := (r + 1) * nf) (m := (2 ^ k : Nat)) (by omega)
  have hreq : (s.chunks.len : Int) ≤ ceilDiv ((r + 1) * nf) (2 ^ k : Nat) := by
    have : (s.chunks.len : Int) * (2 ^ k : Nat) ≤
        ceilDiv ((r + 1) * nf) (2 ^ k : Nat) * (2 ^ k : Nat) := by omega
    exact Int.le_of_mul_le_mul_right this (by omega)
  have hle' := ceilDiv_mul_le (a := (r + 1) * nf) hk hr'
  unfold grow
  rw [JM.bind_ok (JM.get_apply _), hnfe, i32_of_range (x := (r + 1) * nf) (by omega)]
  simp only [hcs]
  rw [JM.bind_ok (copyOf_ok _ _ (by omega))]
  generalize hR : ceilDiv ((r + 1) * nf) (2 ^ k : Nat) = R at *
  have hmul : 0 ≤ R * (2 ^ k : Nat) := by omega
  have e : ((R.toNat : Nat) : Int) = R := by omega
  have ecap : Int.tdiv (i32 (((s.chunks.copyOf R (Arr.create (2 ^ k : Nat) d)).len : Int) *
      s.chunkSize)) s.numFields = (R * (2 ^ k : Nat)) / nf := by
    rw [Arr.len_copyOf, e, hcs, hnfe, i32_of_range (by omega), Int.tdiv_eq_ediv_of_nonneg hmul]
  refine ⟨_, rfl, ⟨hk, hnf, hnfe, hcs, hm, hsh, ?_, ?_, hf.grown hreq⟩, ?_, ?_⟩
  · simp only
    rw [ecap, Arr.len_copyOf, e]
  · simp only [Arr.len_copyOf, e]; exact hle'
  · simp only
    rw [ecap]
    have : r + 1 ≤ (R * (2 ^ k : Nat)) / nf := by
      rw [Int.le_ediv_iff_mul_le (by omega)]; exact hge
    omega
  · simp only
    rw [ecap]
    have : r + 1 ≤ (R * (2 ^ k : Nat)) / nf := by
      rw [Int.le_ediv_iff_mul_le (by omega)]; exact hge
    omega

theorem setAt_spec {k : Nat} {nf : Int} {d v : α} {s : MatrixStore α} {f : Int → α}
    (h : Inv k nf d s f) {r c : Int} (hr : 0 ≤ r) (hr' : (r + 1) * nf ≤ 1073741824)
    (hc : 0 ≤ c ∧ c < nf) :
    ∃ s', setAt d r c v s = .ok () s' ∧
      Inv k nf d s' (fun j => if j = r * nf + c then v else f j) ∧
      r < s'.capacity ∧ s.capacity ≤ s'.capacity := by
  have key : ∃ s1, JM.when (r ≥ s.capacity) (grow d (i32 (r + 1))) s = .ok () s1 ∧
      Inv k nf d s1 f ∧ r < s1.capacity ∧ s.capacity ≤ s1.capacity := by
    by_cases hcp : r ≥ s.capacity
    · have hnf := h.hnf
      have : r + 1 ≤ (r + 1) * nf := by
        have := Int.mul_le_mul_of_nonneg_left (c := r + 1) hnf (by omega)
        omega
      rw [JM.when_pos hcp, i32_of_range (by omega)]
      obtain ⟨s1, h1, h2, h3, h4⟩ := grow_spec h (r := r) (by omega) (by omega)
      exact ⟨s1, h1, h2, by omega, h4⟩
    · rw [JM.when_neg hcp]
      exact ⟨s, rfl, h, by omega, by omega⟩
  obtain ⟨s1, h1, h2, h3, h4⟩ := key
  unfold setAt
  rw [JM.bind_ok (JM.get_apply _), h.nfEq, JM.bind_ok (range_ok s hc), JM.bind_ok h1,
    JM.bind_ok (JM.get_apply _), h2.nfEq]
  have hin := h2.row_in (r := r) (c := c) (by omega) hc.2
  have hraw := h2.rawLe
  have hmul : 0 ≤ r * nf := Int.mul_nonneg hr (by have := h.hnf; omega)
  obtain ⟨b1, b2⟩ := h2.flat.chunk_bounds (x := r * nf + c) (by omega) hin
  rw [i32_of_range (x := r * nf) (by omega), i32_of_range (x := r * nf + c) (by omega)]
  simp only [h2.mask, h2.shift, shr32_pow h2.hk,
    and32_mask (x := r * nf + c) (by omega) (by omega) h2.hk]
  rw [JM.bind_ok (rd_ok MatrixStore.chunks b1), if_pos b2, wr_ok MatrixStore.chunks _ b1]
  obtain ⟨hk, hnf, hnfe, hcs, hm, hsh, hcap, hle, hf⟩ := h2
  exact ⟨_, rfl, ⟨hk, hnf, hnfe, hcs, hm, hsh, hcap, hle, hf.set v (by omega) hin⟩, h3, h4⟩

theorem setAt_negRow {k : Nat} {nf : Int} {d v : α} {s : MatrixStore α} {f : Int → α}
    (h : Inv k nf d s f) {r c : Int} (hr : r < 0) (hr' : -2147483648 ≤ r * nf)
    (hc : 0 ≤ c ∧ c < nf) : setAt d r c v s = .err .indexOutOfBounds s := by
  unfold setAt
  have hcap0 := h.cap0
  have hnf := h.hnf
  rw [JM.bind_ok (JM.get_apply _), h.nfEq, JM.bind_ok (range_ok s hc), JM.when_neg (by omega),
    JM.bind_ok (JM.pure_apply _ _), JM.bind_ok (JM.get_apply _), h.nfEq]
  have hneg : r * nf ≤ -nf := by
    have : r * nf ≤ (-1) * nf := Int.mul_le_mul_of_nonneg_right (by omega) (by omega)
    omega
  rw [i32_of_range (x := r * nf) (by omega), i32_of_range (x := r * nf + c) (by omega)]
  simp only [h.shift, shr32_pow h.hk]
  have := ediv_pow_neg (k := k) (x := r * nf + c) (by omega)
  rw [JM.bind_err]
  unfold rd
  simp only
  rw [if_neg (by omega)]

/-- Relation to the two-dimensional specification. -/
structure Rel (k : Nat) (nf : Int) (d : α) (s : MatrixStore α) (g : Int → Int → α) : Prop where
  ex : ∃ f : Int → α, Inv k nf d s f ∧ RowsDefault s nf d f ∧
    ∀ r c : Int, 0 ≤ r → 0 ≤ c → c < nf → g r c = f (r * nf + c)

theorem cell_inj {nf r c r' c' : Int} (hc : 0 ≤ c ∧ c < nf) (hc' : 0 ≤ c' ∧ c' < nf)
    (h : r * nf + c = r' * nf + c') : r = r' ∧ c = c' := by
  have e : ∀ r c : Int, 0 ≤ c → c < nf → (r * nf + c) / nf = r := by
    intro r c h0 h1
    rw [Int.add_comm, Int.add_mul_ediv_right _ _ (by omega), Int.ediv_eq_zero_of_lt h0 h1]; omega
  have h1 := e r c hc.1 hc.2
  rw [h, e r' c' hc'.1 hc'.2] at h1
  subst h1
  exact ⟨rfl, by omega⟩

theorem step_spec {k : Nat} {nf : Int} {d : α} (s : MatrixStore α) (g : Int → Int → α) (o : Op α)
    (h : Rel k nf d s g) (hb : MatrixStoreSpec.Legal nf o g) :
    (step d o s).out = (MatrixStoreSpec.step nf o g).1 ∧
      Rel k nf d (step d o s).state (MatrixStoreSpec.step nf o g).2 := by
  obtain ⟨f, hi, hd, hg⟩ := h.ex
  cases o with
  | get r c =>
    simp only [MatrixStoreSpec.step]
    by_cases hc : c < 0 ∨ nf ≤ c
    · have : getAt d r c s = .err .rangeCheck s := by
        unfold getAt
        rw [JM.bind_ok (JM.get_apply _), hi.nfEq, JM.bind_err (range_bad s hc)]
      simp [step, JM.bind_apply, this, if_pos hc, h]
    · by_cases hr : r < 0
      · simp [step, JM.bind_apply, getAt_negRow (c := c) hi hr hb.1 (by omega), if_neg hc, hr, h]
      · simp [step, JM.bind_apply, getAt_spec hi hd (r := r) (c := c) (by omega) (by omega),
          if_neg hc, hr, h, hg r c (by omega) (by omega) (by omega)]
  | set r c v =>
    simp only [MatrixStoreSpec.step]
    by_cases hc : c < 0 ∨ nf ≤ c
    · have : setAt d r c v s = .err .rangeCheck s := by
        unfold setAt
        rw [JM.bind_ok (JM.get_apply _), hi.nfEq, JM.bind_err (range_bad s hc)]
      simp [step, JM.bind_apply, this, if_pos hc, h]
    · by_cases hr : r < 0
      · simp [step, JM.bind_apply, setAt_negRow (c := c) (v := v) hi hr hb.1 (by omega), if_neg hc, hr, h]
      · obtain ⟨s', h1, h2, h3, h4⟩ := setAt_spec (v := v) hi (r := r) (c := c) (by omega)
          (by have := hb.2; omega) (by omega)
        simp only [step, JM.bind_apply, h1, if_neg hc, if_neg hr, JM.pure_apply, Res.out_ok,
          Res.state_ok, true_and]
        refine ⟨_, h2, ?_, ?_⟩
        · intro r' c' hr' hc0 hc1
          have : r' * nf + c' ≠ r * nf + c := by
            intro he
            have := (cell_inj (nf := nf) ⟨hc0, hc1⟩ (by omega) he).1
            omega
          simp only [if_neg this]
          exact hd r' c' (by omega) hc0 hc1
        · intro r' c' hr' hc0 hc1
          by_cases he : r' = r ∧ c' = c
          · rw [if_pos he]; simp [he.1, he.2]
          · have : r' * nf + c' ≠ r * nf + c := by
              intro hx
              exact he (cell_inj (nf := nf) ⟨hc0, hc1⟩ (by omega) hx)
            rw [if_neg he, if_neg this]
            exact hg r' c' hr' hc0 hc1

end MatrixStore
end Verif

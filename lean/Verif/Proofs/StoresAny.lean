import Verif.Spec.StoresAny
import Verif.Proofs.Stores
namespace Verif
variable {α : Type}

theorem roundsTo_le_30 {c : Int} {k : Nat} (h : RoundsTo c k) (hc : c ≤ 2 ^ 30) : k ≤ 30 := by
  apply h.2
  have : ((2 ^ 30 : Nat) : Int) = 2 ^ 30 := by decide
  omega

theorem nextPowerOf2_rounds {c : Int} {k : Nat} (h : RoundsTo c k) (h1 : 1 ≤ c) (hc : c ≤ 2 ^ 30) :
    nextPowerOf2 c = (2 ^ k : Nat) := by
  obtain ⟨j, hj, he, hv, hm⟩ := nextPowerOf2_spec h1 (by omega)
  have h2 := h.2 j hv
  have : j = k := by
    rcases hm with h0 | h0
    · omega
    · apply Classical.byContradiction
      intro hne
      have h3 : 2 ^ k ≤ 2 ^ (j - 1) := Nat.pow_le_pow_right (by omega) (by omega)
      have := h.1
      generalize 2 ^ (j - 1) = y at *
      generalize 2 ^ k = z at *
      omega
  rw [he, this]

/-- The cell an index uses. -/
def cellOf (c : Int) (k : Nat) (i : Int) : Int :=
  i / (2 ^ k : Nat) * (2 ^ k : Nat) + ((i.toNat &&& (c - 1).toNat : Nat) : Int)

theorem and_lt {c : Int} {k : Nat} (h : RoundsTo c k) (i : Int) :
    ((i.toNat &&& (c - 1).toNat : Nat) : Int) < (2 ^ k : Nat) := by
  have h1 : i.toNat &&& (c - 1).toNat ≤ (c - 1).toNat := Nat.and_le_right
  have := h.1
  have hp := Nat.two_pow_pos k
  generalize 2 ^ k = z at *
  omega

theorem cellOf_div {c : Int} {k : Nat} (h : RoundsTo c k) (i : Int) :
    cellOf c k i / (2 ^ k : Nat) = i / (2 ^ k : Nat) := by
  have h1 := and_lt h i
  have hp : (0 : Int) < (2 ^ k : Nat) := by have := Nat.two_pow_pos k; omega
  unfold cellOf
  rw [Int.add_comm, Int.add_mul_ediv_right _ _ (by omega), Int.ediv_eq_zero_of_lt (by omega) h1]
  omega

theorem cellOf_mod {c : Int} {k : Nat} (h : RoundsTo c k) (i : Int) :
    cellOf c k i % (2 ^ k : Nat) = ((i.toNat &&& (c - 1).toNat : Nat) : Int) := by
  have h1 := and_lt h i
  unfold cellOf
  rw [Int.add_comm, Int.add_mul_emod_self_right, Int.emod_eq_of_lt (by omega) h1]

theorem cellOf_eq_iff {c : Int} {k : Nat} (h : RoundsTo c k) (i j : Int) :
    cellOf c k i = cellOf c k j ↔ SameCell c k i j := by
  constructor
  · intro e
    refine ⟨?_, ?_⟩
    · rw [← cellOf_div h i, ← cellOf_div h j, e]
    · have := cellOf_mod h i
      rw [e, cellOf_mod h j] at this
      exact_mod_cast this.symm
  · intro ⟨e1, e2⟩
    unfold cellOf
    rw [e1, e2]

theorem cellOf_nonneg {c : Int} {k : Nat} {i : Int} (hi : 0 ≤ i) : 0 ≤ cellOf c k i := by
  have := Int.ediv_nonneg (b := ((2 ^ k : Nat) : Int)) hi (Int.natCast_nonneg _)
  have := Int.mul_nonneg this (Int.natCast_nonneg (2 ^ k))
  unfold cellOf
  omega

theorem cellOf_lt_iff {c : Int} {k : Nat} (h : RoundsTo c k) (i L : Int) :
    cellOf c k i < L * (2 ^ k : Nat) ↔ i < L * (2 ^ k : Nat) := by
  have hp : (0 : Int) < (2 ^ k : Nat) := by have := Nat.two_pow_pos k; omega
  rw [← Int.ediv_lt_iff_lt_mul hp, ← Int.ediv_lt_iff_lt_mul hp, cellOf_div h]

theorem and32_any {c i : Int} (h1 : 1 ≤ c) (hc : c ≤ 2 ^ 30) (h0 : 0 ≤ i) (hi : i < 2147483648) :
    and32 i (c - 1) = ((i.toNat &&& (c - 1).toNat : Nat) : Int) := by
  obtain ⟨n, rfl⟩ : ∃ n : Nat, i = n := ⟨i.toNat, by omega⟩
  obtain ⟨m, hm⟩ : ∃ m : Nat, c - 1 = m := ⟨(c - 1).toNat, by omega⟩
  rw [hm]
  unfold and32
  rw [BitVec.ofInt_natCast, BitVec.ofInt_natCast]
  have e2 : (BitVec.ofNat 32 n &&& BitVec.ofNat 32 m).toNat = n &&& m := by
    rw [BitVec.toNat_and, BitVec.toNat_ofNat, BitVec.toNat_ofNat,
      Nat.mod_eq_of_lt (by omega), Nat.mod_eq_of_lt (a := m) (by omega)]
  have h3 : n &&& m ≤ m := Nat.and_le_right
  rw [BitVec.toInt_eq_toNat_of_lt]
  · rw [e2]; simp
  · rw [e2]; omega

namespace ChunkStore

/-- As `Inv`, for any chunk size: `f` gives the value of each cell. -/
structure InvAny (c : Int) (k : Nat) (d : α) (s : ChunkStore α) (f : Int → α) : Prop where
  c1 : 1 ≤ c
  c2 : c ≤ 2 ^ 30
  rnd : RoundsTo c k
  cs : s.chunkSize = (2 ^ k : Nat)
  mask : s.chunkMask = c - 1
  shift : s.shift = k
  cap : s.capacity = s.chunks.len * (2 ^ k : Nat)
  capLe : s.capacity ≤ 1073741824
  flat : Flat k s.chunks d f

theorem InvAny.hk {c : Int} {k : Nat} {d : α} {s : ChunkStore α} {f : Int → α} (h : InvAny c k d s f) : k ≤ 30 :=
  roundsTo_le_30 h.rnd h.c2

theorem invAny_new {c : Int} {k : Nat} (h1 : 1 ≤ c) (h2 : c ≤ 2 ^ 30) (hr : RoundsTo c k) {d : α} {n : Int}
    {s : ChunkStore α} (hn : n ≤ 2 ^ 30) (h : ChunkStore.new n c d = .ok s) :
    InvAny c k d s (fun _ => d) ∧ n ≤ s.capacity := by
  have hk := roundsTo_le_30 hr h2
  have hp := pow_le_30 hk
  unfold ChunkStore.new at h
  simp only [nextPowerOf2_rounds hr h1 h2] at h
  split at h
  · simp at h
  · simp only [Except.ok.injEq] at h
    have hr0 : 0 ≤ ceilDiv n (2 ^ k : Nat) := by omega
    have hmul : 0 ≤ ceilDiv n (2 ^ k : Nat) * (2 ^ k : Nat) := Int.mul_nonneg hr0 (by omega)
    have hle := ceilDiv_mul_le (a := n) hk (by omega)
    have hge := ceilDiv_mul_ge (a := n) (m := (2 ^ k : Nat)) (by omega)
    subst h
    refine ⟨⟨h1, h2, hr, rfl, ?_, ?_, ?_, ?_, Flat.create _ _ _⟩, ?_⟩
    · exact i32_of_range (by omega)
    · exact ntzLoop_pow 64 k (by omega)
    · simp only [Arr.len_create]
      rw [i32_of_range (by omega)]
      congr 1; omega
    · simp only
      rw [i32_of_range (by omega)]; exact hle
    · simp only
      rw [i32_of_range (by omega)]; exact hge

theorem InvAny.cap0 {c : Int} {k : Nat} {d : α} {s : ChunkStore α} {f : Int → α} (h : InvAny c k d s f) :
    0 ≤ s.capacity := by
  rw [h.cap]; exact Int.mul_nonneg (Int.natCast_nonneg _) (Int.natCast_nonneg _)

theorem getAny_spec {c : Int} {k : Nat} {d : α} {s : ChunkStore α} {f : Int → α} (h : InvAny c k d s f)
    {i : Int} (hi : 0 ≤ i) : getAt d i s = .ok (f (cellOf c k i)) s := by
  have hk := h.hk
  obtain ⟨h1, h2, hr, hcs, hm, hsh, hcap, hle, hf⟩ := h
  have hlt := cellOf_lt_iff hr i s.chunks.len
  unfold getAt
  rw [JM.bind_ok (JM.get_apply _)]
  by_cases hc : i ≥ s.capacity
  · rw [if_pos hc, hf.rest _ (by omega)]; rfl
  · rw [if_neg hc]
    obtain ⟨b1, b2⟩ := hf.chunk_bounds (x := cellOf c k i) (cellOf_nonneg hi) (by omega)
    simp only [hm, hsh, shr32_pow hk, and32_any h1 h2 hi (by omega)]
    rw [← cellOf_div hr i, ← cellOf_mod hr i, JM.bind_ok (rd_ok ChunkStore.chunks b1), rdA_ok _ b2,
      hf.vals _ (cellOf_nonneg hi) (by omega)]

theorem getAny_neg {c : Int} {k : Nat} {d : α} {s : ChunkStore α} {f : Int → α} (h : InvAny c k d s f)
    {i : Int} (hi : i < 0) : getAt d i s = .err .indexOutOfBounds s := by
  have hcap0 := h.cap0
  unfold getAt
  rw [JM.bind_ok (JM.get_apply _), if_neg (by omega)]
  simp only [h.shift, shr32_pow h.hk]
  have := ediv_pow_neg (k := k) hi
  rw [JM.bind_err]
  unfold rd
  simp only
  rw [if_neg (by omega)]

theorem growAny_spec {c : Int} {k : Nat} {d : α} {s : ChunkStore α} {f : Int → α} (h : InvAny c k d s f)
    {n : Int} (hn : s.capacity ≤ n) (hn' : n ≤ 1073741824) :
    ∃ s', grow d n s = .ok () s' ∧ InvAny c k d s' f ∧ n ≤ s'.capacity ∧
      s.capacity ≤ s'.capacity ∧ s'.limit = s.limit := by
  have hk := h.hk
  obtain ⟨h1, h2, hrn, hcs, hm, hsh, hcap, hle, hf⟩ := h
  have hp := pow_le_30 hk
  have hreq : (s.chunks.len : Int) ≤ ceilDiv n (2 ^ k : Nat) := by
    have h1 := ceilDiv_mul_ge (a := n) (m := (2 ^ k : Nat)) (by omega)
    have : (s.chunks.len : Int) * (2 ^ k : Nat) ≤ ceilDiv n (2 ^ k : Nat) * (2 ^ k : Nat) := by
      omega
    exact Int.le_of_mul_le_mul_right this (by omega)
  have hle' := ceilDiv_mul_le (a := n) hk hn'
  have hge := ceilDiv_mul_ge (a := n) (m := (2 ^ k : Nat)) (by omega)
  unfold grow
  rw [JM.bind_ok (JM.get_apply _)]
  simp only [hcs]
  rw [JM.bind_ok (copyOf_ok _ _ (by omega))]
  have e : ((ceilDiv n (2 ^ k : Nat)).toNat : Int) = ceilDiv n (2 ^ k : Nat) := by omega
  have hmul : 0 ≤ ceilDiv n (2 ^ k : Nat) * (2 ^ k : Nat) := Int.mul_nonneg (by omega) (by omega)
  have ecap : i32 ((s.chunks.copyOf (ceilDiv n (2 ^ k : Nat)) (Arr.create (2 ^ k : Nat) d)).len *
      s.chunkSize) = ceilDiv n (2 ^ k : Nat) * (2 ^ k : Nat) := by
    rw [Arr.len_copyOf, e, hcs]
    exact i32_of_range (by omega)
  generalize ceilDiv n (2 ^ k : Nat) = R at *
  refine ⟨_, rfl, ⟨h1, h2, hrn, hcs, hm, hsh, ?_, ?_, hf.grown hreq⟩, ?_, ?_, rfl⟩
  · simp only; rw [ecap, Arr.len_copyOf, e]
  · simp only [ecap]; exact hle'
  · simp only [ecap]; exact hge
  · simp only [ecap]; omega

theorem setAny_spec {c : Int} {k : Nat} {d v : α} {s : ChunkStore α} {f : Int → α} (h : InvAny c k d s f)
    {i : Int} (hi : 0 ≤ i) (hi' : i < 1073741824) :
    ∃ s', setAt d i v s = .ok () s' ∧ InvAny c k d s' (fun j => if j = cellOf c k i then v else f j) ∧
      i < s'.capacity ∧ s.capacity ≤ s'.capacity := by
  have key : ∃ s1, JM.when (i ≥ s.capacity) (grow d (i32 (i + 1))) s = .ok () s1 ∧
      InvAny c k d s1 f ∧ i < s1.capacity ∧ s.capacity ≤ s1.capacity := by
    by_cases hc : i ≥ s.capacity
    · rw [JM.when_pos hc, i32_of_range (by omega)]
      obtain ⟨s1, h1, h2, h3, h4, _⟩ := growAny_spec h (n := i + 1) (by omega) (by omega)
      exact ⟨s1, h1, h2, by omega, h4⟩
    · rw [JM.when_neg hc]
      exact ⟨s, rfl, h, by omega, by omega⟩
  obtain ⟨s1, h1, h2, h3, h4⟩ := key
  unfold setAt
  rw [JM.bind_ok (JM.get_apply _)]
  rw [JM.bind_ok h1, JM.bind_ok (JM.modify_apply _ _), JM.bind_ok (JM.get_apply _)]
  have h2' : InvAny c k d { s1 with limit := max s1.limit i } f :=
    ⟨h2.c1, h2.c2, h2.rnd, h2.cs, h2.mask, h2.shift, h2.cap, h2.capLe, h2.flat⟩
  generalize hs2 : ({ s1 with limit := max s1.limit i } : ChunkStore α) = s2 at h2' ⊢
  have hcap2 : s2.capacity = s1.capacity := by rw [← hs2]
  have hk := h2'.hk
  obtain ⟨g1, g2, hr, hcs, hm, hsh, hcap, hle, hf⟩ := h2'
  have hlt := cellOf_lt_iff hr i s2.chunks.len
  obtain ⟨b1, b2⟩ := hf.chunk_bounds (x := cellOf c k i) (cellOf_nonneg hi) (by omega)
  simp only [hm, hsh, shr32_pow hk, and32_any g1 g2 hi (by omega)]
  rw [← cellOf_div hr i, ← cellOf_mod hr i, JM.bind_ok (rd_ok ChunkStore.chunks b1), if_pos b2,
    wr_ok ChunkStore.chunks _ b1]
  refine ⟨_, rfl, ⟨g1, g2, hr, hcs, hm, hsh, hcap, hle, hf.set v (cellOf_nonneg hi) (by omega)⟩, ?_, ?_⟩
  · simp only; omega
  · simp only; omega

theorem setAny_neg {c : Int} {k : Nat} {d v : α} {s : ChunkStore α} {f : Int → α} (h : InvAny c k d s f)
    {i : Int} (hi : i < 0) :
    ∃ s', setAt d i v s = .err .indexOutOfBounds s' ∧ InvAny c k d s' f ∧ s'.capacity = s.capacity := by
  have hcap0 := h.cap0
  unfold setAt
  rw [JM.bind_ok (JM.get_apply _), JM.when_neg (by omega), JM.bind_ok (JM.pure_apply _ _),
    JM.bind_ok (JM.modify_apply _ _), JM.bind_ok (JM.get_apply _)]
  have h2' : InvAny c k d { s with limit := max s.limit i } f :=
    ⟨h.c1, h.c2, h.rnd, h.cs, h.mask, h.shift, h.cap, h.capLe, h.flat⟩
  generalize hs2 : ({ s with limit := max s.limit i } : ChunkStore α) = s2 at h2' ⊢
  have hcap2 : s2.capacity = s.capacity := by rw [← hs2]
  have := ediv_pow_neg (k := k) hi
  simp only [h2'.shift, shr32_pow h2'.hk]
  refine ⟨s2, ?_, h2', hcap2⟩
  rw [JM.bind_err]
  unfold rd
  simp only
  rw [if_neg (by omega)]

/-- `g` gives the value at each index. -/
def RelAny (c : Int) (k : Nat) (d : α) (s : ChunkStore α) (g : Int → α) : Prop :=
  ∃ f, InvAny c k d s f ∧ ∀ i : Int, g i = f (cellOf c k i)

theorem stepAny_spec {c : Int} {k : Nat} {d : α} (s : ChunkStore α) (g : Int → α) (o : Op α)
    (h : RelAny c k d s g) (hb : ChunkStoreSpec.Legal o g) :
    ((step d o s).out = (ChunkStoreSpec.stepAny c k o g).1 ∧
      RelAny c k d (step d o s).state (ChunkStoreSpec.stepAny c k o g).2) ∧
    s.capacity ≤ (step d o s).state.capacity ∧ ∀ i v, o = .set i v → i < (step d o s).state.capacity := by
  obtain ⟨f, hi, hg⟩ := h
  cases o with
  | get i =>
    simp only [ChunkStoreSpec.stepAny]
    by_cases h0 : i < 0
    · simp [step, JM.bind_apply, getAny_neg hi h0, h0]; exact ⟨f, hi, hg⟩
    · simp [step, JM.bind_apply, getAny_spec hi (i := i) (by omega), h0, hg]; exact ⟨f, hi, hg⟩
  | set i v =>
    simp only [ChunkStoreSpec.stepAny]
    by_cases h0 : i < 0
    · obtain ⟨s', h1, h2, h3⟩ := setAny_neg (v := v) hi h0
      have hcap0 := hi.cap0
      simp [step, JM.bind_apply, h1, h0, h3]; exact ⟨⟨f, h2, hg⟩, by omega⟩
    · obtain ⟨s', h1, h2, h3, h4⟩ := setAny_spec (v := v) hi (i := i) (by omega)
        (by simpa [ChunkStoreSpec.Legal] using hb.2)
      simp [step, JM.bind_apply, h1, h0, h3, h4]
      refine ⟨_, h2, fun j => ?_⟩
      have := cellOf_eq_iff hi.rnd j i
      by_cases hs : SameCell c k j i
      · simp only [if_pos hs, if_pos (this.2 hs)]
      · simp only [if_neg hs]
        rw [if_neg (fun e => hs (this.1 e)), hg]

end ChunkStore

namespace MatrixStore

/-- As `Inv`, for any chunk size. -/
structure InvAny (c : Int) (k : Nat) (nf : Int) (d : α) (s : MatrixStore α) (f : Int → α) : Prop where
  c1 : 1 ≤ c
  c2 : c ≤ 2 ^ 30
  rnd : RoundsTo c k
  hnf : 1 ≤ nf
  nfEq : s.numFields = nf
  cs : s.chunkSize = (2 ^ k : Nat)
  mask : s.chunkMask = c - 1
  shift : s.shift = k
  cap : s.capacity = (s.chunks.len * (2 ^ k : Nat)) / nf
  rawLe : (s.chunks.len : Int) * (2 ^ k : Nat) ≤ 1073741824
  flat : Flat k s.chunks d f

/-- The same store as one made with the rounded chunk size, except for the mask. -/
theorem InvAny.toInv {c : Int} {k : Nat} {nf : Int} {d : α} {s : MatrixStore α} {f : Int → α}
    (h : InvAny c k nf d s f) : Inv k nf d { s with chunkMask := ((2 ^ k : Nat) : Int) - 1 } f :=
  ⟨roundsTo_le_30 h.rnd h.c2, h.hnf, h.nfEq, h.cs, rfl, h.shift, h.cap, h.rawLe, h.flat⟩

theorem InvAny.hk {c : Int} {k : Nat} {nf : Int} {d : α} {s : MatrixStore α} {f : Int → α}
    (h : InvAny c k nf d s f) : k ≤ 30 := roundsTo_le_30 h.rnd h.c2

theorem invAny_new {c : Int} {k : Nat} (hr : RoundsTo c k) (h2 : c ≤ 2 ^ 30) {d : α} {n nf : Int}
    {s : MatrixStore α} (hn : n * nf ≤ 2 ^ 30) (h : MatrixStore.new n c nf d = .ok s) :
    InvAny c k nf d s (fun _ => d) ∧ s.capacity = MatrixStoreSpec.room nf k n ∧ 1 ≤ n ∧ 2 ≤ c := by
  have hk := roundsTo_le_30 hr h2
  have hp := pow_le_30 hk
  unfold MatrixStore.new at h
  split at h
  · simp at h
  split at h
  · simp at h
  split at h
  · simp at h
  rename_i g1 g2 g3
  simp only [nextPowerOf2_rounds hr (by omega) h2] at h
  have hnn : 0 ≤ n * nf := Int.mul_nonneg (by omega) (by omega)
  rw [i32_of_range (x := n * nf) (by omega)] at h
  split at h
  · simp at h
  · simp only [Except.ok.injEq] at h
    have hr0 : 0 ≤ ceilDiv (n * nf) (2 ^ k : Nat) := by omega
    have hmul : 0 ≤ ceilDiv (n * nf) (2 ^ k : Nat) * (2 ^ k : Nat) := Int.mul_nonneg hr0 (by omega)
    have hle := ceilDiv_mul_le (a := n * nf) hk (by omega)
    have e : ((ceilDiv (n * nf) (2 ^ k : Nat)).toNat : Int) = ceilDiv (n * nf) (2 ^ k : Nat) := by
      omega
    subst h
    refine ⟨⟨by omega, h2, hr, by omega, rfl, rfl, ?_, ?_, ?_, ?_, Flat.create _ _ _⟩, ?_, by omega, by omega⟩
    · exact i32_of_range (by omega)
    · exact ntzLoop_pow 64 k (by omega)
    · simp only [Arr.len_create, e]
      rw [i32_of_range (by omega), Int.tdiv_eq_ediv_of_nonneg hmul]
    · simp only [Arr.len_create, e]; exact hle
    · simp only [MatrixStoreSpec.room]
      rw [i32_of_range (by omega), Int.tdiv_eq_ediv_of_nonneg hmul]

theorem InvAny.cap0 {c : Int} {k : Nat} {nf : Int} {d : α} {s : MatrixStore α} {f : Int → α}
    (h : InvAny c k nf d s f) : 0 ≤ s.capacity := h.toInv.cap0

theorem InvAny.row_in {c : Int} {k : Nat} {nf : Int} {d : α} {s : MatrixStore α} {f : Int → α}
    (h : InvAny c k nf d s f) {r x : Int} (hr : r < s.capacity) (hc : x < nf) :
    r * nf + x < s.chunks.len * (2 ^ k : Nat) := h.toInv.row_in hr hc

theorem getAny_spec {c : Int} {k : Nat} {nf : Int} {d : α} {s : MatrixStore α} {f : Int → α}
    (h : InvAny c k nf d s f) {r x : Int} (hr : 0 ≤ r) (hc : 0 ≤ x ∧ x < nf) :
    getAt d r x s = .ok (if s.capacity ≤ r then d else f (cellOf c k (r * nf + x))) s := by
  unfold getAt
  rw [JM.bind_ok (JM.get_apply _), h.nfEq, JM.bind_ok (range_ok s hc)]
  by_cases hcap : r ≥ s.capacity
  · rw [if_pos hcap, if_pos hcap]; rfl
  · rw [if_neg hcap, if_neg hcap]
    have hin := h.row_in (r := r) (x := x) (by omega) hc.2
    have hraw := h.rawLe
    have hmul : 0 ≤ r * nf := Int.mul_nonneg hr (by have := h.hnf; omega)
    have hlt := cellOf_lt_iff h.rnd (r * nf + x) s.chunks.len
    have h0 := cellOf_nonneg (c := c) (k := k) (i := r * nf + x) (by omega)
    obtain ⟨b1, b2⟩ := h.flat.chunk_bounds (x := cellOf c k (r * nf + x)) h0 (by omega)
    rw [i32_of_range (x := r * nf) (by omega), i32_of_range (x := r * nf + x) (by omega)]
    simp only [h.mask, h.shift, shr32_pow h.hk,
      and32_any h.c1 h.c2 (i := r * nf + x) (by omega) (by omega)]
    rw [← cellOf_div h.rnd, ← cellOf_mod h.rnd, JM.bind_ok (rd_ok MatrixStore.chunks b1), rdA_ok _ b2,
      h.flat.vals _ h0 (by omega)]

theorem getAny_negRow {c : Int} {k : Nat} {nf : Int} {d : α} {s : MatrixStore α} {f : Int → α}
    (h : InvAny c k nf d s f) {r x : Int} (hr : r < 0) (hr' : -2147483648 ≤ r * nf)
    (hc : 0 ≤ x ∧ x < nf) : getAt d r x s = .err .indexOutOfBounds s := by
  unfold getAt
  have hcap0 := h.cap0
  have hnf := h.hnf
  rw [JM.bind_ok (JM.get_apply _), h.nfEq, JM.bind_ok (range_ok s hc), if_neg (by omega)]
  have hneg : r * nf ≤ -nf := by
    have : r * nf ≤ (-1) * nf := Int.mul_le_mul_of_nonneg_right (by omega) (by omega)
    omega
  rw [i32_of_range (x := r * nf) (by omega), i32_of_range (x := r * nf + x) (by omega)]
  simp only [h.shift, shr32_pow h.hk]
  have := ediv_pow_neg (k := k) (x := r * nf + x) (by omega)
  rw [JM.bind_err]
  unfold rd
  simp only
  rw [if_neg (by omega)]

theorem growAny_spec {c : Int} {k : Nat} {nf : Int} {d : α} {s : MatrixStore α} {f : Int → α}
    (h : InvAny c k nf d s f) {r : Int} (hr : s.capacity ≤ r) (hr' : (r + 1) * nf ≤ 1073741824) :
    ∃ s', grow d (r + 1) s = .ok () s' ∧ InvAny c k nf d s' f ∧ r < s'.capacity ∧
      s'.capacity = MatrixStoreSpec.room nf k (r + 1) := by
  have hout := h.toInv.row_out hr
  have hcap0 := h.cap0
  have hk := h.hk
  have hr0 : 0 ≤ r := by omega
  have hpos : 0 ≤ (r + 1) * nf := Int.mul_nonneg (by omega) (by have := h.hnf; omega)
  obtain ⟨c1, c2, rnd, hnf, hnfe, hcs, hm, hsh, hcap, hle, hf⟩ := h
  have hp := pow_le_30 hk
  have hge := ceilDiv_mul_ge (a := (r + 1) * nf) (m := (2 ^ k : Nat)) (by omega)
  have hreq : (s.chunks.len : Int) ≤ ceilDiv ((r + 1) * nf) (2 ^ k : Nat) := by
    have : (s.chunks.len : Int) * (2 ^ k : Nat) ≤
        ceilDiv ((r + 1) * nf) (2 ^ k : Nat) * (2 ^ k : Nat) := by
      simp only at hout; omega
    exact Int.le_of_mul_le_mul_right this (by omega)
  have hle' := ceilDiv_mul_le (a := (r + 1) * nf) hk hr'
  unfold grow MatrixStoreSpec.room
  rw [JM.bind_ok (JM.get_apply _), hnfe, i32_of_range (x := (r + 1) * nf) (by omega)]
  simp only [hcs]
  rw [JM.bind_ok (copyOf_ok _ _ (by omega))]
  generalize hR : ceilDiv ((r + 1) * nf) (2 ^ k : Nat) = R at *
  have hmul : 0 ≤ R * (2 ^ k : Nat) := by omega
  have e : ((R.toNat : Nat) : Int) = R := by omega
  have ecap : Int.tdiv (i32 (((s.chunks.copyOf R (Arr.create (2 ^ k : Nat) d)).len : Int) *
      s.chunkSize)) s.numFields = (R * (2 ^ k : Nat)) / nf := by
    rw [Arr.len_copyOf, e, hcs, hnfe, i32_of_range (by omega), Int.tdiv_eq_ediv_of_nonneg hmul]
  refine ⟨_, rfl, ⟨c1, c2, rnd, hnf, hnfe, hcs, hm, hsh, ?_, ?_, hf.grown hreq⟩, ?_, ?_⟩
  · simp only
    rw [ecap, Arr.len_copyOf, e]
  · simp only [Arr.len_copyOf, e]; exact hle'
  · simp only
    rw [ecap]
    have : r + 1 ≤ (R * (2 ^ k : Nat)) / nf := by
      rw [Int.le_ediv_iff_mul_le (by omega)]; exact hge
    omega
  · simp only
    exact ecap

theorem setAny_spec {c : Int} {k : Nat} {nf : Int} {d v : α} {s : MatrixStore α} {f : Int → α}
    (h : InvAny c k nf d s f) {r x : Int} (hr : 0 ≤ r) (hr' : (r + 1) * nf ≤ 1073741824)
    (hc : 0 ≤ x ∧ x < nf) :
    ∃ s', setAt d r x v s = .ok () s' ∧
      InvAny c k nf d s' (fun j => if j = cellOf c k (r * nf + x) then v else f j) ∧
      s'.capacity = (if s.capacity ≤ r then MatrixStoreSpec.room nf k (r + 1) else s.capacity) := by
  have key : ∃ s1, JM.when (r ≥ s.capacity) (grow d (i32 (r + 1))) s = .ok () s1 ∧
      InvAny c k nf d s1 f ∧ r < s1.capacity ∧
      s1.capacity = (if s.capacity ≤ r then MatrixStoreSpec.room nf k (r + 1) else s.capacity) := by
    by_cases hcp : r ≥ s.capacity
    · have hnf := h.hnf
      have : r + 1 ≤ (r + 1) * nf := by
        have := Int.mul_le_mul_of_nonneg_left (c := r + 1) hnf (by omega)
        omega
      rw [JM.when_pos hcp, i32_of_range (by omega), if_pos hcp]
      obtain ⟨s1, h1, h2, h3, h4⟩ := growAny_spec h (r := r) (by omega) (by omega)
      exact ⟨s1, h1, h2, by omega, h4⟩
    · rw [JM.when_neg hcp, if_neg hcp]
      exact ⟨s, rfl, h, by omega, rfl⟩
  obtain ⟨s1, h1, h2, h3, h4⟩ := key
  unfold setAt
  rw [JM.bind_ok (JM.get_apply _), h.nfEq, JM.bind_ok (range_ok s hc), JM.bind_ok h1,
    JM.bind_ok (JM.get_apply _), h2.nfEq]
  have hin := h2.row_in (r := r) (x := x) (by omega) hc.2
  have hraw := h2.rawLe
  have hmul : 0 ≤ r * nf := Int.mul_nonneg hr (by have := h.hnf; omega)
  have hlt := cellOf_lt_iff h2.rnd (r * nf + x) s1.chunks.len
  have h0 := cellOf_nonneg (c := c) (k := k) (i := r * nf + x) (by omega)
  obtain ⟨b1, b2⟩ := h2.flat.chunk_bounds (x := cellOf c k (r * nf + x)) h0 (by omega)
  rw [i32_of_range (x := r * nf) (by omega), i32_of_range (x := r * nf + x) (by omega)]
  simp only [h2.mask, h2.shift, shr32_pow h2.hk,
    and32_any h2.c1 h2.c2 (i := r * nf + x) (by omega) (by omega)]
  rw [← cellOf_div h2.rnd, ← cellOf_mod h2.rnd, JM.bind_ok (rd_ok MatrixStore.chunks b1), if_pos b2,
    wr_ok MatrixStore.chunks _ b1]
  obtain ⟨c1, c2, rnd, hnf, hnfe, hcs, hm, hsh, hcap, hle, hf⟩ := h2
  exact ⟨_, rfl, ⟨c1, c2, rnd, hnf, hnfe, hcs, hm, hsh, hcap, hle, hf.set v h0 (by omega)⟩, h4⟩

theorem setAny_negRow {c : Int} {k : Nat} {nf : Int} {d v : α} {s : MatrixStore α} {f : Int → α}
    (h : InvAny c k nf d s f) {r x : Int} (hr : r < 0) (hr' : -2147483648 ≤ r * nf)
    (hc : 0 ≤ x ∧ x < nf) : setAt d r x v s = .err .indexOutOfBounds s := by
  unfold setAt
  have hcap0 := h.cap0
  have hnf := h.hnf
  rw [JM.bind_ok (JM.get_apply _), h.nfEq, JM.bind_ok (range_ok s hc), JM.when_neg (by omega),
    JM.bind_ok (JM.pure_apply _ _), JM.bind_ok (JM.get_apply _), h.nfEq]
  have hneg : r * nf ≤ -nf := by
    have : r * nf ≤ (-1) * nf := Int.mul_le_mul_of_nonneg_right (by omega) (by omega)
    omega
  rw [i32_of_range (x := r * nf) (by omega), i32_of_range (x := r * nf + x) (by omega)]
  simp only [h.shift, shr32_pow h.hk]
  have := ediv_pow_neg (k := k) (x := r * nf + x) (by omega)
  rw [JM.bind_err]
  unfold rd
  simp only
  rw [if_neg (by omega)]

/-- Relation to the specification: the room for rows, and the value at each row and field. -/
def RelAny (c : Int) (k : Nat) (nf : Int) (d : α) (s : MatrixStore α) (a : Int × (Int → Int → α)) : Prop :=
  s.capacity = a.1 ∧ ∃ f, InvAny c k nf d s f ∧ ∀ r x : Int, a.2 r x = f (cellOf c k (r * nf + x))

theorem stepAny_spec {c : Int} {k : Nat} {nf : Int} {d : α} (s : MatrixStore α) (a : Int × (Int → Int → α))
    (o : Op α) (h : RelAny c k nf d s a) (hb : MatrixStoreSpec.LegalAny nf o a) :
    (step d o s).out = (MatrixStoreSpec.stepAny d nf c k o a).1 ∧
      RelAny c k nf d (step d o s).state (MatrixStoreSpec.stepAny d nf c k o a).2 := by
  obtain ⟨n, g⟩ := a
  have h' := h
  obtain ⟨hn, f, hi, hg⟩ := h
  simp only at hn hg
  subst hn
  cases o with
  | get r x =>
    simp only [MatrixStoreSpec.stepAny]
    by_cases hc : x < 0 ∨ nf ≤ x
    · have : getAt d r x s = .err .rangeCheck s := by
        unfold getAt
        rw [JM.bind_ok (JM.get_apply _), hi.nfEq, JM.bind_err (range_bad s hc)]
      simp [step, JM.bind_apply, this, if_pos hc, h']
    · by_cases hr : r < 0
      · simp [step, JM.bind_apply, getAny_negRow (x := x) hi hr hb.1 (by omega), if_neg hc, hr, h']
      · simp [step, JM.bind_apply, getAny_spec hi (r := r) (x := x) (by omega) (by omega),
          if_neg hc, hr, h', hg]
  | set r x v =>
    simp only [MatrixStoreSpec.stepAny]
    by_cases hc : x < 0 ∨ nf ≤ x
    · have : setAt d r x v s = .err .rangeCheck s := by
        unfold setAt
        rw [JM.bind_ok (JM.get_apply _), hi.nfEq, JM.bind_err (range_bad s hc)]
      simp [step, JM.bind_apply, this, if_pos hc, h']
    · by_cases hr : r < 0
      · simp [step, JM.bind_apply, setAny_negRow (x := x) (v := v) hi hr hb.1 (by omega), if_neg hc, hr, h']
      · obtain ⟨s', h1, h2, h3⟩ := setAny_spec (v := v) hi (r := r) (x := x) (by omega)
          (by have := hb.2; omega) (by omega)
        simp only [step, JM.bind_apply, h1, if_neg hc, if_neg hr, JM.pure_apply, Res.out_ok,
          Res.state_ok, true_and]
        refine ⟨h3, _, h2, fun i j => ?_⟩
        have := cellOf_eq_iff hi.rnd (i * nf + j) (r * nf + x)
        by_cases hs : SameCell c k (i * nf + j) (r * nf + x)
        · simp only [if_pos hs, if_pos (this.2 hs)]
        · simp only [if_neg hs]
          rw [if_neg (fun e => hs (this.1 e)), hg]

end MatrixStore
end Verif

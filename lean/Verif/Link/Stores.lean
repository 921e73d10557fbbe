import Verif.Link.Arrays
import Verif.Gen.KeyChunkStore
import Verif.Gen.KeyChunkMatrixStore
import Verif.Proofs.Stores
import Verif.Props.Stores
/-! `KeyChunkStore.ftl`, `KeyChunkMatrixStore.ftl`: the generated code agrees with the model. -/
namespace Verif.Link

theorem ceilDiv_lt {a b : Int} (ha : a < 2 ^ 31) (hb : 1 ≤ b) : ceilDiv a b < 2 ^ 31 := by
  have := (ceilDiv_le_iff (a := a) (m := b) (q := 2 ^ 31 - 1) (by omega)).2 (by omega)
  omega

/-- Dividing an `int` by a positive `int` cannot overflow. -/
theorem tdiv_fits {x n : Int} (hn : 1 ≤ n) : i32 (Int.tdiv (i32 x) n) = Int.tdiv (i32 x) n := by
  apply i32_of_range
  have := i32_range x
  generalize i32 x = x at *
  have k := Int.natAbs_tdiv_le_natAbs x n
  have k1 : 0 ≤ x → 0 ≤ Int.tdiv x n := fun hx => Int.tdiv_nonneg hx (by omega)
  have k2 : x ≤ 0 → Int.tdiv x n ≤ 0 := fun hx => by
    have := Int.tdiv_nonneg (a := -x) (b := n) (by omega) (by omega)
    rw [Int.neg_tdiv] at this; omega
  omega

end Verif.Link

namespace Verif.Link.ChunkStore
open Verif Verif.ChunkStore
variable {α : Type}

/-- Equal, as far as a program can see. -/
structure R (s t : ChunkStore α) : Prop where
  chunkSize : s.chunkSize = t.chunkSize
  chunkMask : s.chunkMask = t.chunkMask
  shift : s.shift = t.shift
  chunks : Same s.chunks t.chunks
  capacity : s.capacity = t.capacity
  limit : s.limit = t.limit
  size : 1 ≤ t.chunkSize
  len : (t.chunks.len : Int) < 2 ^ 31

/-- One public call of the generated class. -/
def step (fuel : Nat) (d : α) : Op α → JM (ChunkStore α) (Option α)
  | .get i => do return some (← Gen.KeyChunkStore.getElem d i)
  | .set i v => do Gen.KeyChunkStore.setElem d fuel i v; pure none

theorem grow_loop (d : α) : ∀ (k fuel : Nat) (i : Int) (s : ChunkStore α), k < fuel → 0 ≤ i →
    k = (s.chunks.len - i).toNat → 1 ≤ s.chunkSize → (s.chunks.len : Int) < 2 ^ 31 →
    ∃ c, Gen.KeyChunkStore.grow_loop1 d fuel i s = .ok () { s with chunks := c } ∧
      c.len = s.chunks.len ∧ ∀ j : Int, 0 ≤ j → j < s.chunks.len →
        c.get j = if i ≤ j then Arr.create s.chunkSize d else s.chunks.get j := by
  intro k
  induction k with
  | zero =>
    intro fuel i s hf hi hk hc hl
    obtain ⟨f, rfl⟩ : ∃ f, fuel = f + 1 := ⟨fuel - 1, by omega⟩
    refine ⟨s.chunks, ?_, rfl, fun j h0 hj => by rw [if_neg (by omega)]⟩
    have : ¬ i < s.chunks.len := by omega
    simp [Gen.KeyChunkStore.grow_loop1, JM.bind_apply, this]
  | succ k ih =>
    intro fuel i s hf hi hk hc hl
    obtain ⟨f, rfl⟩ : ∃ f, fuel = f + 1 := ⟨fuel - 1, by omega⟩
    have hlt : i < s.chunks.len := by omega
    have e : i32 (i + 1) = i + 1 := i32_of_range (by omega)
    obtain ⟨c, h1, h2, h3⟩ := ih f (i + 1)
      { s with chunks := s.chunks.set i (Arr.create s.chunkSize d) } (by omega) (by omega)
      (by simp only [Arr.len_set]; omega) hc (by simpa using hl)
    refine ⟨c, ?_, h2, fun j h0 hj => ?_⟩
    · unfold Gen.KeyChunkStore.grow_loop1
      simp only [JM.bind_apply, JM.get_apply, hlt, decide_true, if_true]
      rw [newArr_ok d (by omega)]
      simp only
      rw [wr_ok ChunkStore.chunks _ ⟨hi, hlt⟩]
      simp only [e]
      exact h1
    · rw [h3 j h0 (by simpa using hj)]
      simp only [Arr.get_set]
      by_cases h : j = i
      · subst h; rw [if_neg (by omega), if_pos rfl, if_pos (by omega)]
      · by_cases h' : i + 1 ≤ j
        · rw [if_pos h', if_pos (by omega)]
        · rw [if_neg h', if_neg h, if_neg (by omega)]

theorem grow_eq (d : α) (fuel : Nat) (hf : 2 ^ 31 ≤ fuel) (index : Int) (hi : index < 2 ^ 31)
    {s t : ChunkStore α} (h : R s t) :
    (∃ s' t', Gen.KeyChunkStore.grow d fuel index s = .ok () s' ∧ Verif.ChunkStore.grow d index t = .ok () t' ∧
      R s' t') ∨
    (Gen.KeyChunkStore.grow d fuel index s = .err .negativeArraySize s ∧
      Verif.ChunkStore.grow d index t = .err .negativeArraySize t) := by
  obtain ⟨h1, h2, h3, h4, h5, h6, h7, h8⟩ := h
  unfold Gen.KeyChunkStore.grow Verif.ChunkStore.grow
  simp only [JM.bind_apply, JM.get_apply, h1]
  generalize hn : ceilDiv index t.chunkSize = n
  have hn2 : n < 2 ^ 31 := by
    rw [← hn]; exact ceilDiv_lt hi h7
  by_cases h0 : 0 ≤ n
  · left
    rw [copyOf_ok _ _ h0, copyOf_ok _ _ h0]
    simp only [JM.modify_apply]
    obtain ⟨c, k1, k2, k3⟩ := grow_loop d _ fuel (s.chunks.len : Int)
      { s with chunks := s.chunks.copyOf n (Arr.create 0 d) } (by simp; omega) (by omega) rfl
      (by simp only; omega) (by simp; omega)
    rw [k1]
    refine ⟨_, _, rfl, rfl, ?_⟩
    simp only [Arr.len_copyOf] at k2 k3
    constructor <;> simp only [Arr.len_copyOf, k2]
    case chunks =>
      refine ⟨by simpa using k2, fun j j0 jl => ?_⟩
      rw [k3 j j0 (by omega)]
      simp only [Arr.get_copyOf, ← h4.1]
      by_cases hj : j < s.chunks.len
      · rw [if_neg (by omega), if_pos hj, if_pos hj]; exact h4.2 j j0 hj
      · rw [if_pos (by omega), if_neg hj, h1]
    case capacity => rw [h1]
    case chunkSize => exact h1
    case chunkMask => exact h2
    case shift => exact h3
    case size => exact h7
    case len => omega
    case limit => exact h6
  · right
    have e : ∀ (x : Arr (Arr α)) (y : Arr α) (u : ChunkStore α),
        (copyOf x n y : JM (ChunkStore α) _) u = .err .negativeArraySize u := by
      intro x y u; simp only [copyOf]; rw [if_neg h0]
    rw [e, e]; exact ⟨rfl, rfl⟩

theorem rd_same {s t : ChunkStore α} (h : Same s.chunks t.chunks) (i : Int) :
    (0 ≤ i ∧ i < t.chunks.len ∧ rd ChunkStore.chunks i s = .ok (t.chunks.get i) s ∧
      rd ChunkStore.chunks i t = .ok (t.chunks.get i) t) ∨
    (¬(0 ≤ i ∧ i < t.chunks.len) ∧ rd ChunkStore.chunks i s = .err .indexOutOfBounds s ∧
      rd ChunkStore.chunks i t = .err .indexOutOfBounds t) := by
  by_cases hi : 0 ≤ i ∧ i < t.chunks.len
  · left
    have hi' : 0 ≤ i ∧ i < s.chunks.len := by rw [h.1]; exact hi
    refine ⟨hi.1, hi.2, ?_, rd_ok _ hi⟩
    rw [rd_ok _ hi', h.2 i hi'.1 hi'.2]
  · right
    have hi' : ¬(0 ≤ i ∧ i < s.chunks.len) := by rw [h.1]; exact hi
    refine ⟨hi, ?_, ?_⟩
    · simp only [rd]; rw [if_neg hi']
    · simp only [rd]; rw [if_neg hi]

theorem get_eq (d : α) (index : Int) {s t : ChunkStore α} (h : R s t) :
    (∃ v, Gen.KeyChunkStore.getElem d index s = .ok v s ∧ getAt d index t = .ok v t) ∨
    ∃ e, Gen.KeyChunkStore.getElem d index s = .err e s ∧ getAt d index t = .err e t := by
  obtain ⟨h1, h2, h3, h4, h5, h6, h7, h8⟩ := h
  unfold Gen.KeyChunkStore.getElem getAt
  simp only [JM.bind_apply, JM.get_apply]
  simp only [h2, h3, h5]
  by_cases hc : index ≥ t.capacity
  · left; refine ⟨d, ?_, ?_⟩ <;> simp [hc]
  · simp only [hc, decide_false, Bool.false_eq_true, if_false, JM.bind_apply]
    rcases rd_same h4 (shr32 index t.shift) with ⟨_, _, k1, k2⟩ | ⟨_, k1, k2⟩
    · simp only [k1, k2]
      by_cases ho : 0 ≤ and32 index t.chunkMask ∧
          and32 index t.chunkMask < ((t.chunks.get (shr32 index t.shift)).len : Int)
      · left; exact ⟨_, rdA_ok _ ho, rdA_ok _ ho⟩
      · right; refine ⟨.indexOutOfBounds, ?_, ?_⟩ <;> (simp only [rdA]; rw [if_neg ho])
    · right; exact ⟨_, by rw [k1], by rw [k2]⟩

theorem set_eq (d : α) (fuel : Nat) (hf : 2 ^ 31 ≤ fuel) (index : Int) (v : α) {s t : ChunkStore α} (h : R s t) :
    (∃ s' t', Gen.KeyChunkStore.setElem d fuel index v s = .ok () s' ∧ setAt d index v t = .ok () t' ∧ R s' t') ∨
    ∃ e s' t', Gen.KeyChunkStore.setElem d fuel index v s = .err e s' ∧ setAt d index v t = .err e t' ∧ R s' t' := by
  have hR := h
  obtain ⟨h1, h2, h3, h4, h5, h6, h7, h8⟩ := h
  unfold Gen.KeyChunkStore.setElem setAt
  simp only [JM.bind_apply, JM.get_apply]
  simp only [h5]
  have hg : ((Gen.KeyChunkStore.grow d fuel (i32 (index + 1)) >>= fun _ => pure ()) : JM (ChunkStore α) Unit) s =
      Gen.KeyChunkStore.grow d fuel (i32 (index + 1)) s := by rw [bind_unit]
  have first : (∃ s' t', (if decide (index ≥ t.capacity) = true then
          (Gen.KeyChunkStore.grow d fuel (i32 (index + 1)) >>= fun _ => pure () : JM (ChunkStore α) Unit)
        else pure ()) s = .ok () s' ∧
      (JM.when (index ≥ t.capacity) (Verif.ChunkStore.grow d (i32 (index + 1)))) t = .ok () t' ∧ R s' t') ∨
      ∃ e s' t', (if decide (index ≥ t.capacity) = true then
          (Gen.KeyChunkStore.grow d fuel (i32 (index + 1)) >>= fun _ => pure () : JM (ChunkStore α) Unit)
        else pure ()) s = .err e s' ∧
      (JM.when (index ≥ t.capacity) (Verif.ChunkStore.grow d (i32 (index + 1)))) t = .err e t' ∧ R s' t' := by
    by_cases hc : index ≥ t.capacity
    · simp only [hc, decide_true, if_true, JM.when, hg]
      have hlt : i32 (index + 1) < 2 ^ 31 := by have := i32_range (index + 1); omega
      rcases grow_eq d fuel hf (i32 (index + 1)) hlt hR with ⟨s', t', k1, k2, k3⟩ | ⟨k1, k2⟩
      · exact .inl ⟨s', t', k1, k2, k3⟩
      · exact .inr ⟨_, _, _, k1, k2, hR⟩
    · left
      refine ⟨s, t, ?_, ?_, hR⟩
      · simp only [hc, decide_false, Bool.false_eq_true, if_false, JM.pure_apply]
      · rw [JM.when_neg hc]; rfl
  rcases first with ⟨s', t', k1, k2, k3⟩ | ⟨e, s', t', k1, k2, k3⟩
  · rw [k1, k2]
    clear hR h1 h2 h3 h4 h5 h6 h7 h8 k1 k2 hg
    obtain ⟨h1, h2, h3, h4, h5, h6, h7, h8⟩ := k3
    obtain ⟨cs, cm, sh, ch, cap, lim⟩ := s'
    obtain ⟨cs', cm', sh', ch', cap', lim'⟩ := t'
    simp only at h1 h2 h3 h4 h5 h6 h7 h8
    subst h1 h2 h3 h5 h6
    simp only [JM.modify_apply, JM.get_apply, JM.bind_apply]
    rcases rd_same (s := (⟨cs, cm, sh, ch, cap, max lim index⟩ : ChunkStore α))
      (t := (⟨cs, cm, sh, ch', cap, max lim index⟩ : ChunkStore α)) h4 (shr32 index sh) with ⟨i0, i1, k1, k2⟩ | ⟨_, k1, k2⟩
    · simp only [k1, k2]
      by_cases ho : 0 ≤ and32 index cm ∧
          and32 index cm <
            ((ch'.get (shr32 index sh)).len : Int)
      · left
        simp only [Gen.wrA, ho, and_self, if_true]
        rw [wr_ok ChunkStore.chunks _ ⟨i0, i1⟩,
          wr_ok ChunkStore.chunks _ (⟨i0, by simpa [h4.1] using i1⟩)]
        refine ⟨_, _, rfl, rfl, rfl, rfl, rfl, ⟨h4.1, fun j j0 jl => ?_⟩, rfl, rfl, h7, by simpa using h8⟩
        simp only [Arr.get_set]
        split
        · rfl
        · exact h4.2 j j0 (by simpa using jl)
      · right
        refine ⟨.indexOutOfBounds, (⟨cs, cm, sh, ch, cap, max lim index⟩ : ChunkStore α), (⟨cs, cm, sh, ch', cap, max lim index⟩ : ChunkStore α), ?_, ?_, rfl, rfl, rfl, h4, rfl, rfl, h7, h8⟩
        · simp only [Gen.wrA]; rw [if_neg ho]
        · rw [if_neg ho]; rfl
    · right
      rw [k1, k2]
      exact ⟨_, _, _, rfl, rfl, ⟨rfl, rfl, rfl, h4, rfl, rfl, h7, h8⟩⟩
  · right; rw [k1, k2]; exact ⟨e, s', t', rfl, rfl, k3⟩

/-- Every public call: same result, related states. -/
theorem step_eq (fuel : Nat) (hf : 2 ^ 31 ≤ fuel) (d : α) (s t : ChunkStore α) (o : Op α) (h : R s t) :
    (step fuel d o s).out = (Verif.ChunkStore.step d o t).out ∧
      R (step fuel d o s).state (Verif.ChunkStore.step d o t).state := by
  cases o with
  | get i =>
    rcases get_eq d i h with ⟨v, k1, k2⟩ | ⟨e, k1, k2⟩ <;>
      simp [step, Verif.ChunkStore.step, JM.bind_apply, k1, k2, h]
  | set i v =>
    rcases set_eq d fuel hf i v h with ⟨s', t', k1, k2, k3⟩ | ⟨e, s', t', k1, k2, k3⟩ <;>
      simp [step, Verif.ChunkStore.step, JM.bind_apply, k1, k2, k3]

theorem newArr2_cases {σ : Type} (n m : Int) (d : α) (u : σ) :
    ((n < 0 ∨ m < 0) ∧ (Gen.newArr2 n m d : JM σ _) u = .err .negativeArraySize u) ∨
    (¬(n < 0 ∨ m < 0) ∧ (Gen.newArr2 n m d : JM σ _) u = .ok (Arr.create n (Arr.create m d)) u) := by
  by_cases h : n < 0 ∨ m < 0
  · left; refine ⟨h, ?_⟩; simp only [Gen.newArr2]; rw [if_pos h]
  · right; refine ⟨h, ?_⟩; simp only [Gen.newArr2]; rw [if_neg h]

/-- The constructor, on a fresh object (Java fields start at 0). -/
theorem init_eq (d : α) (initialSize chunkSize : Int) (s₀ : ChunkStore α) (h0 : s₀.limit = 0)
    (hi : initialSize < 2 ^ 31) :
    (∃ s t, Gen.KeyChunkStore.init d initialSize chunkSize s₀ = .ok () s ∧
      ChunkStore.new initialSize chunkSize d = .ok t ∧ R s t) ∨
    ∃ e s, Gen.KeyChunkStore.init d initialSize chunkSize s₀ = .err e s ∧
      ChunkStore.new initialSize chunkSize d = .error e := by
  have hp := nextPowerOf2_any chunkSize
  unfold Gen.KeyChunkStore.init ChunkStore.new
  simp only [JM.bind_apply, JM.modify_apply, nextPowerOf2_eq, JM.pure_apply, JM.get_apply]
  generalize nextPowerOf2 chunkSize = cs at *
  rcases newArr2_cases (ceilDiv initialSize cs) cs d
    ({ s₀ with chunkSize := cs, chunkMask := i32 (chunkSize - 1), shift := numberOfTrailingZeros cs })
    with ⟨hn, e⟩ | ⟨hn, e⟩
  · right
    rw [e, if_pos hn]
    exact ⟨_, _, rfl, rfl⟩
  · left
    rw [e, if_neg hn]
    have hlt := ceilDiv_lt hi (show 1 ≤ cs by omega)
    refine ⟨_, _, rfl, rfl, rfl, rfl, rfl, Same.refl _, ?_, h0, by simp only; omega, ?_⟩
    · simp only [Arr.len_create]
      rw [show ((ceilDiv initialSize cs).toNat : Int) = ceilDiv initialSize cs by omega]
    · simp only [Arr.len_create]; omega

end Verif.Link.ChunkStore

namespace Verif.Link.MatrixStore
open Verif Verif.MatrixStore
variable {α : Type}

/-- Equal, as far as a program can see. -/
structure R (s t : MatrixStore α) : Prop where
  chunkSize : s.chunkSize = t.chunkSize
  chunkMask : s.chunkMask = t.chunkMask
  shift : s.shift = t.shift
  chunks : Same s.chunks t.chunks
  capacity : s.capacity = t.capacity
  nf : s.numFields = t.numFields
  size : 1 ≤ t.chunkSize
  len : (t.chunks.len : Int) < 2 ^ 31
  fields : 1 ≤ t.numFields ∧ t.numFields < 2 ^ 31

/-- One public call of the generated class. -/
def step (fuel : Nat) (d : α) : Op α → JM (MatrixStore α) (Option α)
  | .get r f => do return some (← Gen.KeyChunkMatrixStore.getElem d r f)
  | .set r f v => do Gen.KeyChunkMatrixStore.setElem d fuel r f v; pure none

theorem grow_loop (d : α) : ∀ (k fuel : Nat) (i : Int) (s : MatrixStore α), k < fuel → 0 ≤ i →
    k = (s.chunks.len - i).toNat → 1 ≤ s.chunkSize → (s.chunks.len : Int) < 2 ^ 31 →
    ∃ c, Gen.KeyChunkMatrixStore.grow_loop1 d fuel i s = .ok () { s with chunks := c } ∧
      c.len = s.chunks.len ∧ ∀ j : Int, 0 ≤ j → j < s.chunks.len →
        c.get j = if i ≤ j then Arr.create s.chunkSize d else s.chunks.get j := by
  intro k
  induction k with
  | zero =>
    intro fuel i s hf hi hk hc hl
    obtain ⟨f, rfl⟩ : ∃ f, fuel = f + 1 := ⟨fuel - 1, by omega⟩
    refine ⟨s.chunks, ?_, rfl, fun j h0 hj => by rw [if_neg (by omega)]⟩
    have : ¬ i < s.chunks.len := by omega
    simp [Gen.KeyChunkMatrixStore.grow_loop1, JM.bind_apply, this]
  | succ k ih =>
    intro fuel i s hf hi hk hc hl
    obtain ⟨f, rfl⟩ : ∃ f, fuel = f + 1 := ⟨fuel - 1, by omega⟩
    have hlt : i < s.chunks.len := by omega
    have e : i32 (i + 1) = i + 1 := i32_of_range (by omega)
    obtain ⟨c, h1, h2, h3⟩ := ih f (i + 1)
      { s with chunks := s.chunks.set i (Arr.create s.chunkSize d) } (by omega) (by omega)
      (by simp only [Arr.len_set]; omega) hc (by simpa using hl)
    refine ⟨c, ?_, h2, fun j h0 hj => ?_⟩
    · unfold Gen.KeyChunkMatrixStore.grow_loop1
      simp only [JM.bind_apply, JM.get_apply, hlt, decide_true, if_true]
      rw [newArr_ok d (by omega)]
      simp only
      rw [wr_ok MatrixStore.chunks _ ⟨hi, hlt⟩]
      simp only [e]
      exact h1
    · rw [h3 j h0 (by simpa using hj)]
      simp only [Arr.get_set]
      by_cases h : j = i
      · subst h; rw [if_neg (by omega), if_pos rfl, if_pos (by omega)]
      · by_cases h' : i + 1 ≤ j
        · rw [if_pos h', if_pos (by omega)]
        · rw [if_neg h', if_neg h, if_neg (by omega)]

theorem grow_eq (d : α) (fuel : Nat) (hf : 2 ^ 31 ≤ fuel) (index : Int) (hi : index < 2 ^ 31)
    {s t : MatrixStore α} (h : R s t) :
    (∃ s' t', Gen.KeyChunkMatrixStore.grow d fuel index s = .ok () s' ∧ Verif.MatrixStore.grow d index t = .ok () t' ∧
      R s' t') ∨
    (Gen.KeyChunkMatrixStore.grow d fuel index s = .err .negativeArraySize s ∧
      Verif.MatrixStore.grow d index t = .err .negativeArraySize t) := by
  obtain ⟨h1, h2, h3, h4, h5, h6, h7, h8, h9⟩ := h
  unfold Gen.KeyChunkMatrixStore.grow Verif.MatrixStore.grow
  simp only [JM.bind_apply, JM.get_apply, h1, h6]
  generalize hn : ceilDiv (i32 (index * t.numFields)) t.chunkSize = n
  have hn2 : n < 2 ^ 31 := by
    rw [← hn]; exact ceilDiv_lt (by have := i32_range (index * t.numFields); omega) h7
  by_cases h0 : 0 ≤ n
  · left
    rw [copyOf_ok _ _ h0, copyOf_ok _ _ h0]
    simp only [JM.modify_apply]
    obtain ⟨c, k1, k2, k3⟩ := grow_loop d _ fuel (s.chunks.len : Int)
      { s with chunks := s.chunks.copyOf n (Arr.create 0 d) } (by simp; omega) (by omega) rfl
      (by simp only; omega) (by simp; omega)
    rw [k1]
    refine ⟨_, _, rfl, rfl, ?_⟩
    simp only [Arr.len_copyOf] at k2 k3
    constructor <;> simp only [Arr.len_copyOf, k2]
    case chunks =>
      refine ⟨by simpa using k2, fun j j0 jl => ?_⟩
      rw [k3 j j0 (by omega)]
      simp only [Arr.get_copyOf, ← h4.1]
      by_cases hj : j < s.chunks.len
      · rw [if_neg (by omega), if_pos hj, if_pos hj]; exact h4.2 j j0 hj
      · rw [if_pos (by omega), if_neg hj, h1]
    case capacity =>
      rw [h1, h6]
      exact tdiv_fits h9.1
    case chunkSize => exact h1
    case chunkMask => exact h2
    case shift => exact h3
    case size => exact h7
    case len => omega
    case nf => exact h6
    case fields => exact h9
  · right
    have e : ∀ (x : Arr (Arr α)) (y : Arr α) (u : MatrixStore α),
        (copyOf x n y : JM (MatrixStore α) _) u = .err .negativeArraySize u := by
      intro x y u; simp only [copyOf]; rw [if_neg h0]
    rw [e, e]; exact ⟨rfl, rfl⟩

theorem rd_same {s t : MatrixStore α} (h : Same s.chunks t.chunks) (i : Int) :
    (0 ≤ i ∧ i < t.chunks.len ∧ rd MatrixStore.chunks i s = .ok (t.chunks.get i) s ∧
      rd MatrixStore.chunks i t = .ok (t.chunks.get i) t) ∨
    (¬(0 ≤ i ∧ i < t.chunks.len) ∧ rd MatrixStore.chunks i s = .err .indexOutOfBounds s ∧
      rd MatrixStore.chunks i t = .err .indexOutOfBounds t) := by
  by_cases hi : 0 ≤ i ∧ i < t.chunks.len
  · left
    have hi' : 0 ≤ i ∧ i < s.chunks.len := by rw [h.1]; exact hi
    refine ⟨hi.1, hi.2, ?_, rd_ok _ hi⟩
    rw [rd_ok _ hi', h.2 i hi'.1 hi'.2]
  · right
    have hi' : ¬(0 ≤ i ∧ i < s.chunks.len) := by rw [h.1]; exact hi
    refine ⟨hi, ?_, ?_⟩
    · simp only [rd]; rw [if_neg hi']
    · simp only [rd]; rw [if_neg hi]

theorem get_eq (d : α) (row field : Int) {s t : MatrixStore α} (h : R s t) :
    (∃ v, Gen.KeyChunkMatrixStore.getElem d row field s = .ok v s ∧ getAt d row field t = .ok v t) ∨
    ∃ e, Gen.KeyChunkMatrixStore.getElem d row field s = .err e s ∧ getAt d row field t = .err e t := by
  obtain ⟨h1, h2, h3, h4, h5, h6, h7, h8, h9⟩ := h
  unfold Gen.KeyChunkMatrixStore.getElem getAt
  have en : i32 (t.numFields - 1) = t.numFields - 1 := i32_of_range (by omega)
  have er : ∀ u : MatrixStore α, Gen.RangeCheckException.assertWithinRange 0 (t.numFields - 1) field u =
      assertWithinRange 0 (t.numFields - 1) field u := by
    intro u
    unfold Gen.RangeCheckException.assertWithinRange assertWithinRange
    by_cases hb : field < 0 ∨ field > t.numFields - 1
    · have hb' : (decide (field < 0) || decide (field > t.numFields - 1)) = true := by simpa using hb
      rw [if_pos hb', if_pos hb]; rfl
    · have hb' : ¬ (decide (field < 0) || decide (field > t.numFields - 1)) = true := by simpa using hb
      rw [if_neg hb', if_neg hb]; rfl
  simp only [JM.bind_apply, JM.get_apply, h6]
  simp only [en, er]
  have hrc : ∀ u : MatrixStore α, assertWithinRange 0 (t.numFields - 1) field u = .err .rangeCheck u ∨
      assertWithinRange 0 (t.numFields - 1) field u = .ok () u := by
    intro u; unfold assertWithinRange; split
    · left; rfl
    · right; rfl
  have hrc2 : assertWithinRange 0 (t.numFields - 1) field s = .err .rangeCheck s ↔
      assertWithinRange 0 (t.numFields - 1) field t = .err .rangeCheck t := by
    unfold assertWithinRange; split
    · exact ⟨fun _ => rfl, fun _ => rfl⟩
    · exact ⟨fun h => by simp at h, fun h => by simp at h⟩
  rcases hrc t with hb | hb
  · rw [hb, hrc2.2 hb]; exact .inr ⟨_, rfl, rfl⟩
  have hb' : assertWithinRange 0 (t.numFields - 1) field s = .ok () s := by
    rcases hrc s with h | h
    · rw [hrc2.1 h] at hb; simp at hb
    · exact h
  rw [hb, hb']
  simp only [h2, h3, h5, h6]
  by_cases hc : row ≥ t.capacity
  · left; refine ⟨d, ?_, ?_⟩ <;> simp [hc]
  · simp only [hc, decide_false, Bool.false_eq_true, if_false, JM.bind_apply]
    rcases rd_same h4 (shr32 (i32 (i32 (row * t.numFields) + field)) t.shift) with ⟨_, _, k1, k2⟩ | ⟨_, k1, k2⟩
    · simp only [k1, k2]
      by_cases ho : 0 ≤ and32 (i32 (i32 (row * t.numFields) + field)) t.chunkMask ∧
          and32 (i32 (i32 (row * t.numFields) + field)) t.chunkMask < ((t.chunks.get (shr32 (i32 (i32 (row * t.numFields) + field)) t.shift)).len : Int)
      · left; exact ⟨_, rdA_ok _ ho, rdA_ok _ ho⟩
      · right; refine ⟨.indexOutOfBounds, ?_, ?_⟩ <;> (simp only [rdA]; rw [if_neg ho])
    · right; exact ⟨_, by rw [k1], by rw [k2]⟩

theorem set_eq (d : α) (fuel : Nat) (hf : 2 ^ 31 ≤ fuel) (row field : Int) (v : α) {s t : MatrixStore α} (h : R s t) :
    (∃ s' t', Gen.KeyChunkMatrixStore.setElem d fuel row field v s = .ok () s' ∧ setAt d row field v t = .ok () t' ∧ R s' t') ∨
    ∃ e s' t', Gen.KeyChunkMatrixStore.setElem d fuel row field v s = .err e s' ∧ setAt d row field v t = .err e t' ∧ R s' t' := by
  have hR := h
  obtain ⟨h1, h2, h3, h4, h5, h6, h7, h8, h9⟩ := h
  unfold Gen.KeyChunkMatrixStore.setElem setAt
  have en : i32 (t.numFields - 1) = t.numFields - 1 := i32_of_range (by omega)
  have er : ∀ u : MatrixStore α, Gen.RangeCheckException.assertWithinRange 0 (t.numFields - 1) field u =
      assertWithinRange 0 (t.numFields - 1) field u := by
    intro u
    unfold Gen.RangeCheckException.assertWithinRange assertWithinRange
    by_cases hb : field < 0 ∨ field > t.numFields - 1
    · have hb' : (decide (field < 0) || decide (field > t.numFields - 1)) = true := by simpa using hb
      rw [if_pos hb', if_pos hb]; rfl
    · have hb' : ¬ (decide (field < 0) || decide (field > t.numFields - 1)) = true := by simpa using hb
      rw [if_neg hb', if_neg hb]; rfl
  simp only [JM.bind_apply, JM.get_apply, h6]
  simp only [en, er]
  have hrc : ∀ u : MatrixStore α, assertWithinRange 0 (t.numFields - 1) field u = .err .rangeCheck u ∨
      assertWithinRange 0 (t.numFields - 1) field u = .ok () u := by
    intro u; unfold assertWithinRange; split
    · left; rfl
    · right; rfl
  have hrc2 : assertWithinRange 0 (t.numFields - 1) field s = .err .rangeCheck s ↔
      assertWithinRange 0 (t.numFields - 1) field t = .err .rangeCheck t := by
    unfold assertWithinRange; split
    · exact ⟨fun _ => rfl, fun _ => rfl⟩
    · exact ⟨fun h => by simp at h, fun h => by simp at h⟩
  rcases hrc t with hb | hb
  · rw [hb, hrc2.2 hb]; exact .inr ⟨_, _, _, rfl, rfl, hR⟩
  have hb' : assertWithinRange 0 (t.numFields - 1) field s = .ok () s := by
    rcases hrc s with h | h
    · rw [hrc2.1 h] at hb; simp at hb
    · exact h
  rw [hb, hb']
  simp only [h5]
  have hg : ((Gen.KeyChunkMatrixStore.grow d fuel (i32 (row + 1)) >>= fun _ => pure ()) : JM (MatrixStore α) Unit) s =
      Gen.KeyChunkMatrixStore.grow d fuel (i32 (row + 1)) s := by rw [bind_unit]
  have first : (∃ s' t', (if decide (row ≥ t.capacity) = true then
          (Gen.KeyChunkMatrixStore.grow d fuel (i32 (row + 1)) >>= fun _ => pure () : JM (MatrixStore α) Unit)
        else pure ()) s = .ok () s' ∧
      (JM.when (row ≥ t.capacity) (Verif.MatrixStore.grow d (i32 (row + 1)))) t = .ok () t' ∧ R s' t') ∨
      ∃ e s' t', (if decide (row ≥ t.capacity) = true then
          (Gen.KeyChunkMatrixStore.grow d fuel (i32 (row + 1)) >>= fun _ => pure () : JM (MatrixStore α) Unit)
        else pure ()) s = .err e s' ∧
      (JM.when (row ≥ t.capacity) (Verif.MatrixStore.grow d (i32 (row + 1)))) t = .err e t' ∧ R s' t' := by
    by_cases hc : row ≥ t.capacity
    · simp only [hc, decide_true, if_true, JM.when, hg]
      have hlt : i32 (row + 1) < 2 ^ 31 := by have := i32_range (row + 1); omega
      rcases grow_eq d fuel hf (i32 (row + 1)) hlt hR with ⟨s', t', k1, k2, k3⟩ | ⟨k1, k2⟩
      · exact .inl ⟨s', t', k1, k2, k3⟩
      · exact .inr ⟨_, _, _, k1, k2, hR⟩
    · left
      refine ⟨s, t, ?_, ?_, hR⟩
      · simp only [hc, decide_false, Bool.false_eq_true, if_false, JM.pure_apply]
      · rw [JM.when_neg hc]; rfl
  rcases first with ⟨s', t', k1, k2, k3⟩ | ⟨e, s', t', k1, k2, k3⟩
  · rw [k1, k2]
    clear hR h1 h2 h3 h4 h5 h6 h7 h8 h9 k1 k2 hb hb' hrc hrc2 er en hg
    obtain ⟨h1, h2, h3, h4, h5, h6, h7, h8, h9⟩ := k3
    obtain ⟨cs, cm, sh, nf, ch, cap⟩ := s'
    obtain ⟨cs', cm', sh', nf', ch', cap'⟩ := t'
    simp only at h1 h2 h3 h4 h5 h6 h7 h8 h9
    subst h1 h2 h3 h5 h6
    simp only [JM.modify_apply, JM.get_apply, JM.bind_apply]
    rcases rd_same (s := (⟨cs, cm, sh, nf, ch, cap⟩ : MatrixStore α))
      (t := (⟨cs, cm, sh, nf, ch', cap⟩ : MatrixStore α)) h4 (shr32 (i32 (i32 (row * nf) + field)) sh) with ⟨i0, i1, k1, k2⟩ | ⟨_, k1, k2⟩
    · simp only [k1, k2]
      by_cases ho : 0 ≤ and32 (i32 (i32 (row * nf) + field)) cm ∧
          and32 (i32 (i32 (row * nf) + field)) cm <
            ((ch'.get (shr32 (i32 (i32 (row * nf) + field)) sh)).len : Int)
      · left
        simp only [Gen.wrA, ho, and_self, if_true]
        rw [wr_ok MatrixStore.chunks _ ⟨i0, i1⟩,
          wr_ok MatrixStore.chunks _ (⟨i0, by simpa [h4.1] using i1⟩)]
        refine ⟨_, _, rfl, rfl, rfl, rfl, rfl, ⟨h4.1, fun j j0 jl => ?_⟩, rfl, rfl, h7, by simpa using h8, h9⟩
        simp only [Arr.get_set]
        split
        · rfl
        · exact h4.2 j j0 (by simpa using jl)
      · right
        refine ⟨.indexOutOfBounds, (⟨cs, cm, sh, nf, ch, cap⟩ : MatrixStore α), (⟨cs, cm, sh, nf, ch', cap⟩ : MatrixStore α), ?_, ?_, rfl, rfl, rfl, h4, rfl, rfl, h7, h8, h9⟩
        · simp only [Gen.wrA]; rw [if_neg ho]
        · rw [if_neg ho]; rfl
    · right
      rw [k1, k2]
      exact ⟨_, _, _, rfl, rfl, ⟨rfl, rfl, rfl, h4, rfl, rfl, h7, h8, h9⟩⟩
  · right; rw [k1, k2]; exact ⟨e, s', t', rfl, rfl, k3⟩

/-- Every public call: same result, related states. -/
theorem step_eq (fuel : Nat) (hf : 2 ^ 31 ≤ fuel) (d : α) (s t : MatrixStore α) (o : Op α) (h : R s t) :
    (step fuel d o s).out = (Verif.MatrixStore.step d o t).out ∧
      R (step fuel d o s).state (Verif.MatrixStore.step d o t).state := by
  cases o with
  | get r f =>
    rcases get_eq d r f h with ⟨v, k1, k2⟩ | ⟨e, k1, k2⟩ <;>
      simp [step, Verif.MatrixStore.step, JM.bind_apply, k1, k2, h]
  | set r f v =>
    rcases set_eq d fuel hf r f v h with ⟨s', t', k1, k2, k3⟩ | ⟨e, s', t', k1, k2, k3⟩ <;>
      simp [step, Verif.MatrixStore.step, JM.bind_apply, k1, k2, k3]

theorem min_cases {σ : Type} (m v : Int) (u : σ) :
    (v < m ∧ (Gen.InitializationException.assertMinimum m v : JM σ Unit) u = .err .initialization u) ∨
    (¬ v < m ∧ (Gen.InitializationException.assertMinimum m v : JM σ Unit) u = .ok () u) := by
  by_cases h : v < m
  · left; refine ⟨h, ?_⟩
    unfold Gen.InitializationException.assertMinimum; rw [if_pos (by simpa using h)]; rfl
  · right; refine ⟨h, ?_⟩
    unfold Gen.InitializationException.assertMinimum; rw [if_neg (by simpa using h)]; rfl

/-- The constructor. -/
theorem init_eq (d : α) (initialSize chunkSize numFields : Int) (s₀ : MatrixStore α)
    (hn : numFields < 2 ^ 31) :
    (∃ s t, Gen.KeyChunkMatrixStore.init d initialSize chunkSize numFields s₀ = .ok () s ∧
      MatrixStore.new initialSize chunkSize numFields d = .ok t ∧ R s t) ∨
    ∃ e s, Gen.KeyChunkMatrixStore.init d initialSize chunkSize numFields s₀ = .err e s ∧
      MatrixStore.new initialSize chunkSize numFields d = .error e := by
  have hp := nextPowerOf2_any chunkSize
  unfold Gen.KeyChunkMatrixStore.init MatrixStore.new Gen.KeyChunkMatrixStore.assertValidConfig
  simp only [JM.bind_apply, JM.modify_apply, nextPowerOf2_eq, JM.pure_apply, JM.get_apply]
  rcases min_cases 1 initialSize s₀ with ⟨h1, e⟩ | ⟨h1, e⟩
  · right; rw [e, if_pos h1]; exact ⟨_, _, rfl, rfl⟩
  rw [e, if_neg h1]
  simp only
  rcases min_cases 2 chunkSize s₀ with ⟨h2, e⟩ | ⟨h2, e⟩
  · right; rw [e, if_pos h2]; exact ⟨_, _, rfl, rfl⟩
  rw [e, if_neg h2]
  simp only
  rcases min_cases 1 numFields s₀ with ⟨h3, e⟩ | ⟨h3, e⟩
  · right; rw [e, if_pos h3]; exact ⟨_, _, rfl, rfl⟩
  rw [e, if_neg h3]
  simp only
  generalize nextPowerOf2 chunkSize = cs at *
  generalize hraw : i32 (initialSize * numFields) = raw
  have hr := i32_range (initialSize * numFields)
  rw [hraw] at hr
  rcases ChunkStore.newArr2_cases (ceilDiv raw cs) cs d
    ({ s₀ with chunkSize := cs, chunkMask := i32 (chunkSize - 1), shift := numberOfTrailingZeros cs,
               numFields := numFields })
    with ⟨hn, e⟩ | ⟨hn, e⟩
  · right
    rw [e, if_pos hn]
    exact ⟨_, _, rfl, rfl⟩
  · left
    rw [e, if_neg hn]
    have hlt := ceilDiv_lt (a := raw) (by omega) (show 1 ≤ cs by omega)
    refine ⟨_, _, rfl, rfl, rfl, rfl, rfl, Same.refl _, ?_, rfl, by simp only; omega, ?_, by simp only; omega⟩
    · simp only [Arr.len_create]
      rw [show ((ceilDiv raw cs).toNat : Int) = ceilDiv raw cs by omega]
      exact tdiv_fits (by omega)
    · simp only [Arr.len_create]; omega

end Verif.Link.MatrixStore

namespace Verif
variable {α : Type}

/-- KeyChunkStore.ftl, the generated code: the constructor makes a store exactly when the model's
does, and from then on every history of calls, legal or not and of any length, gives the results
(exceptions included) of the model, for every initial size and chunk size. -/
theorem C09_generated_chunkStore_model (fuel : Nat) (hf : 2 ^ 31 ≤ fuel) (d : α)
    (initialSize chunkSize : Int) (hi : initialSize < 2 ^ 31) (s₀ : ChunkStore α) (h0 : s₀.limit = 0) :
    (∀ s u, Gen.KeyChunkStore.init d initialSize chunkSize s₀ = .ok u s →
      ∃ t, ChunkStore.new initialSize chunkSize d = .ok t ∧
        ∀ ops, (runM (Link.ChunkStore.step fuel d) s ops).1 = (runM (ChunkStore.step d) t ops).1) ∧
    (∀ s e, Gen.KeyChunkStore.init d initialSize chunkSize s₀ = .err e s →
      ChunkStore.new initialSize chunkSize d = .error e) := by
  rcases Link.ChunkStore.init_eq d initialSize chunkSize s₀ h0 hi with ⟨s, t, e1, e2, hr⟩ | ⟨e, s, e1, e2⟩
  · refine ⟨fun s' u h => ?_, fun s' e h => ?_⟩
    · rw [e1] at h
      injection h with h1 h2
      subst h2
      exact ⟨t, e2, fun ops =>
        (Link.runM_bisim (fun s t o h => Link.ChunkStore.step_eq fuel hf d s t o h) ops s t hr).1⟩
    · rw [e1] at h; cases h
  · refine ⟨fun s' u h => ?_, fun s' e' h => ?_⟩
    · rw [e1] at h; cases h
    · rw [e1] at h; injection h with h1 h2; rw [← h1]; exact e2

/-- C09 for the code generated from KeyChunkStore.ftl (chunk sizes that are powers of two; the
other sizes alias, see `C09_refuted`). -/
theorem C09_generated_chunkStore_partial (fuel : Nat) (hf : 2 ^ 31 ≤ fuel) (k : Nat) (hk : k ≤ 30)
    (initialSize : Int) (hn : initialSize ≤ 2 ^ 30) (d : α) (s₀ s : ChunkStore α) (h0 : s₀.limit = 0)
    (u : Unit) (hnew : Gen.KeyChunkStore.init d initialSize (2 ^ k : Nat) s₀ = .ok u s)
    (ops : List (ChunkStore.Op α))
    (hb : Allowed ChunkStoreSpec.step ChunkStoreSpec.Legal (fun _ => d) ops) :
    (runM (Link.ChunkStore.step fuel d) s ops).1 = (runS ChunkStoreSpec.step (fun _ => d) ops).1 := by
  obtain ⟨t, ht, h⟩ :=
    (C09_generated_chunkStore_model fuel hf d initialSize _ (by omega) s₀ h0).1 s u hnew
  rw [h ops]
  exact C09_chunkStore_partial k hk initialSize hn d t ht ops hb

example : ∃ s : ChunkStore Int, Gen.KeyChunkStore.init 0 1 4 ⟨5, 5, 5, Arr.create 0 (Arr.create 0 0), 5, 0⟩ = .ok () s ∧
    (runM (Link.ChunkStore.step 50 0) s
      [ChunkStore.Op.set 9 5, .set 1 6, .get 9, .get 1, .get 2, .get 99, .get (-1)]).1 =
      [.ok none, .ok none, .ok (some 5), .ok (some 6), .ok (some 0), .ok (some 0),
       .error .indexOutOfBounds] := ⟨_, rfl, rfl⟩

/-- KeyChunkMatrixStore.ftl, the generated code, likewise. -/
theorem C11_generated_matrixStore_model (fuel : Nat) (hf : 2 ^ 31 ≤ fuel) (d : α)
    (initialSize chunkSize nf : Int) (hi : nf < 2 ^ 31) (s₀ : MatrixStore α) :
    (∀ s u, Gen.KeyChunkMatrixStore.init d initialSize chunkSize nf s₀ = .ok u s →
      ∃ t, MatrixStore.new initialSize chunkSize nf d = .ok t ∧
        ∀ ops, (runM (Link.MatrixStore.step fuel d) s ops).1 = (runM (MatrixStore.step d) t ops).1) ∧
    (∀ s e, Gen.KeyChunkMatrixStore.init d initialSize chunkSize nf s₀ = .err e s →
      MatrixStore.new initialSize chunkSize nf d = .error e) := by
  rcases Link.MatrixStore.init_eq d initialSize chunkSize nf s₀ hi with ⟨s, t, e1, e2, hr⟩ | ⟨e, s, e1, e2⟩
  · refine ⟨fun s' u h => ?_, fun s' e h => ?_⟩
    · rw [e1] at h
      injection h with h1 h2
      subst h2
      exact ⟨t, e2, fun ops =>
        (Link.runM_bisim (fun s t o h => Link.MatrixStore.step_eq fuel hf d s t o h) ops s t hr).1⟩
    · rw [e1] at h; cases h
  · refine ⟨fun s' u h => ?_, fun s' e' h => ?_⟩
    · rw [e1] at h; cases h
    · rw [e1] at h; injection h with h1 h2; rw [← h1]; exact e2

/-- C11 for the code generated from KeyChunkMatrixStore.ftl. -/
theorem C11_generated_matrixStore_partial (fuel : Nat) (hf : 2 ^ 31 ≤ fuel) (k : Nat) (hk : k ≤ 30)
    (initialSize nf : Int) (hn : initialSize * nf ≤ 2 ^ 30) (hi : nf < 2 ^ 31) (d : α)
    (s₀ s : MatrixStore α) (u : Unit)
    (hnew : Gen.KeyChunkMatrixStore.init d initialSize (2 ^ k : Nat) nf s₀ = .ok u s)
    (ops : List (MatrixStore.Op α))
    (hb : Allowed (MatrixStoreSpec.step nf) (MatrixStoreSpec.Legal nf) (fun _ _ => d) ops) :
    (runM (Link.MatrixStore.step fuel d) s ops).1 =
      (runS (MatrixStoreSpec.step nf) (fun _ _ => d) ops).1 := by
  obtain ⟨t, ht, h⟩ :=
    (C11_generated_matrixStore_model fuel hf d initialSize _ nf hi s₀).1 s u hnew
  rw [h ops]
  exact C11_matrixStore_partial k hk initialSize nf hn d t ht ops hb

example : ∃ s : MatrixStore Int,
    Gen.KeyChunkMatrixStore.init 0 1 4 3 ⟨5, 5, 5, 5, Arr.create 0 (Arr.create 0 0), 0⟩ = .ok () s ∧
    (runM (Link.MatrixStore.step 50 0) s
      [MatrixStore.Op.set 2 1 5, .set 1 2 6, .get 2 1, .get 1 2, .get 0 3, .get (-1) 0, .get 9 0]).1 =
      [.ok none, .ok none, .ok (some 5), .ok (some 6), .error .rangeCheck,
       .error .indexOutOfBounds, .ok (some 0)] := ⟨_, rfl, rfl⟩

end Verif

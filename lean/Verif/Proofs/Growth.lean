import Verif.Spec.Growth
import Verif.Proofs.Callbacks
import Verif.Proofs.IndexCap
import Verif.Proofs.Vector
/-! Array lengths of deque and vector, exactly, and the capacity of the heap. -/
namespace Verif.GrowthSpec
variable {c m m' n n' : Nat}

theorem LeastDoubling.refl (h : m ≤ c) : LeastDoubling c m c :=
  ⟨⟨0, by simp⟩, h, fun j _ => Nat.le_mul_of_pos_right _ (Nat.two_pow_pos j)⟩

theorem LeastDoubling.of {k : Nat} (hn : n = c * 2 ^ k) (h : m ≤ n) (hk : k = 0 ∨ c * 2 ^ (k - 1) < m) :
    LeastDoubling c m n := by
  refine ⟨⟨k, hn⟩, h, fun j hj => ?_⟩
  rw [hn]
  rcases hk with rfl | hk
  · rw [Nat.pow_zero, Nat.mul_one]
    exact Nat.le_mul_of_pos_right _ (Nat.two_pow_pos j)
  · have hl : c * 2 ^ (k - 1) < c * 2 ^ j := by omega
    have hl := Nat.lt_of_mul_lt_mul_left hl
    have hl := (Nat.pow_lt_pow_iff_right (by omega : 1 < 2)).1 hl
    exact Nat.mul_le_mul_left _ (Nat.pow_le_pow_right (by omega) (by omega))

theorem LeastDoubling.trans (h0 : 1 ≤ c) (h1 : LeastDoubling c m n) (hm : m ≤ m') (h2 : LeastDoubling n m' n') :
    LeastDoubling c m' n' := by
  obtain ⟨⟨k, rfl⟩, h12, h13⟩ := h1
  obtain ⟨⟨k', rfl⟩, h22, h23⟩ := h2
  refine ⟨⟨k + k', by rw [Nat.pow_add, Nat.mul_assoc]⟩, h22, fun j hj => ?_⟩
  have hl := Nat.le_of_mul_le_mul_left (h13 j (by omega)) (by omega)
  have hl := (Nat.pow_le_pow_iff_right (by omega : 1 < 2)).1 hl
  have e : c * 2 ^ j = c * 2 ^ k * 2 ^ (j - k) := by
    rw [Nat.mul_assoc, ← Nat.pow_add, Nat.add_sub_cancel' hl]
  rw [e] at hj ⊢
  exact h23 _ hj

theorem LeastDoubling.raise (h : LeastDoubling c m n) (h2 : m' ≤ c) : LeastDoubling c (max m' m) n := by
  obtain ⟨⟨k, rfl⟩, h12, h13⟩ := h
  have := Nat.le_mul_of_pos_right c (Nat.two_pow_pos k)
  exact ⟨⟨k, rfl⟩, by omega, fun j hj => h13 j (by omega)⟩

end Verif.GrowthSpec

namespace Verif
open GrowthSpec
variable {α : Type}

namespace Deque

theorem grow_len {d : α} {s t : Deque α} {u : Unit} (h0 : 1 ≤ s.values.len) (hcap : (s.values.len : Int) < 536870912)
    (h : grow d s = .ok u t) : (t.values.len : Int) = min (2 * (s.values.len : Int)) 536870912 := by
  unfold grow at h
  rw [JM.bind_ok (JM.get_apply s), JM.bind_ok (calculateNewCapacity_ok (by omega) hcap), if_neg (by omega)] at h
  generalize hn : min (2 * (s.values.len : Int)) 536870912 = n at h ⊢
  rw [JM.bind_ok (newArr_ok d (by omega))] at h
  obtain ⟨a1, s1, h1, h⟩ := jm_bind_inv h
  obtain ⟨a2, s2, h2, h⟩ := jm_bind_inv h
  have hl : ∀ {x y z : Arr α} {i j k : Int} {s t : Deque α}, arraycopy x i y j k s = .ok z t → z.len = y.len := by
    intro x y z i j k s t h
    simp only [arraycopy] at h
    split at h
    · injection h with h _; subst h; simp
    · cases h
  have e1 := hl h1
  have e2 := hl h2
  cases h
  show ((a2.len : Int)) = n
  rw [e2, e1]
  simp
  omega

/-- One call leaves the length of the array alone, or doubles it, up to 2^29, because the deque would be full. -/
theorem step_doubles {ref : Bool} {d : α} {s : Deque α} {l : List α} (h : Inv ref d s l) (o : Op α)
    (hb : DequeSpec.Bounded o l) : (step ref d o s).state.values.len = s.values.len ∨
      (((step ref d o s).state.values.len : Int) = min (2 * (s.values.len : Int)) 536870912 ∧
        (DequeSpec.step o l).2.length = s.values.len) := by
  have hroom := h.room
  unfold DequeSpec.Bounded at hb
  cases o with
  | addFirst v =>
    have hst : (step ref d (.addFirst v) s).state = (addFirst d v s).state := by
      simp only [step, JM.bind_apply]; cases addFirst d v s <;> rfl
    rw [hst]
    by_cases hq : (l.length : Int) + 1 < s.values.len
    · exact .inl (addFirst_quiet h v hq).1
    · refine .inr ⟨?_, by simp [DequeSpec.step]; omega⟩
      simp only [DequeSpec.step, List.length_cons] at hb
      obtain ⟨t, ht, hi⟩ := addFirst_spec h v (by omega)
      have hr := hi.room
      simp only [List.length_cons] at hr
      rw [ht]
      unfold addFirst at ht
      rw [JM.bind_ok (JM.modify_apply _ s), JM.bind_ok (JM.get_apply _)] at ht
      obtain ⟨_, s1, h1, ht⟩ := jm_bind_inv ht
      have e1 : s1.values.len = s.values.len := by
        simp only [wr] at h1
        split at h1
        · injection h1 with _ h1; subst h1; simp
        · cases h1
      rw [JM.bind_ok (JM.modify_apply _ _), JM.bind_ok (JM.get_apply _)] at ht
      split at ht
      · have := grow_len (by simp; omega) (by simp; omega) ht
        simpa [e1] using this
      · cases ht
        simp only at hr
        omega
  | addLast v =>
    have hst : (step ref d (.addLast v) s).state = (addLast d v s).state := by
      simp only [step, JM.bind_apply]; cases addLast d v s <;> rfl
    rw [hst]
    by_cases hq : (l.length : Int) + 1 < s.values.len
    · exact .inl (addLast_quiet h v hq).1
    · refine .inr ⟨?_, by simp [DequeSpec.step]; omega⟩
      simp only [DequeSpec.step, List.length_append, List.length_cons, List.length_nil] at hb
      obtain ⟨t, ht, hi⟩ := addLast_spec h v (by omega)
      have hr := hi.room
      simp only [List.length_append, List.length_cons, List.length_nil] at hr
      rw [ht]
      unfold addLast at ht
      rw [JM.bind_ok (JM.get_apply _)] at ht
      obtain ⟨_, s1, h1, ht⟩ := jm_bind_inv ht
      have e1 : s1.values.len = s.values.len := by
        simp only [wr] at h1
        split at h1
        · injection h1 with _ h1; subst h1; simp
        · cases h1
      rw [JM.bind_ok (JM.modify_apply _ _), JM.bind_ok (JM.modify_apply _ _), JM.bind_ok (JM.get_apply _)] at ht
      split at ht
      · have := grow_len (by simp; omega) (by simp; omega) ht
        simpa [e1] using this
      · cases ht
        simp only at hr
        omega
  | clear =>
    left
    obtain ⟨hcap, hh, ht, hs, hroom, hlink, hslots, hrest⟩ := h
    have hst : (step ref d .clear s).state = (clear ref d s).state := by
      simp only [step, JM.bind_apply]; cases clear ref d s <;> rfl
    rw [hst, clear]
    cases ref with
    | false => rfl
    | true =>
      rw [JM.when_pos rfl, JM.bind_apply]
      by_cases hc : s.head > s.tail
      · rw [JM.bind_ok (JM.get_apply _), if_pos hc, JM.bind_ok (fill_ok _ _ (by omega)),
          JM.bind_ok (fill_ok _ _ (by simp; omega))]
        rfl
      · rw [JM.bind_ok (JM.get_apply _), if_neg hc, JM.bind_ok (fill_ok _ _ (by omega))]
        rfl
  | removeFirst =>
    left
    have hst : (step ref d .removeFirst s).state = (removeFirst d s).state := by
      simp only [step, JM.bind_apply]; cases removeFirst d s <;> rfl
    rw [hst]
    cases l with
    | nil =>
      have : removeFirst d s = .err .noSuchElement s := by
        unfold removeFirst
        rw [JM.bind_ok (JM.get_apply _), if_pos (by simpa using h.size)]; rfl
      rw [this]; rfl
    | cons v l => exact (removeFirst_quiet h).1
  | removeLast =>
    left
    have hst : (step ref d .removeLast s).state = (removeLast d s).state := by
      simp only [step, JM.bind_apply]; cases removeLast d s <;> rfl
    rw [hst]
    by_cases hl : l = []
    · have : removeLast d s = .err .noSuchElement s := by
        unfold removeLast
        rw [JM.bind_ok (JM.get_apply _), if_pos (by simpa [hl] using h.size)]; rfl
      rw [this]; rfl
    · exact (removeLast_quiet h hl).1
  | peekFirst => left; rw [peekFirst_state]
  | peekLast => left; rw [peekLast_state]
  | size => exact .inl rfl
  | isEmpty => exact .inl rfl
  | forEach =>
    left
    have hst : (step ref d .forEach s).state = s := by simp [step, JM.bind_apply, forEach_spec h]
    rw [hst]

theorem history_len {ref : Bool} {d : α} : ∀ (ops : List (Op α)) {s : Deque α} {l : List α} {k : Nat}, Inv ref d s l →
    s.values.len = 2 ^ k → Allowed DequeSpec.step DequeSpec.Bounded l ops →
    LeastDoubling s.values.len (DequeSpec.peak l ops + 1) (runM (step ref d) s ops).2.values.len
  | [], s, l, k, h, _, _ => .refl (by have := h.room; simp only [DequeSpec.peak]; omega)
  | o :: os, s, l, k, h, hk, hb => by
    have hroom := h.room
    have h2 := (step_spec s l o h hb.1).2
    have hroom2 := h2.room
    have hpk : (DequeSpec.step o l).2.length ≤ DequeSpec.peak (DequeSpec.step o l).2 os := by
      cases os <;> simp [DequeSpec.peak]; omega
    have hbd : ((DequeSpec.step o l).2.length : Int) < 2 ^ 29 := hb.1
    have key : ∃ k', (step ref d o s).state.values.len = 2 ^ k' ∧
        LeastDoubling s.values.len ((DequeSpec.step o l).2.length + 1) (step ref d o s).state.values.len := by
      rcases step_doubles h o hb.1 with e | ⟨e, hf⟩
      · rw [e] at hroom2 ⊢
        exact ⟨k, hk, .refl (by omega)⟩
      · have hk29 : k < 29 := by
          by_cases hc : k < 29
          · exact hc
          · have := Nat.pow_le_pow_right (n := 2) (by omega) (by omega : 29 ≤ k)
            omega
        have hp : 2 ^ (k + 1) ≤ 2 ^ 29 := Nat.pow_le_pow_right (by omega) (by omega)
        have e2 : (step ref d o s).state.values.len = s.values.len * 2 ^ 1 := by omega
        refine ⟨k + 1, by rw [e2, hk]; omega, ?_⟩
        exact .of (k := 1) e2 (by omega) (.inr (by simp; omega))
    obtain ⟨k', e1, e2⟩ := key
    have ih := history_len os h2 e1 hb.2
    simp only [runM, DequeSpec.peak]
    have := (e2.trans (by omega) (by omega) ih).raise (m' := l.length + 1) (by omega)
    rwa [Nat.add_max_add_right] at this

end Deque

theorem ensureSize_len {σ : Type} {a r : Arr α} {n : Int} {d : α} {s t : σ} (h0 : 1 ≤ a.len) (hn : n ≤ 1073741824)
    (h : ensureSize a n d s = .ok r t) : LeastDoubling a.len n.toNat r.len := by
  unfold ensureSize at h
  by_cases hc : n > a.len
  · rw [if_pos hc] at h
    obtain ⟨m, s1, h1, h⟩ := jm_bind_inv h
    simp only [grow] at h1
    rw [if_neg (by omega)] at h1
    obtain ⟨k, -, e, hge, hmin⟩ := growLoop_pow n hn 64 a.len (by omega) (by omega) (by omega)
    rw [e] at h1
    injection h1 with h1 h2
    subst h1
    have hz : (0 : Int) ≤ (a.len : Int) * ((2 ^ k : Nat) : Int) := by omega
    rw [copyOf_ok _ _ hz] at h
    injection h with h _
    subst h
    have el : (a.copyOf ((a.len : Int) * ((2 ^ k : Nat) : Int)) d).len = a.len * 2 ^ k := by
      rw [← Int.natCast_mul]; exact Int.toNat_natCast _
    refine .of (k := k) el (by rw [el]; rw [← Int.natCast_mul] at hge; omega) ?_
    rcases hmin with hk | hk
    · exact .inl hk
    · right; rw [← Int.natCast_mul] at hk; omega
  · rw [if_neg hc] at h
    injection h with h _
    subst h
    exact .refl (by omega)

namespace Vec

/-- What a call needs the array to hold. -/
def asks : Op α → List α → Nat
  | .append _, l => l.length + 1
  | .ensureSize n, _ => n.toNat
  | _, _ => 0

theorem step_len {ref : Bool} {d : α} {s : Vec α} {l : List α} (h : Inv ref d s l) (h0 : 1 ≤ s.values.len) (o : Op α)
    (hb : VecSpec.Legal o l) : LeastDoubling s.values.len (asks o l) (step ref d o s).state.values.len := by
  have hp := h.pos
  cases o with
  | append v =>
    have hb : (l.length : Int) < 2 ^ 30 := hb
    obtain ⟨t, ht, -⟩ := append_spec (v := v) h (by omega)
    have hst : (step ref d (.append v) s).state = t := by simp [step, JM.bind_apply, ht]
    rw [hst]
    unfold append at ht
    rw [JM.bind_ok (JM.get_apply _)] at ht
    obtain ⟨r, s1, h1, ht⟩ := jm_bind_inv ht
    rw [JM.bind_ok (JM.modify_apply _ _)] at ht
    obtain ⟨_, s2, h2, ht⟩ := jm_bind_inv ht
    have e2 : s2.values.len = r.len := by
      simp only [wr] at h2
      split at h2
      · injection h2 with _ h2; subst h2; simp
      · cases h2
    cases ht
    simp only [asks]
    rw [e2]
    unfold ensureEntry at h1
    rw [hp, i32_of_range (by omega)] at h1
    have := ensureSize_len h0 (by omega) h1
    rwa [show ((l.length : Int) + 1).toNat = l.length + 1 by omega] at this
  | ensureSize n =>
    have hb : n ≤ 2 ^ 30 := hb
    obtain ⟨t, ht, -⟩ := ensureSize_spec (n := n) h (by omega)
    have hst : (step ref d (.ensureSize n) s).state = t := by simp [step, JM.bind_apply, ht]
    rw [hst]
    unfold ensureSize at ht
    rw [JM.bind_ok (JM.get_apply _)] at ht
    obtain ⟨r, s1, h1, ht⟩ := jm_bind_inv ht
    cases ht
    exact ensureSize_len h0 (by omega) h1
  | valueAt i =>
    have hst : (step ref d (.valueAt i) s).state = s := by
      simp only [step, JM.bind_apply, valueAt, rd]
      by_cases hc : 0 ≤ i ∧ i < (s.values.len : Int)
      · simp [hc]
      · simp [hc]
    rw [hst]
    exact .refl (by simp [asks])
  | size => exact .refl (by simp [asks])
  | isEmpty => exact .refl (by simp [asks])
  | forEach =>
    have := forEachFrom_spec h l.length 0 (by omega)
    have hst : (step ref d .forEach s).state = s := by
      simp only [step, forEach, JM.bind_apply, JM.get_apply, h.size, Int.toNat_natCast]
      have e : forEachFrom l.length 0 s = .ok (l.drop 0) s := this
      rw [e]; rfl
    rw [hst]
    exact .refl (by simp [asks])
  | clear =>
    have hr := h.room
    have hst : (step ref d .clear s).state.values.len = s.values.len := by
      have e : (step ref d .clear s).state = (clear ref d s).state := by
        simp only [step, JM.bind_apply]; cases clear ref d s <;> rfl
      rw [e, clear]
      cases ref with
      | false => rfl
      | true =>
        rw [JM.when_pos rfl, JM.bind_apply, JM.bind_ok (JM.get_apply _), JM.bind_ok (fill_ok _ _ (by omega))]
        rfl
    rw [hst]
    exact .refl (by simp [asks])

theorem length_le_peak (l : List α) (ops : List (Op α)) : l.length ≤ vectorPeak l ops := by
  cases ops with
  | nil => simp [vectorPeak]
  | cons o os =>
    cases o <;> simp only [vectorPeak] <;> try omega
    have := length_le_peak l os
    omega

theorem history_len {ref : Bool} {d : α} : ∀ (ops : List (Op α)) {s : Vec α} {l : List α}, Inv ref d s l →
    1 ≤ s.values.len → Allowed VecSpec.step VecSpec.Legal l ops →
    LeastDoubling s.values.len (vectorPeak l ops) (runM (step ref d) s ops).2.values.len
  | [], s, l, h, _, _ => .refl (by have := h.room; simp only [vectorPeak]; omega)
  | o :: os, s, l, h, h0, hb => by
    have hroom := h.room
    have h2 := (step_spec s l o h hb.1).2
    have h1 := step_len h h0 o hb.1
    obtain ⟨⟨k, hk⟩, -, -⟩ := h1
    have hge := Nat.le_mul_of_pos_right s.values.len (Nat.two_pow_pos k)
    have ih := history_len os h2 (by omega) hb.2
    have hpk := length_le_peak (VecSpec.step o l).2 os
    simp only [runM]
    have h1 := step_len h h0 o hb.1
    by_cases ho : ∃ n, o = .ensureSize n
    · obtain ⟨n, rfl⟩ := ho
      simp only [vectorPeak]
      have ha : asks (.ensureSize n) l = n.toNat := rfl
      have hl : (VecSpec.step (.ensureSize n) l).2 = l := rfl
      rw [ha] at h1
      rw [hl] at ih
      exact h1.trans h0 (by omega) (ih.raise h1.2.1)
    · have e : vectorPeak l (o :: os) = max l.length (vectorPeak (VecSpec.step o l).2 os) := by
        cases o <;> first | rfl | exact absurd ⟨_, rfl⟩ ho
      rw [e]
      have ha : asks o l ≤ (VecSpec.step o l).2.length := by
        cases o <;> simp_all [asks, VecSpec.step]
      exact (h1.trans h0 (by omega) ih).raise (by omega)

end Vec

namespace Heap
open HeapSpec
variable {K V : Type} [BEq K] [BEq V]

theorem live_le_peak (a : Abs K V) (ops : List (Op K V)) : a.live.length ≤ heapPeak a ops := by
  cases ops <;> simp only [heapPeak] <;> omega

omit [BEq K] [BEq V] in
theorem insert_cap {a : Abs K V} {k : K} (h0 : 1 ≤ a.cap) (hf : ((a.live.length + a.freed.length : Nat) : Int) ≤ a.cap)
    (hl : a.live.length + 1 ≤ 2 ^ 28) :
    1 ≤ (a.insert k).cap ∧ (((a.insert k).live.length + (a.insert k).freed.length : Nat) : Int) ≤ (a.insert k).cap ∧
      LeastDoubling a.cap.toNat (a.live.length + 1) (a.insert k).cap.toNat := by
  unfold Abs.insert Abs.newCap
  by_cases hc : a.Full
  · simp only [if_pos hc]
    obtain ⟨h1, h2⟩ := hc
    simp only [h1, List.length_nil, List.tail_nil, List.length_cons] at hf ⊢
    have e : (min (2 * a.cap) (2 ^ 29)).toNat = a.cap.toNat * 2 ^ 1 := by omega
    refine ⟨by omega, by omega, ?_⟩
    exact .of (k := 1) e (by omega) (.inr (by simp; omega))
  · simp only [if_neg hc, List.length_cons, List.length_tail]
    refine ⟨h0, ?_, .refl ?_⟩
    · by_cases hn : a.freed = []
      · have : ¬ a.cap ≤ a.live.length := fun hh => hc ⟨hn, hh⟩
        simp only [hn, List.length_nil] at hf ⊢
        omega
      · have : 0 < a.freed.length := by cases hx : a.freed with | nil => exact absurd hx hn | cons _ _ => simp
        omega
    · by_cases hn : a.freed = []
      · have : ¬ a.cap ≤ a.live.length := fun hh => hc ⟨hn, hh⟩
        omega
      · have : 0 < a.freed.length := by cases hx : a.freed with | nil => exact absurd hx hn | cons _ _ => simp
        omega

theorem step_cap {a : Abs K V} (h0 : 1 ≤ a.cap) (hf : ((a.live.length + a.freed.length : Nat) : Int) ≤ a.cap) (o : Op K V)
    (hl : (after o a).live.length ≤ 2 ^ 28) :
    1 ≤ (after o a).cap ∧ (((after o a).live.length + (after o a).freed.length : Nat) : Int) ≤ (after o a).cap ∧
      LeastDoubling a.cap.toNat (after o a).live.length (after o a).cap.toNat := by
  have same : ∀ b : Abs K V, b.cap = a.cap → b.live.length + b.freed.length ≤ a.live.length + a.freed.length →
      1 ≤ b.cap ∧ ((b.live.length + b.freed.length : Nat) : Int) ≤ b.cap ∧
      LeastDoubling a.cap.toNat b.live.length b.cap.toNat := by
    intro b h1 h2
    rw [h1]
    exact ⟨h0, by omega, .refl (by omega)⟩
  have ins : ∀ k, (a.insert k).live.length ≤ 2 ^ 28 →
      1 ≤ (a.insert k).cap ∧ (((a.insert k).live.length + (a.insert k).freed.length : Nat) : Int) ≤ (a.insert k).cap ∧
      LeastDoubling a.cap.toNat (a.insert k).live.length (a.insert k).cap.toNat := by
    intro k hk
    have e : (a.insert k).live.length = a.live.length + 1 := by simp [Abs.insert]
    have := insert_cap (k := k) h0 hf (by omega)
    rwa [← e] at this
  cases o with
  | insert k =>
    simp only [after] at hl ⊢
    split
    · exact same _ rfl (Nat.le_refl _)
    · rename_i h; rw [if_neg h] at hl; exact ins k hl
  | insertKV k v =>
    simp only [after] at hl ⊢
    split
    · exact same _ rfl (Nat.le_refl _)
    · rename_i h; rw [if_neg h] at hl; exact ins k hl
  | removeAt e =>
    simp only [after]
    split
    · rename_i h
      refine same _ rfl ?_
      simp only [List.length_cons, List.length_erase_of_mem h]
      have := List.length_pos_of_mem h
      omega
    · exact same _ rfl (Nat.le_refl _)
  | resetKey e k => simp only [after]; split <;> exact same _ rfl (Nat.le_refl _)
  | setComparator c => cases c <;> exact same _ rfl (Nat.le_refl _)
  | clear => exact same _ rfl (by simp [after])
  | setDefaultKey k => simp only [after]; split <;> exact same _ rfl (Nat.le_refl _)
  | setDefaultValue v => simp only [after]; split <;> exact same _ rfl (Nat.le_refl _)
  | setValueAt e v => simp only [after]; split <;> exact same _ rfl (Nat.le_refl _)
  | _ => exact same _ rfl (Nat.le_refl _)

theorem history_cap : ∀ (ops : List (Op K V)) {a : Abs K V}, 1 ≤ a.cap →
    ((a.live.length + a.freed.length : Nat) : Int) ≤ a.cap → heapPeak a ops ≤ 2 ^ 28 →
    LeastDoubling a.cap.toNat (heapPeak a ops) (ideal a ops).cap.toNat ∧ 1 ≤ (ideal a ops).cap
  | [], a, h0, hf, _ => ⟨.refl (by simp only [heapPeak]; omega), h0⟩
  | o :: os, a, h0, hf, hp => by
    simp only [heapPeak] at hp
    have hpk := live_le_peak (after o a) os
    obtain ⟨h1, h2, h3⟩ := step_cap h0 hf o (by omega)
    obtain ⟨ih, ih'⟩ := history_cap os h1 h2 (by omega)
    refine ⟨?_, ih'⟩
    simp only [heapPeak]
    exact (h3.trans (by omega) hpk ih).raise (by omega)

end Heap
end Verif

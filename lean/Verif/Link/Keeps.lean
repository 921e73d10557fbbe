import Verif.Link.Index1
/-! A bound on the bookkeeping fields that every call keeps, so that the `int` arithmetic of the
generated code does not wrap. -/
set_option linter.unusedSectionVars false
namespace Verif.Link

/-- `m` keeps `J`, whether it returns or throws. -/
def Keeps {σ α : Type} (J : σ → Prop) (m : JM σ α) : Prop := ∀ s, J s → J (m s).state

namespace Keeps
variable {σ α β : Type} {J : σ → Prop}

theorem bindR {m : JM σ α} {f : α → JM σ β} (h1 : Keeps J m)
    (h2 : ∀ a s t, J s → m s = .ok a t → Keeps J (f a)) : Keeps J (m >>= f) := by
  intro s hs
  have h := h1 s hs
  rw [JM.bind_apply]
  cases hm : m s with
  | ok a s' => rw [hm] at h; exact h2 a s s' hs hm s' h
  | err e s' => rw [hm] at h; exact h

theorem bind {m : JM σ α} {f : α → JM σ β} (h1 : Keeps J m) (h2 : ∀ a, Keeps J (f a)) :
    Keeps J (m >>= f) := bindR h1 fun a _ _ _ _ => h2 a
theorem pure (a : α) : Keeps J (Pure.pure a : JM σ α) := fun _ h => h
theorem throw (e : Err) : Keeps J (JM.throw e : JM σ α) := fun _ h => h
theorem get : Keeps J (MonadState.get : JM σ σ) := fun _ h => h
theorem modify {f : σ → σ} (h : ∀ s, J s → J (f s)) : Keeps J (_root_.modify f : JM σ PUnit) := h
theorem ite {c : Prop} [Decidable c] {m n : JM σ α} (h1 : Keeps J m) (h2 : Keeps J n) :
    Keeps J (if c then m else n) := by split <;> assumption
theorem when {c : Prop} [Decidable c] {m : JM σ Unit} (h : Keeps J m) : Keeps J (JM.when c m) :=
  ite h (pure ())
theorem rd {arr : σ → Arr α} (i : Int) : Keeps J (Verif.rd arr i) := by
  intro s h; simp only [Verif.rd]; split <;> exact h
theorem wr {arr : σ → Arr α} {put : σ → Arr α → σ}
    (hp : ∀ s x, J s → x.len = (arr s).len → J (put s x)) (i : Int) (v : α) : Keeps J (Verif.wr arr put i v) := by
  intro s h; simp only [Verif.wr]; split
  · exact hp _ _ h (by simp)
  · exact h
theorem rdA (x : Arr α) (i : Int) : Keeps J (Verif.rdA x i) := by
  intro s h; simp only [Verif.rdA]; split <;> exact h
theorem ofLocal {m : JM σ α} (hm : ∃ r, ∀ s, m s = ofExcept r s) : Keeps J m := by
  obtain ⟨r, hr⟩ := hm
  intro s h
  rw [hr]
  cases r <;> exact h
/-- a computation that leaves the state alone -/
theorem same {m : JM σ α} (hm : ∀ s, (m s).state = s) : Keeps J m := by
  intro s h; rw [hm]; exact h
end Keeps

namespace Map
open Verif Verif.Gen Index
variable {K V : Type} [Inhabited K] [Inhabited V]

/-- the sizes of the arrays of an index, and its size `n` -/
structure Bd (n : Int) (s : Index K V) : Prop where
  size : s.size = n
  cap : 1 ≤ s.capacity ∧ s.capacity ≤ 2 ^ 29
  heads : 1 ≤ s.heads.len ∧ s.heads.len ≤ 2 ^ 29
  max : s.maxHead < 2 ^ 29

theorem calc_keeps (n : Int) : Keeps (Bd (K := K) (V := V) n) calcNewCapacity := by
  intro s hs
  unfold calcNewCapacity
  rw [JM.bind_ok (JM.get_apply _)]
  have hc := hs.cap
  have e2 : shl32 s.capacity 1 = 2 * s.capacity := by
    rw [shl32_one']; exact i32_of_range (by omega)
  unfold calculateNewCapacity
  by_cases h1 : s.capacity = MAX_CAPACITY
  · by_cases h2 : s.capThreshold = MAX_CAPACITY
    · rw [JM.bind_err (e := .resize) (s' := s) (by simp [h1, h2])]; exact hs
    · rw [JM.bind_ok (a := s.capacity) (s' := s) (by simp [h1, h2])]
      rw [if_pos rfl]
      exact ⟨hs.size, hs.cap, hs.heads, hs.max⟩
  · by_cases h2 : shl32 s.capacity 1 ≤ s.capacity
    · rw [JM.bind_err (e := .resize) (s' := s) (by simp [h1, h2])]; exact hs
    · rw [JM.bind_ok (a := min (shl32 s.capacity 1) MAX_CAPACITY) (s' := s) (by simp [h1, h2])]
      rw [e2]
      have : MAX_CAPACITY = 2 ^ 29 := by decide
      split
      · exact ⟨hs.size, hs.cap, hs.heads, hs.max⟩
      · refine ⟨hs.size, ?_, hs.heads, hs.max⟩
        show 1 ≤ min (2 * s.capacity) MAX_CAPACITY ∧ min (2 * s.capacity) MAX_CAPACITY ≤ 2 ^ 29
        omega

theorem bump_keeps (n : Int) : Keeps (Bd (K := K) (V := V) n) bumpMod :=
  .modify fun _ h => ⟨h.size, h.cap, h.heads, h.max⟩
theorem wrHeads_keeps (n i v : Int) : Keeps (Bd (K := K) (V := V) n) (wrHeads i v) :=
  .wr (fun s x h hl => ⟨h.size, h.cap, by
    have := h.heads
    show 1 ≤ x.len ∧ x.len ≤ 2 ^ 29
    omega, h.max⟩) _ _
theorem wrNexts_keeps (n i v : Int) : Keeps (Bd (K := K) (V := V) n) (wrNexts i v) :=
  .wr (fun _ _ h _ => ⟨h.size, h.cap, h.heads, h.max⟩) _ _
theorem wrKeys_keeps (n i : Int) (v : K) : Keeps (Bd (K := K) (V := V) n) (wrKeys i v) :=
  .wr (fun _ _ h _ => ⟨h.size, h.cap, h.heads, h.max⟩) _ _
theorem wrValues_keeps (n i : Int) (v : V) : Keeps (Bd (K := K) (V := V) n) (wrValues i v) :=
  .wr (fun _ _ h _ => ⟨h.size, h.cap, h.heads, h.max⟩) _ _

theorem register_keeps (n h e : Int) : Keeps (Bd (K := K) (V := V) n) (registerNewEntryForHead h e) :=
  .bind (.rd _) fun _ => .ite (.bind (wrNexts_keeps _ _ _) fun _ => wrHeads_keeps _ _ _)
    (.bind (wrNexts_keeps _ _ _) fun _ => wrHeads_keeps _ _ _)

theorem updateMaxHead_keeps (n : Int) {h : Int} (hh : h < 2 ^ 29) :
    Keeps (Bd (K := K) (V := V) n) (updateMaxHead h) :=
  .modify fun s hs => ⟨hs.size, hs.cap, hs.heads, by
    have := hs.max
    show (if h > s.maxHead then h else s.maxHead) < 2 ^ 29
    split <;> omega⟩

theorem computeHead_lt {n : Int} {s t : Index K V} {k : K} {h : Int} (hs : Bd n s)
    (he : computeHead k s = .ok h t) : h < 2 ^ 29 := by
  unfold computeHead at he
  rw [JM.bind_ok (JM.get_apply _)] at he
  injection he with h1 _
  have := headOf_range s.hashFunc hs.heads.1 hs.heads.2 k
  have := hs.heads
  omega

theorem rehashChain_keeps (n : Int) (N : Arr Int) (KS : Arr K) : ∀ (f : Nat) (e : Int),
    Keeps (Bd (K := K) (V := V) n) (rehashChain N KS f e)
  | 0, _ => .throw _
  | f + 1, e => by
    unfold rehashChain
    exact .ite (.bind (.rdA _ _) fun k => .bindR (.same fun _ => rfl) fun h s t hs he =>
      .bind (register_keeps _ _ _) fun _ => .bind (updateMaxHead_keeps _ (computeHead_lt hs he)) fun _ =>
      .bind (.rdA _ _) fun _ => rehashChain_keeps n N KS f _) (.pure _)

theorem rehashHeads_keeps (n : Int) (H N : Arr Int) (KS : Arr K) : ∀ (f : Nat) (e : Int),
    Keeps (Bd (K := K) (V := V) n) (rehashHeads H N KS f e)
  | 0, _ => .pure _
  | f + 1, e => .bind (.rdA _ _) fun _ => .bind (rehashChain_keeps n N KS _ _) fun _ =>
      rehashHeads_keeps n H N KS f _

theorem rehash_keeps (n : Int) : Keeps (Bd (K := K) (V := V) n) rehash := by
  unfold rehash
  refine .bind .get fun old => .bind (calc_keeps n) fun _ => .bindR .get fun s s' t hs hst => ?_
  injection hst with h1 h2
  subst h1
  by_cases hc : 0 ≤ s'.capacity
  · refine .bindR (.ofLocal (newArr_local _ _ _)) fun h u u' _ hu => ?_
    have hu' := newArr_ok (s := u) (-1 : Int) hc
    have hu2 := hu.symm.trans hu'
    injection hu2 with hu1 _
    refine .bind (.modify fun x hx => ⟨hx.size, hx.cap, ?_, hx.max⟩) fun _ => ?_
    · have := hs.cap
      show 1 ≤ h.len ∧ h.len ≤ 2 ^ 29
      rw [hu1]; simp only [Arr.len_create]; omega
    · refine .bind (.ofLocal (newArr_local _ _ _)) fun _ => .bind (.modify fun x hx => ⟨hx.size, hx.cap, hx.heads, hx.max⟩) fun _ => ?_
      refine .bind (.ofLocal ?_) fun _ => .bind (.modify fun x hx => ⟨hx.size, hx.cap, hx.heads, hx.max⟩) fun _ => ?_
      · obtain ⟨r, hr, _⟩ := ensureSize_local (Index K V) s'.keys s'.capacity default; exact ⟨r, hr⟩
      refine .bind (.ofLocal ?_) fun _ => .bind (.modify fun x hx => ⟨hx.size, hx.cap, hx.heads, hx.max⟩) fun _ => ?_
      · obtain ⟨r, hr, _⟩ := ensureSize_local (Index K V) s'.values s'.capacity default; exact ⟨r, hr⟩
      exact .bind (.modify fun x hx => ⟨hx.size, hx.cap, hx.heads, (by decide : (0 : Int) < 2 ^ 29)⟩) fun _ =>
        .bind (rehashHeads_keeps _ _ _ _ _ _) fun _ => bump_keeps n
  · have := hs.cap; omega

theorem allocate_keeps (n : Int) : Keeps (Bd (K := K) (V := V) n) allocateNewEntry :=
  .bind .get fun _ => .ite
    (.bind (.rd _) fun _ => .bind (.modify fun _ h => ⟨h.size, h.cap, h.heads, h.max⟩) fun _ => .pure _)
    (.bind (.modify fun _ h => ⟨h.size, h.cap, h.heads, h.max⟩) fun _ => .pure _)

end Map
end Verif.Link

import Verif.Link.HeapProps
import Verif.Gen.KeyValueHeapEff
import Verif.Props.HeapEff
/-! `KeyValueHeap.ftl` with comparators that have effects: the generated code agrees with Model/HeapEff.lean, method
by method. -/
set_option linter.unusedSectionVars false
namespace Verif.Link.HeapEffL
open Verif Verif.Gen Heap HeapSpec HeapProof Verif.Link Verif.Link.HeapL
open Verif.HeapEff (lift cmpE Effect)
variable {σ K V α β γ δ : Type} [BEq K] [BEq V]
variable {eff : Effect σ K} {u : σ}

theorem lift_apply (m : JM (Heap K V) α) (s : Heap K V) (u : σ) : lift m (⟨s, u⟩ : Obs σ K V) =
    (match m s with | .ok a h => .ok a ⟨h, u⟩ | .err e h => .err e ⟨h, u⟩) := rfl

theorem lift_ok {m : JM (Heap K V) α} {s t : Heap K V} {a : α} (h : m s = .ok a t) (u : σ) :
    lift m (⟨s, u⟩ : Obs σ K V) = .ok a ⟨t, u⟩ := by rw [lift_apply, h]

theorem lift_inv {m : JM (Heap K V) α} {s : Heap K V} {t : Obs σ K V} {a : α}
    (h : lift m (⟨s, u⟩ : Obs σ K V) = .ok a t) : ∃ s', m s = .ok a s' ∧ t = ⟨s', u⟩ := by
  rw [lift_apply] at h
  cases hm : m s with
  | ok b s' => rw [hm] at h; injection h with h1 h2; subst h1; exact ⟨s', rfl, h2.symm⟩
  | err e s' => rw [hm] at h; cases h

theorem lift_bind (m : JM (Heap K V) α) (f : α → JM (Heap K V) β) :
    (lift (m >>= f) : JM (Obs σ K V) β) = lift m >>= fun a => lift (f a) := by
  apply JM_ext; rintro ⟨s, u⟩
  rw [lift_apply, JM.bind_apply, JM.bind_apply, lift_apply]
  cases m s <;> rfl

theorem lift_sim {R : α → β → Prop} {m : JM (Heap K V) α} {g : JM (Heap K V) β} {s : Heap K V} (h : Sim R m g s) :
    Sim R (lift m : JM (Obs σ K V) α) (lift g) ⟨s, u⟩ := by
  unfold Sim at h ⊢
  rw [lift_apply, lift_apply]
  cases hm : m s with
  | ok a t =>
    rw [hm] at h
    obtain ⟨b, hb, hr⟩ := h
    rw [hb]
    exact ⟨b, rfl, hr⟩
  | err e t =>
    rw [hm] at h
    rcases h with h | h
    · exact .inl h
    · rw [h]; exact .inr rfl

/-- the same first step, which does not call the comparator -/
theorem lstep {Q : γ → δ → Prop} {m : JM (Heap K V) α} {f : α → JM (Obs σ K V) γ} {h : α → JM (Obs σ K V) δ}
    {s : Heap K V} (h2 : ∀ a t, m s = .ok a t → Sim Q (f a) (h a) ⟨t, u⟩) :
    Sim Q (lift m >>= f) (lift m >>= h) ⟨s, u⟩ := by
  refine .step fun a t ht => ?_
  obtain ⟨s', hs, rfl⟩ := lift_inv ht
  exact h2 a s' hs

/-- the same first step, which leaves the heap alone -/
theorem lstepS {Q : γ → δ → Prop} {m : JM (Heap K V) α} {f : α → JM (Obs σ K V) γ} {h : α → JM (Obs σ K V) δ}
    {s : Heap K V} (hm : (m s).state = s) (h2 : ∀ a, m s = .ok a s → Sim Q (f a) (h a) ⟨s, u⟩) :
    Sim Q (lift m >>= f) (lift m >>= h) ⟨s, u⟩ := by
  refine lstep fun a t ht => ?_
  rw [ht] at hm
  obtain rfl : t = s := hm
  exact h2 a ht

/-- the same call of the comparator -/
theorem ask {Q : γ → δ → Prop} {x y : K} {f : Int → JM (Obs σ K V) γ} {h : Int → JM (Obs σ K V) δ} {s : Heap K V}
    (h2 : ∀ r u', Sim Q (f r) (h r) ⟨s, u'⟩) : Sim Q (cmpE eff x y >>= f) (cmpE eff x y >>= h) ⟨s, u⟩ := by
  refine .step fun r t ht => ?_
  have := HeapEff.Keeps.cmp (V := V) (g := id) eff x y ⟨s, u⟩
  rw [ht] at this
  obtain ⟨t1, t2⟩ := t
  obtain rfl : t1 = s := this
  exact h2 r t2

theorem lmodify {Q : γ → δ → Prop} {v w : Heap K V → Heap K V} {f : Unit → JM (Obs σ K V) γ}
    {h : Unit → JM (Obs σ K V) δ} {s : Heap K V} (huv : w s = v s) (h2 : Sim Q (f ()) (h ()) ⟨v s, u⟩) :
    Sim Q (lift (modify v) >>= f) (lift (modify w) >>= h) ⟨s, u⟩ := by
  unfold Sim at h2 ⊢
  rw [JM.bind_ok (lift_ok (JM.modify_apply v s) u), JM.bind_ok (lift_ok (JM.modify_apply w s) u), huv]
  exact h2

theorem filterUpLoop_sim (key : K) : ∀ (n fuel : Nat) (child : Int) (s : Heap K V) (u : σ), n < fuel → 0 ≤ child →
    child < 2 ^ 31 →
    Sim Eq (HeapEff.filterUpLoop eff key n child) (KeyValueHeapEff.filterUp_loop1 eff key fuel child) ⟨s, u⟩
  | _, 0, _, _, _, h, _, _ => absurd h (by omega)
  | 0, f + 1, child, s, u, _, _, _ => by
    unfold HeapEff.filterUpLoop KeyValueHeapEff.filterUp_loop1
    by_cases hc : child = 0
    · rw [if_pos hc, if_neg (by simpa using hc)]; exact .rfl
    · rw [if_neg hc]; exact .diverge
  | n + 1, f + 1, child, s, u, h, h0, h1 => by
    unfold HeapEff.filterUpLoop KeyValueHeapEff.filterUp_loop1
    by_cases hc : child = 0
    · rw [if_pos hc, if_neg (by simpa using hc)]; exact .rfl
    · rw [if_neg hc, if_pos (by simpa using hc)]
      dsimp only
      rw [half (by omega)]
      refine lstepS (rd_state _ _ _) fun pe _ => ?_
      refine lstepS (rd_state _ _ _) fun pk _ => ?_
      refine ask fun r u => ?_
      refine .ite (by simp) (fun _ => .rfl) fun _ => ?_
      refine lstepS (rd_state _ _ _) fun pe' _ => ?_
      refine lstep fun _ t _ => ?_
      refine lstepS (rd_state _ _ _) fun ce _ => ?_
      refine lstep fun _ t' _ => ?_
      exact filterUpLoop_sim key n f _ t' u (by omega) (by omega) (by omega)

theorem filterUp_sim (fuel : Nat) (hf : 2 ^ 31 ≤ fuel) {child : Int} (hc : child < 2 ^ 31) (key : K) (entry : Int)
    (s : Heap K V) (u : σ) :
    Sim Eq (HeapEff.filterUp eff child key entry) (KeyValueHeapEff.filterUp eff fuel child key entry) ⟨s, u⟩ := by
  unfold HeapEff.filterUp KeyValueHeapEff.filterUp
  by_cases h0 : 0 ≤ child
  · exact .bind_eq (filterUpLoop_sim key _ _ _ _ _ (by omega) h0 hc) fun _ t _ => .rfl
  · rw [show child.toNat = 0 by omega]
    unfold HeapEff.filterUpLoop
    rw [if_neg (by omega)]
    exact .inl rfl

theorem filterDownLoop_sim (key : K) : ∀ (n fuel : Nat) (parent c0 : Int) (s : Heap K V) (u : σ), n ≤ fuel →
    s.size < 2 ^ 31 - 1 →
    Sim (fun p q => p = q.1) (HeapEff.filterDownLoop eff key n parent)
      (KeyValueHeapEff.filterDown_loop1 eff key fuel parent c0) ⟨s, u⟩
  | 0, _, _, _, _, _, _, _ => .diverge
  | n + 1, 0, _, _, _, _, h, _ => absurd h (by omega)
  | n + 1, f + 1, parent, c0, s, u, h, hs => by
    unfold HeapEff.filterDownLoop KeyValueHeapEff.filterDown_loop1
    refine .left rfl (.right rfl ?_)
    dsimp only
    have hr := i32_range (shl32 parent 1 + 1)
    generalize i32 (shl32 parent 1 + 1) = child at hr
    refine .ite (by simp) (fun hc => ?_) fun _ => .pure rfl
    rw [i32_of_range (x := child + 1) (by omega)]
    refine lstepS (rd_state _ _ _) fun le _ => ?_
    refine lstepS (rd_state _ _ _) fun lk _ => ?_
    refine Sim.bind_eq ?_ ?_
    · refine .ite (by simp) (fun _ => ?_) fun _ => .rfl
      refine lstepS (rd_state _ _ _) fun re _ => ?_
      refine lstepS (rd_state _ _ _) fun rk _ => ?_
      refine ask fun r u => ?_
      by_cases hcmp : r > 0
      · rw [if_pos hcmp, if_pos (by simpa using hcmp)]; exact .rfl
      · rw [if_neg hcmp, if_neg (by simpa using hcmp)]; exact .rfl
    · rintro ⟨c, ck⟩ t ht
      have hk : HeapEff.Keeps id (if child + 1 < s.size then (do
            let re ← lift (rd Heap.tree (child + 1))
            let rightKey ← lift (rd Heap.keys re)
            let r ← cmpE eff lk rightKey
            if r > 0 then pure (child + 1, rightKey) else pure (child, lk) : JM (Obs σ K V) (Int × K))
          else pure (child, lk)) := by
        split
        · refine .bind (.rd _ _) fun _ => .bind (.rd _ _) fun _ => .bind (.cmp _ _ _) fun r => ?_
          split <;> exact .pure _
        · exact .pure _
      have := hk ⟨s, u⟩
      rw [ht] at this
      obtain ⟨t, u'⟩ := t
      obtain rfl : t = s := this
      refine ask fun r u => ?_
      refine .ite (by simp) (fun _ => .pure rfl) fun _ => ?_
      refine lstepS (rd_state _ _ _) fun ce _ => ?_
      refine lstep fun _ t1 h1 => ?_
      refine lstepS (rd_state _ _ _) fun pe _ => ?_
      refine lstep fun _ t2 h2 => ?_
      exact filterDownLoop_sim key n f _ _ t2 u (by omega)
        (by rw [wr_size (put := fun (t : Heap K V) a => { t with inverse := a }) (fun _ _ => rfl) h2,
              wr_size (put := fun (t : Heap K V) a => { t with tree := a }) (fun _ _ => rfl) h1]; exact hs)

theorem filterDown_sim (fuel : Nat) (hf : 2 ^ 31 ≤ fuel) (parent : Int) (key : K) (entry : Int)
    (s : Heap K V) (u : σ) (hs : s.size < 2 ^ 31 - 1) :
    Sim Eq (HeapEff.filterDown eff parent key entry) (KeyValueHeapEff.filterDown eff fuel parent key entry) ⟨s, u⟩ := by
  unfold HeapEff.filterDown KeyValueHeapEff.filterDown
  refine .left rfl ?_
  refine .bind (filterDownLoop_sim key _ _ _ _ _ _ (by dsimp only; omega) hs) fun a b t _ hr => ?_
  obtain ⟨b1, b2⟩ := b
  obtain rfl : a = b1 := hr
  exact .step fun _ t _ => .unit_right .rfl

theorem filterUp_size {c : Int} {key : K} {e r : Int} {s : Heap K V} {t : Obs σ K V}
    (h : HeapEff.filterUp eff c key e ⟨s, u⟩ = .ok r t) : t.heap.size = s.size := by
  have := HeapEff.filterUp_keeps eff key c e ⟨s, u⟩
  rwa [h] at this

theorem insert_sim (fuel : Nat) (hfu : 2 ^ 31 ≤ fuel) (key : K) (s : Heap K V) (u : σ)
    (hs : 0 ≤ s.size ∧ s.size < 2 ^ 31 - 1) (hf : s.freeCount < 2 ^ 31) :
    Sim Eq (HeapEff.insert eff key) (KeyValueHeapEff.insert1 eff fuel key) ⟨s, u⟩ := by
  unfold HeapEff.insert KeyValueHeapEff.insert1
  refine .left rfl (.right rfl ?_)
  refine Sim.bind_eq (lift_sim (allocate_sim key s hs hf)) fun e t _ => ?_
  obtain ⟨t, u⟩ := t
  exact Sim.bind_eq (filterUp_sim fuel hfu (by dsimp only; omega) key e t u) fun _ _ _ => .rfl

theorem insertKV_sim (fuel : Nat) (hfu : 2 ^ 31 ≤ fuel) (key : K) (v : V) (s : Heap K V) (u : σ)
    (hs : 0 ≤ s.size ∧ s.size < 2 ^ 31 - 1) (hf : s.freeCount < 2 ^ 31) :
    Sim Eq (HeapEff.insertKV eff key v) (KeyValueHeapEff.insert2 eff fuel key v) ⟨s, u⟩ := by
  unfold HeapEff.insertKV KeyValueHeapEff.insert2
  exact Sim.bind_eq (insert_sim fuel hfu key s u hs hf) fun _ _ _ => .rfl

/-- `if (c) throw e;` -/
theorem lguard {R : α → β → Prop} {c d : Prop} [Decidable c] [Decidable d] {e : Err} {m : JM (Obs σ K V) α}
    {g : Unit → JM (Obs σ K V) β} {s : Obs σ K V} (hcd : c ↔ d) (h : ¬ c → Sim R m (g ()) s) :
    Sim R (if c then JM.throw e else m) (lift (if d then JM.throw e else pure ()) >>= g) s := by
  by_cases hc : c
  · rw [if_pos hc, if_pos (hcd.1 hc)]; exact .inr rfl
  · rw [if_neg hc, if_neg (fun h => hc (hcd.2 h))]; exact .right rfl (h hc)

theorem removeAt_sim (fuel : Nat) (hfu : 2 ^ 31 ≤ fuel) (e : Int) (s : Heap K V) (u : σ)
    (hs : 0 ≤ s.size ∧ s.size < 2 ^ 31 - 1) (hf : 0 ≤ s.freeCount ∧ s.freeCount < 2 ^ 31 - 1)
    (hl : s.inverse.len < 2 ^ 31) :
    Sim Eq (HeapEff.removeAt eff e) (KeyValueHeapEff.removeAt eff fuel e) ⟨s, u⟩ := by
  unfold HeapEff.removeAt KeyValueHeapEff.removeAt Gen.RangeCheckException.assertWithinRange
  refine .left rfl (.right rfl ?_)
  dsimp only
  rw [i32_of_range (x := (s.inverse.len : Int) - 1) (by omega)]
  simp only [bind_unit, clearValueAt_eq]
  refine lguard (by simp) fun _ => ?_
  refine lstepS (rd_state _ _ _) fun node _ => ?_
  refine .right rfl ?_
  refine guard (by simp) fun hn => ?_
  refine .right rfl ?_
  refine lstep fun _ t1 h1 => ?_
  have e1 := HeapL.wr_ok h1
  refine lstep fun _ t2 h2 => ?_
  have e2 := HeapL.wr_ok (arr := Heap.values) (put := fun (t : Heap K V) a => { t with values := a }) (v := t1.defaultValue) h2
  have z2 : t2.size = s.size := by rw [e2, e1]
  have f2 : t2.freeCount = s.freeCount := by rw [e2, e1]
  refine .right rfl ?_
  dsimp only
  rw [z2, i32_of_range (by omega)]
  refine lmodify (by rw [z2]) ?_
  refine .right rfl ?_
  dsimp only
  rw [z2]
  refine lstepS (rd_state _ _ _) fun le _ => ?_
  refine lstepS (rd_state _ _ _) fun lk _ => ?_
  rw [f2, i32_of_range (by omega)]
  refine lmodify rfl ?_
  refine .right rfl ?_
  dsimp only
  refine lstep fun _ t3 h3 => ?_
  have e3 := HeapL.wr_ok h3
  have z3 : t3.size = s.size - 1 := by rw [e3]
  refine .right rfl ?_
  dsimp only
  rw [z3]
  refine lstep fun _ t4 h4 => ?_
  have e4 := HeapL.wr_ok h4
  have z4 : t4.size = s.size - 1 := by rw [e4]; exact z3
  refine .right rfl ?_
  dsimp only
  rw [z4]
  refine .ite (by simp) (fun _ => .rfl) fun _ => ?_
  refine Sim.bind_eq (filterUp_sim fuel hfu (by omega) lk le t4 u) fun at' t5 h5 => ?_
  have := filterUp_size h5
  obtain ⟨t5, u5⟩ := t5
  dsimp only at this
  exact filterDown_sim fuel hfu _ _ _ _ _ (by omega)

theorem resetKey_sim (fuel : Nat) (hfu : 2 ^ 31 ≤ fuel) (e : Int) (k : K) (s : Heap K V) (u : σ)
    (hs : s.size < 2 ^ 31 - 1) (hn : s.inverse.get e < 2 ^ 31) :
    Sim Eq (HeapEff.resetKey eff e k) (KeyValueHeapEff.resetKey eff fuel e k) ⟨s, u⟩ := by
  unfold HeapEff.resetKey KeyValueHeapEff.resetKey
  simp only [bind_unit]
  refine lstep fun _ t1 h1 => ?_
  have e1 := HeapL.wr_ok h1
  refine lstepS (rd_state _ _ _) fun node hnode => ?_
  have : node < 2 ^ 31 := by
    simp only [rd] at hnode
    split at hnode
    · injection hnode with hnode _
      rw [← hnode, e1]; exact hn
    · cases hnode
  refine Sim.bind_eq (filterUp_sim fuel hfu this k e t1 u) fun at' t5 h5 => ?_
  have := filterUp_size h5
  obtain ⟨t5, u5⟩ := t5
  dsimp only at this
  refine filterDown_sim fuel hfu _ _ _ _ _ ?_
  rw [this, e1]; exact hs

theorem rebuildLoop_sim (fuel : Nat) (hfu : 2 ^ 31 ≤ fuel) : ∀ (n f : Nat) (i : Int) (s : Heap K V) (u : σ), n < f →
    0 ≤ i → n = (s.size - i).toNat → s.size < 2 ^ 31 - 1 →
    Sim Eq (HeapEff.rebuildLoop eff n i) (KeyValueHeapEff.setComparator_loop1 eff fuel f i) ⟨s, u⟩
  | _, 0, _, _, _, h, _, _, _ => absurd h (by omega)
  | 0, f + 1, i, s, u, _, h0, hn, hs => by
    unfold HeapEff.rebuildLoop KeyValueHeapEff.setComparator_loop1
    refine .right rfl ?_
    dsimp only
    rw [if_neg (by simp; omega)]
    exact .rfl
  | n + 1, f + 1, i, s, u, hf, h0, hn, hs => by
    unfold HeapEff.rebuildLoop KeyValueHeapEff.setComparator_loop1
    refine .right rfl ?_
    dsimp only
    rw [if_pos (by simp; omega)]
    refine lstepS (rd_state _ _ _) fun e _ => ?_
    refine lstepS (rd_state _ _ _) fun k _ => ?_
    refine Sim.bind_eq (filterUp_sim fuel hfu (by omega) k e s u) fun r t ht => ?_
    have := filterUp_size ht
    obtain ⟨t, u'⟩ := t
    dsimp only at this ⊢
    rw [i32_of_range (by omega)]
    exact rebuildLoop_sim fuel hfu n f _ t u' (by omega) (by omega) (by omega) (by omega)

theorem setComparator_sim (fuel : Nat) (hfu : 2 ^ 31 ≤ fuel) (c : Option (Comparator K)) (s : Heap K V) (u : σ)
    (hs : s.size < 2 ^ 31 - 1) :
    Sim Eq (HeapEff.setComparator eff c) (KeyValueHeapEff.setComparator eff fuel c) ⟨s, u⟩ := by
  unfold KeyValueHeapEff.setComparator
  cases c with
  | none => exact .inr rfl
  | some c =>
    unfold HeapEff.setComparator
    refine .right rfl ?_
    refine .left rfl (.right rfl ?_)
    refine .ite (by simp) (fun _ => .rfl) fun _ => ?_
    simp only [bind_unit]
    refine lmodify rfl ?_
    refine Sim.bind_eq (rebuildLoop_sim fuel hfu _ _ _ _ _ (by omega) (by omega) (by simp) hs) fun _ t _ => ?_
    exact .right rfl (.of_eq rfl)

theorem firstLoop_sim (key : K) : ∀ (n f : Nat) (i : Int) (s : Heap K V) (u : σ), n < f → 0 ≤ i →
    n = (s.size - i).toNat → s.size < 2 ^ 31 - 1 →
    Sim (fun e r => (match r with | .ret v => v | .next _ => -1) = e) (HeapEff.firstLoop eff key n i)
      (KeyValueHeapEff.getFirstEntry_loop1 eff key f i) ⟨s, u⟩
  | _, 0, _, _, _, h, _, _, _ => absurd h (by omega)
  | 0, f + 1, i, s, u, _, h0, hn, hs => by
    unfold HeapEff.firstLoop KeyValueHeapEff.getFirstEntry_loop1
    refine .right rfl ?_
    dsimp only
    rw [if_neg (by simp; omega)]
    exact .pure rfl
  | n + 1, f + 1, i, s, u, hf, h0, hn, hs => by
    unfold HeapEff.firstLoop KeyValueHeapEff.getFirstEntry_loop1
    refine .right rfl ?_
    dsimp only
    rw [if_pos (by simp; omega)]
    refine lstepS (rd_state _ _ _) fun e _ => ?_
    refine lstepS (rd_state _ _ _) fun k _ => ?_
    refine ask fun r u => ?_
    refine .ite (by simp) (fun _ => .pure rfl) fun _ => ?_
    rw [i32_of_range (by omega)]
    exact firstLoop_sim key n f _ s u (by omega) (by omega) (by omega) hs

theorem first_sim (fuel : Nat) (hfu : 2 ^ 31 ≤ fuel) (key : K) (s : Heap K V) (u : σ) (hs : s.size < 2 ^ 31 - 1) :
    Sim Eq (HeapEff.getFirstEntry eff key) (KeyValueHeapEff.getFirstEntry eff fuel key) ⟨s, u⟩ := by
  unfold HeapEff.getFirstEntry KeyValueHeapEff.getFirstEntry
  refine .left rfl ?_
  refine Sim.tailR (firstLoop_sim key s.size.toNat fuel 0 s u (by omega) (by omega) (by simp) hs) fun a b t _ hr => ?_
  cases b with
  | ret v => exact .pure hr.symm
  | next _ => exact .pure hr.symm

/-- One public call of the generated class, with a comparator that has effects. -/
def step (eff : Effect σ K) (fuel : Nat) : Op K V → JM (Obs σ K V) (Out K V)
  | .insert k => do return .int (← KeyValueHeapEff.insert1 eff fuel k)
  | .insertKV k v => do return .int (← KeyValueHeapEff.insert2 eff fuel k v)
  | .removeAt e => do KeyValueHeapEff.removeAt eff fuel e; pure .unit
  | .resetKey e k => do KeyValueHeapEff.resetKey eff fuel e k; pure .unit
  | .setComparator c => do KeyValueHeapEff.setComparator eff fuel c; pure .unit
  | .containsKey k => do return .bool (← KeyValueHeapEff.containsKey eff fuel k)
  | .getFirstEntry k => do return .int (← KeyValueHeapEff.getFirstEntry eff fuel k)
  | o => lift (HeapL.step fuel o)

theorem step_sim (fuel : Nat) (hfu : 2 ^ 31 ≤ fuel) {s : Heap K V} {a : Abs K V} (h : Inv s a) (hb : Fits a)
    (o : Op K V) (hg : Guard o a) (u : σ) : Sim Eq (HeapEff.step eff o) (step eff fuel o) ⟨s, u⟩ := by
  have h1 := h.sz; have h2 := h.fc; have h3 := h.big; have h4 := h.cap; have h5 := h.good.il
  have hp := fun o hg => lift_sim (u := u) (HeapL.step_sim fuel hfu h hb o hg)
  unfold used at h3
  have hb' := hb
  unfold Fits at hb
  have hs : 0 ≤ s.size ∧ s.size < 2 ^ 31 - 1 := by omega
  have hf : 0 ≤ s.freeCount ∧ s.freeCount < 2 ^ 31 - 1 := by omega
  cases o with
  | insert k => exact Sim.bind_eq (insert_sim fuel hfu k s u hs (by omega)) fun _ _ _ => .rfl
  | insertKV k v => exact Sim.bind_eq (insertKV_sim fuel hfu k v s u hs (by omega)) fun _ _ _ => .rfl
  | removeAt e => exact Sim.bind_eq (removeAt_sim fuel hfu e s u hs hf (by omega)) fun _ _ _ => .rfl
  | resetKey e k =>
    by_cases he : e ∈ a.live
    · exact Sim.bind_eq (resetKey_sim fuel hfu e k s u hs.2 (by have := (h.inv_live he); omega)) fun _ _ _ => .rfl
    · have hout : ¬ (0 ≤ e ∧ e < s.keys.len) := by
        have := h.good.kl
        rcases hg with hg | hg | hg
        · exact absurd hg he
        · omega
        · omega
      refine Sim.bind_eq ?_ fun _ _ _ => .rfl
      unfold HeapEff.resetKey KeyValueHeapEff.resetKey
      refine lstep fun _ t ht => ?_
      rw [show wrKeys e k s = .err .indexOutOfBounds s from wr_oob _ _ hout] at ht
      cases ht
  | setComparator c => exact Sim.bind_eq (setComparator_sim fuel hfu c s u hs.2) fun _ _ _ => .rfl
  | containsKey k =>
    refine Sim.bind_eq ?_ fun _ _ _ => .rfl
    exact Sim.bind_eq (first_sim fuel hfu k s u hs.2) fun _ _ _ => .rfl
  | getFirstEntry k => exact Sim.bind_eq (first_sim fuel hfu k s u hs.2) fun _ _ _ => .rfl
  | _ => exact hp _ hg

end Verif.Link.HeapEffL

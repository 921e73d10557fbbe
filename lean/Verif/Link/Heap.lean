import Verif.Link.Keeps
import Verif.Gen.KeyValueHeap
import Verif.Props.Heap
/-! `KeyValueHeap.ftl`, `BaseKeyHeap.ftl`, `BaseHeap.java`: the generated class agrees with the model. -/
set_option linter.unusedSectionVars false
namespace Verif.Link.HeapL
open Verif Verif.Gen Heap HeapSpec HeapProof
variable {K V : Type} [BEq K] [BEq V]

/-- `if (c) throw e;` -/
theorem guard {σ α β : Type} {R : α → β → Prop} {c d : Prop} [Decidable c] [Decidable d] {e : Err}
    {m : JM σ α} {g : Unit → JM σ β} {s : σ} (hcd : c ↔ d) (h : ¬ c → Sim R m (g ()) s) :
    Sim R (if c then JM.throw e else m) ((if d then JM.throw e else pure ()) >>= g) s := by
  by_cases hc : c
  · rw [if_pos hc, if_pos (hcd.1 hc)]; exact .inr rfl
  · rw [if_neg hc, if_neg (fun h => hc (hcd.2 h))]; exact .right rfl (h hc)

theorem rd_state {σ α : Type} (arr : σ → Arr α) (i : Int) (s : σ) : (rd arr i s).state = s := by
  simp only [rd]; split <;> rfl

theorem half {c : Int} (h : 1 ≤ c ∧ c < 2 ^ 31) : shr32 (i32 (c - 1)) 1 = (c - 1) / 2 := by
  rw [i32_of_range (by omega)]
  unfold shr32
  rfl

theorem wr_size {α : Type} {arr : Heap K V → Arr α} {put : Heap K V → Arr α → Heap K V} {i : Int} {v : α}
    {s t : Heap K V} {u : Unit} (hp : ∀ s a, (put s a).size = s.size) (h : wr arr put i v s = .ok u t) :
    t.size = s.size := by
  simp only [wr] at h
  split at h
  · injection h with _ h; rw [← h]; exact hp _ _
  · cases h

theorem filterUpLoop_sim (key : K) : ∀ (n fuel : Nat) (child : Int) (s : Heap K V), n < fuel → 0 ≤ child →
    child < 2 ^ 31 → Sim Eq (filterUpLoop key n child) (KeyValueHeap.filterUp_loop1 key fuel child) s
  | _, 0, _, _, h, _, _ => absurd h (by omega)
  | 0, f + 1, child, s, _, _, _ => by
    unfold filterUpLoop KeyValueHeap.filterUp_loop1
    by_cases hc : child = 0
    · rw [if_pos hc, if_neg (by simpa using hc)]; exact .rfl
    · rw [if_neg hc]; exact .diverge
  | n + 1, f + 1, child, s, h, h0, h1 => by
    unfold filterUpLoop KeyValueHeap.filterUp_loop1
    by_cases hc : child = 0
    · rw [if_pos hc, if_neg (by simpa using hc)]; exact .rfl
    · rw [if_neg hc, if_pos (by simpa using hc)]
      dsimp only
      rw [half (by omega)]
      refine .stepS (rd_state _ _ _) fun pe _ => ?_
      refine .stepS (rd_state _ _ _) fun pk _ => ?_
      refine .get ?_
      refine .ite (by simp) (fun _ => .rfl) fun _ => ?_
      refine .stepS (rd_state _ _ _) fun pe' _ => ?_
      refine .step fun _ t _ => ?_
      refine .stepS (rd_state _ _ _) fun ce _ => ?_
      refine .step fun _ t' _ => ?_
      exact filterUpLoop_sim key n f _ t' (by omega) (by omega) (by omega)

theorem filterUp_sim (fuel : Nat) (hf : 2 ^ 31 ≤ fuel) {child : Int} (hc : child < 2 ^ 31) (key : K) (entry : Int)
    (s : Heap K V) : Sim Eq (filterUp child key entry) (KeyValueHeap.filterUp fuel child key entry) s := by
  unfold filterUp KeyValueHeap.filterUp
  by_cases h0 : 0 ≤ child
  · exact .bind_eq (filterUpLoop_sim key _ _ _ _ (by omega) h0 hc) fun _ t _ => .rfl
  · rw [show child.toNat = 0 by omega]
    unfold filterUpLoop
    rw [if_neg (by omega)]
    exact .inl rfl

theorem filterDownLoop_sim (key : K) : ∀ (n fuel : Nat) (parent c0 : Int) (s : Heap K V), n ≤ fuel → s.size < 2 ^ 31 - 1 →
    Sim (fun p q => p = q.1) (filterDownLoop key n parent) (KeyValueHeap.filterDown_loop1 key fuel parent c0) s
  | 0, _, _, _, _, _, _ => .diverge
  | n + 1, 0, _, _, _, h, _ => absurd h (by omega)
  | n + 1, f + 1, parent, c0, s, h, hs => by
    unfold filterDownLoop KeyValueHeap.filterDown_loop1
    refine .get ?_
    dsimp only
    have hr := i32_range (shl32 parent 1 + 1)
    generalize i32 (shl32 parent 1 + 1) = child at hr
    refine .ite (by simp) (fun hc => ?_) fun _ => .pure rfl
    rw [i32_of_range (x := child + 1) (by omega)]
    refine .stepS (rd_state _ _ _) fun le _ => ?_
    refine .stepS (rd_state _ _ _) fun lk _ => ?_
    refine Sim.bind_eq ?_ ?_
    · refine .ite (by simp) (fun _ => ?_) fun _ => .rfl
      refine .stepS (rd_state _ _ _) fun re _ => ?_
      refine .stepS (rd_state _ _ _) fun rk _ => ?_
      by_cases hcmp : s.comp.compare lk rk > 0
      · rw [if_pos hcmp, if_pos (by simpa using hcmp)]; exact .rfl
      · rw [if_neg hcmp, if_neg (by simpa using hcmp)]; exact .rfl
    · rintro ⟨c, ck⟩ t ht
      have hk : Keeps (fun u : Heap K V => u = s) (if child + 1 < s.size then do
            let re ← rd Heap.tree (child + 1)
            let rightKey ← rd Heap.keys re
            if s.comp.compare lk rightKey > 0 then pure (child + 1, rightKey) else pure (child, lk)
          else pure (child, lk)) :=
        .ite (.bind (.rd _) fun _ => .bind (.rd _) fun _ => .ite (.pure _) (.pure _)) (.pure _)
      have := hk s rfl
      rw [ht] at this
      obtain rfl : t = s := this
      refine .right rfl ?_
      refine .ite (by simp) (fun _ => .pure rfl) fun _ => ?_
      refine .stepS (rd_state _ _ _) fun ce _ => ?_
      refine .step fun _ t1 h1 => ?_
      refine .stepS (rd_state _ _ _) fun pe _ => ?_
      refine .step fun _ t2 h2 => ?_
      exact filterDownLoop_sim key n f _ _ t2 (by omega)
        (by rw [wr_size (put := fun (t : Heap K V) a => { t with inverse := a }) (fun _ _ => rfl) h2,
              wr_size (put := fun (t : Heap K V) a => { t with tree := a }) (fun _ _ => rfl) h1]; exact hs)

theorem filterDown_sim (fuel : Nat) (hf : 2 ^ 31 ≤ fuel) (parent : Int) (key : K) (entry : Int)
    (s : Heap K V) (hs : s.size < 2 ^ 31 - 1) :
    Sim Eq (filterDown parent key entry) (KeyValueHeap.filterDown fuel parent key entry) s := by
  unfold filterDown KeyValueHeap.filterDown
  refine .left rfl ?_
  refine .bind (filterDownLoop_sim key _ _ _ _ _ (by omega) hs) fun a b t _ hr => ?_
  obtain ⟨b1, b2⟩ := b
  obtain rfl : a = b1 := hr
  exact .step fun _ t _ => .unit_right .rfl

theorem kTree {n i v : Int} : Keeps (fun u : Heap K V => u.size = n) (wrTree i v) :=
  .wr (put := fun (t : Heap K V) a => { t with tree := a }) (fun _ _ h _ => h) _ _
theorem kInv {n i v : Int} : Keeps (fun u : Heap K V => u.size = n) (wrInverse i v) :=
  .wr (put := fun (t : Heap K V) a => { t with inverse := a }) (fun _ _ h _ => h) _ _
theorem kKeys {n i : Int} {v : K} : Keeps (fun u : Heap K V => u.size = n) (wrKeys i v) :=
  .wr (put := fun (t : Heap K V) a => { t with keys := a }) (fun _ _ h _ => h) _ _
theorem kVals {n i : Int} {v : V} : Keeps (fun u : Heap K V => u.size = n) (wrValues i v) :=
  .wr (put := fun (t : Heap K V) a => { t with values := a }) (fun _ _ h _ => h) _ _

theorem filterUpLoop_size (key : K) : ∀ (n : Nat) (c : Int) (s : Heap K V),
    (filterUpLoop key n c s).state.size = s.size := by
  intro n c s
  have : Keeps (fun u : Heap K V => u.size = s.size) (filterUpLoop key n c) := by
    induction n generalizing c with
    | zero => unfold filterUpLoop; exact .ite (.pure _) (.throw _)
    | succ n ih =>
      unfold filterUpLoop
      exact .ite (.pure _) <| .bind (.rd _) fun _ => .bind (.rd _) fun _ => .bind .get fun _ => .ite (.pure _) <|
        .bind (.rd _) fun _ => .bind kTree fun _ => .bind (.rd _) fun _ => .bind kInv fun _ => ih _
  exact this s rfl

theorem filterUp_size {c : Int} {key : K} {e r : Int} {s t : Heap K V} (h : filterUp c key e s = .ok r t) :
    t.size = s.size := by
  have : Keeps (fun u : Heap K V => u.size = s.size) (filterUp c key e) := by
    unfold filterUp
    refine .bind (fun u hu => (filterUpLoop_size key _ _ u).trans hu) fun _ => ?_
    exact .bind kTree fun _ => .bind kInv fun _ => .pure _
  have := this s rfl
  rwa [h] at this

theorem calc_eq : (KeyValueHeap.calculateNewCapacity : JM (Heap K V) Int) = Heap.calculateNewCapacity := by
  have e : i32 (i32 (Int.tdiv MAX_INT 4) + 1) = MAX_CAPACITY := by decide
  unfold KeyValueHeap.calculateNewCapacity Heap.calculateNewCapacity
  rw [e]
  generalize MAX_CAPACITY = M
  apply JM_ext; intro s
  rw [JM.bind_ok (JM.get_apply _), JM.bind_ok (JM.get_apply _)]
  dsimp only
  generalize shl32 (s.tree.len : Int) 1 = c2
  by_cases h1 : (s.tree.len : Int) = M
  · rw [if_pos h1, if_pos (by simpa using h1)]; rfl
  · rw [if_neg h1, if_neg (by simpa using h1)]
    by_cases h2 : c2 ≤ s.tree.len
    · rw [if_pos h2, if_pos (by simpa using h2)]; rfl
    · rw [if_neg h2, if_neg (by simpa using h2)]; rfl

theorem growHeap_eq (c : Int) : (KeyValueHeap.growHeap c : JM (Heap K V) Unit) = Heap.growHeap c := by
  apply JM_ext; intro s
  unfold KeyValueHeap.growHeap Heap.growHeap
  simp only [bind_unit]
  rw [JM.bind_ok (JM.get_apply _), JM.bind_ok (JM.get_apply _)]
  by_cases h : 0 ≤ c
  · have e : ∀ (α : Type) (x : Arr α) (d : α) (t : Heap K V), (copyOf x c d : JM (Heap K V) _) t = .ok (x.copyOf c d) t := by
      intro α x d t; simp only [copyOf, if_pos h]
    rw [JM.bind_ok (e _ _ _ _), JM.bind_ok (e _ _ _ _)]; rfl
  · have e : ∀ (α : Type) (x : Arr α) (d : α) (t : Heap K V), (copyOf x c d : JM (Heap K V) _) t = .err .negativeArraySize t := by
      intro α x d t; simp only [copyOf, if_neg h]
    rw [JM.bind_err (e _ _ _ _), JM.bind_err (e _ _ _ _)]

theorem growKeys_eq (c : Int) : (KeyValueHeap.growKeys c : JM (Heap K V) Unit) = Heap.growKeys c := by
  unfold KeyValueHeap.growKeys Heap.growKeys; simp only [bind_unit]
theorem growValues_eq (c : Int) : (KeyValueHeap.growValues c : JM (Heap K V) Unit) = Heap.growValues c := by
  unfold KeyValueHeap.growValues Heap.growValues; simp only [bind_unit]
theorem clearValueAt_eq (e : Int) : (KeyValueHeap.clearValueAt e : JM (Heap K V) Unit) = Heap.clearValueAt e := by
  unfold KeyValueHeap.clearValueAt Heap.clearValueAt; simp only [bind_unit]

/-- The state with a smaller, larger heap: the growing part keeps the size. -/
theorem kGrow {n c : Int} : Keeps (fun u : Heap K V => u.size = n) (do
    Heap.growHeap c; Heap.growKeys c; Heap.growValues c) := by
  have hc : ∀ {α : Type} (x : Arr α) (d : α), Keeps (fun u : Heap K V => u.size = n) (copyOf x c d) := by
    intro α x d u hu
    simp only [copyOf]; split <;> exact hu
  unfold Heap.growHeap Heap.growKeys Heap.growValues
  exact .bind (.bind .get fun _ => .bind (hc _ _) fun _ => .bind (.modify fun _ h => h) fun _ =>
      .bind (hc _ _) fun _ => .modify fun _ h => h) fun _ =>
    .bind (.bind .get fun _ => .bind (hc _ _) fun _ => .modify fun _ h => h) fun _ =>
    .bind .get fun _ => .bind (hc _ _) fun _ => .modify fun _ h => h

theorem kCalc {n : Int} : Keeps (fun u : Heap K V => u.size = n) Heap.calculateNewCapacity := by
  unfold Heap.calculateNewCapacity
  exact .bind .get fun _ => .ite (.throw _) (.ite (.throw _) (.pure _))

theorem allocate_tail (key : K) (e : Int) (s : Heap K V) (hs : 0 ≤ s.size ∧ s.size < 2 ^ 31 - 1) :
    Sim Eq (do wrKeys e key; bumpMod; modify fun h => { h with size := h.size + 1 }; pure e)
      (do
        wr Heap.keys (fun self a => { self with keys := a }) e key
        let s6 ← get
        let v7 := i32 (s6.modCount + 1)
        modify fun self => { self with modCount := v7 }
        let s8 ← get
        let v9 := i32 (s8.size + 1)
        modify fun self => { self with size := v9 }
        pure e) s := by
  refine .step fun _ t1 h1 => ?_
  have := wr_size (put := fun (t : Heap K V) a => { t with keys := a }) (fun _ _ => rfl) h1
  refine .right rfl ?_
  unfold bumpMod
  refine .modify rfl ?_
  refine .right rfl ?_
  refine .modify ?_ .rfl
  dsimp only
  rw [i32_of_range (by omega)]

theorem allocate_sim (key : K) (s : Heap K V) (hs : 0 ≤ s.size ∧ s.size < 2 ^ 31 - 1) (hf : s.freeCount < 2 ^ 31) :
    Sim Eq (allocateEntry key) (KeyValueHeap.allocateEntry key) s := by
  unfold allocateEntry KeyValueHeap.allocateEntry
  refine .get ?_
  dsimp only
  by_cases h : s.freeCount > 0
  · rw [if_pos h, if_pos (by simpa using h)]
    simp only [assoc]
    refine .stepS (rd_state _ _ _) fun t _ => ?_
    rw [i32_of_range (by omega)]
    refine .modify rfl ?_
    exact allocate_tail key t _ hs
  · rw [if_neg h, if_neg (by simpa using h)]
    simp only [growHeap_eq, growKeys_eq, growValues_eq, calc_eq, bind_unit, assoc]
    refine Sim.bind_eq ?_ fun _ t ht => ?_
    · unfold JM.when
      exact .ite (by simp) (fun _ => .rfl) fun _ => .rfl
    · have : Keeps (fun u : Heap K V => u.size = s.size) (JM.when (s.size ≥ s.keys.len) do
            let newCapacity ← Heap.calculateNewCapacity
            Heap.growHeap newCapacity
            Heap.growKeys newCapacity
            Heap.growValues newCapacity) := .when (.bind kCalc fun _ => kGrow)
      have := this s rfl
      rw [ht] at this
      have this : t.size = s.size := this
      refine .right rfl ?_
      rw [← this]
      exact allocate_tail key t.size t (by omega)

theorem insert_sim (fuel : Nat) (hfu : 2 ^ 31 ≤ fuel) (key : K) (s : Heap K V) (hs : 0 ≤ s.size ∧ s.size < 2 ^ 31 - 1)
    (hf : s.freeCount < 2 ^ 31) : Sim Eq (Heap.insert key) (KeyValueHeap.insert1 fuel key) s := by
  unfold Heap.insert KeyValueHeap.insert1
  refine .get ?_
  refine Sim.bind_eq (allocate_sim key s hs hf) fun e t _ => ?_
  exact Sim.bind_eq (filterUp_sim fuel hfu (by omega) key e t) fun _ _ _ => .rfl

theorem insertKV_sim (fuel : Nat) (hfu : 2 ^ 31 ≤ fuel) (key : K) (v : V) (s : Heap K V)
    (hs : 0 ≤ s.size ∧ s.size < 2 ^ 31 - 1) (hf : s.freeCount < 2 ^ 31) :
    Sim Eq (insertKV key v) (KeyValueHeap.insert2 fuel key v) s := by
  unfold insertKV KeyValueHeap.insert2
  exact Sim.bind_eq (insert_sim fuel hfu key s hs hf) fun _ _ _ => .rfl

theorem wr_ok {α : Type} {arr : Heap K V → Arr α} {put : Heap K V → Arr α → Heap K V} {i : Int} {v : α}
    {s t : Heap K V} {u : Unit} (h : wr arr put i v s = .ok u t) : t = put s ((arr s).set i v) := by
  simp only [wr] at h
  split at h
  · injection h with _ h; exact h.symm
  · cases h

theorem removeAt_sim (fuel : Nat) (hfu : 2 ^ 31 ≤ fuel) (e : Int) (s : Heap K V)
    (hs : 0 ≤ s.size ∧ s.size < 2 ^ 31 - 1) (hf : 0 ≤ s.freeCount ∧ s.freeCount < 2 ^ 31 - 1)
    (hl : s.inverse.len < 2 ^ 31) : Sim Eq (removeAt e) (KeyValueHeap.removeAt fuel e) s := by
  unfold removeAt KeyValueHeap.removeAt Gen.RangeCheckException.assertWithinRange
  refine .get ?_
  rw [i32_of_range (x := (s.inverse.len : Int) - 1) (by omega)]
  simp only [bind_unit, clearValueAt_eq]
  refine guard (by simp) fun _ => ?_
  refine .stepS (rd_state _ _ _) fun node _ => ?_
  refine .right rfl ?_
  refine guard (by simp) fun hn => ?_
  refine .right rfl ?_
  refine .step fun _ t1 h1 => ?_
  have e1 := wr_ok h1
  refine .step fun _ t2 h2 => ?_
  have e2 := wr_ok (arr := Heap.values) (put := fun (t : Heap K V) a => { t with values := a }) (v := t1.defaultValue) h2
  have z2 : t2.size = s.size := by rw [e2, e1]
  have f2 : t2.freeCount = s.freeCount := by rw [e2, e1]
  refine .right rfl ?_
  rw [z2, i32_of_range (by omega)]
  refine .modify (by rw [z2]) ?_
  refine .right rfl ?_
  dsimp only
  rw [z2]
  refine .stepS (rd_state _ _ _) fun le _ => ?_
  refine .stepS (rd_state _ _ _) fun lk _ => ?_
  rw [f2, i32_of_range (by omega)]
  refine .modify rfl ?_
  refine .right rfl ?_
  dsimp only
  refine .step fun _ t3 h3 => ?_
  have e3 := wr_ok h3
  have z3 : t3.size = s.size - 1 := by rw [e3]
  refine .right rfl ?_
  rw [z3]
  refine .step fun _ t4 h4 => ?_
  have e4 := wr_ok h4
  have z4 : t4.size = s.size - 1 := by rw [e4]; exact z3
  refine .right rfl ?_
  rw [z4]
  refine .ite (by simp) (fun _ => .rfl) fun _ => ?_
  refine Sim.bind_eq (filterUp_sim fuel hfu (by omega) lk le t4) fun at' t5 h5 => ?_
  exact filterDown_sim fuel hfu _ _ _ _ (by rw [filterUp_size h5]; omega)

theorem resetKey_sim (fuel : Nat) (hfu : 2 ^ 31 ≤ fuel) (e : Int) (k : K) (s : Heap K V) (hs : s.size < 2 ^ 31 - 1)
    (hn : s.inverse.get e < 2 ^ 31) : Sim Eq (resetKey e k) (KeyValueHeap.resetKey fuel e k) s := by
  unfold resetKey KeyValueHeap.resetKey
  simp only [bind_unit]
  refine .step fun _ t1 h1 => ?_
  have e1 := wr_ok h1
  refine .stepS (rd_state _ _ _) fun node hnode => ?_
  have : node < 2 ^ 31 := by
    simp only [rd] at hnode
    split at hnode
    · injection hnode with hnode _
      rw [← hnode, e1]; exact hn
    · cases hnode
  refine Sim.bind_eq (filterUp_sim fuel hfu this k e t1) fun at' t5 h5 => ?_
  exact filterDown_sim fuel hfu _ _ _ _ (by rw [filterUp_size h5, e1]; exact hs)

theorem rebuildLoop_sim (fuel : Nat) (hfu : 2 ^ 31 ≤ fuel) : ∀ (n f : Nat) (i : Int) (s : Heap K V), n < f → 0 ≤ i →
    n = (s.size - i).toNat → s.size < 2 ^ 31 - 1 →
    Sim Eq (rebuildLoop n i) (KeyValueHeap.setComparator_loop1 fuel f i) s
  | _, 0, _, _, h, _, _, _ => absurd h (by omega)
  | 0, f + 1, i, s, _, h0, hn, hs => by
    unfold rebuildLoop KeyValueHeap.setComparator_loop1
    refine .right rfl ?_
    rw [if_neg (by simp; omega)]
    exact .rfl
  | n + 1, f + 1, i, s, hf, h0, hn, hs => by
    unfold rebuildLoop KeyValueHeap.setComparator_loop1
    refine .right rfl ?_
    rw [if_pos (by simp; omega)]
    refine .stepS (rd_state _ _ _) fun e _ => ?_
    refine .stepS (rd_state _ _ _) fun k _ => ?_
    refine Sim.bind_eq (filterUp_sim fuel hfu (by omega) k e s) fun r t ht => ?_
    have := filterUp_size ht
    dsimp only
    rw [i32_of_range (by omega)]
    exact rebuildLoop_sim fuel hfu n f _ t (by omega) (by omega) (by omega) (by omega)

theorem rebuild_size : ∀ (n : Nat) (i : Int) (s : Heap K V), (rebuildLoop n i s).state.size = s.size := by
  intro n i s
  have : Keeps (fun u : Heap K V => u.size = s.size) (rebuildLoop n i) := by
    induction n generalizing i with
    | zero => exact .pure _
    | succ n ih =>
      unfold rebuildLoop
      refine .bind (.rd _) fun _ => .bind (.rd _) fun _ => .bind ?_ fun _ => ih _
      unfold filterUp
      refine .bind (fun u hu => (filterUpLoop_size _ _ _ u).trans hu) fun _ => ?_
      exact .bind kTree fun _ => .bind kInv fun _ => .pure _
  exact this s rfl

theorem setComparator_sim (fuel : Nat) (hfu : 2 ^ 31 ≤ fuel) (c : Option (Comparator K)) (s : Heap K V)
    (hs : s.size < 2 ^ 31 - 1) : Sim Eq (setComparator c) (KeyValueHeap.setComparator fuel c) s := by
  unfold KeyValueHeap.setComparator
  cases c with
  | none => exact .inr rfl
  | some c =>
    unfold setComparator
    refine .right rfl ?_
    refine .get ?_
    refine .ite (by simp) (fun _ => .rfl) fun _ => ?_
    simp only [bind_unit]
    refine .modify rfl ?_
    refine Sim.bind_eq (rebuildLoop_sim fuel hfu _ _ _ _ (by omega) (by omega) (by simp) hs) fun _ t _ => ?_
    exact .right rfl (.of_eq rfl)

theorem isValid_eq (e : Int) : (KeyValueHeap.isValidEntry e : JM (Heap K V) Bool) = Heap.isValidEntry e := by
  apply JM_ext; intro s
  unfold KeyValueHeap.isValidEntry Heap.isValidEntry
  rw [JM.bind_ok (JM.get_apply _), JM.bind_ok (JM.get_apply _)]
  by_cases h1 : e < s.inverse.len
  · rw [if_pos h1, if_pos (by simpa using h1)]
    by_cases h2 : 0 ≤ e
    · have e1 : rd Heap.inverse e s = .ok (s.inverse.get e) s := by simp only [rd]; rw [if_pos ⟨h2, h1⟩]
      rw [assoc, JM.bind_ok e1, JM.bind_ok e1]
      by_cases h3 : s.inverse.get e ≥ 0
      · rw [if_pos h3, JM.bind_ok (JM.pure_apply _ _), if_pos (by simpa using h3), JM.bind_ok e1, JM.bind_ok e1]
        rfl
      · rw [if_neg h3, JM.bind_ok (JM.pure_apply _ _), if_neg (by simpa using h3)]
    · have e1 : rd Heap.inverse e s = .err .indexOutOfBounds s := by simp only [rd]; rw [if_neg (by omega)]
      rw [assoc, JM.bind_err e1, JM.bind_err e1]
  · rw [if_neg h1, if_neg (by simpa using h1)]
    rfl

theorem isValid_state (e : Int) (s : Heap K V) : (Heap.isValidEntry e s).state = s := by
  have : Keeps (fun u : Heap K V => u = s) (Heap.isValidEntry e) := by
    unfold Heap.isValidEntry
    exact .bind .get fun _ => .ite (.bind (.rd _) fun _ => .ite (.bind (.rd _) fun _ => .pure _) (.pure _)) (.pure _)
  exact this s rfl

theorem forEachLoop_state (n : Nat) (i : Int) (s : Heap K V) : (forEachLoop n i s).state = s := by
  have : Keeps (fun u : Heap K V => u = s) (forEachLoop n i) := by
    induction n generalizing i with
    | zero => exact .pure _
    | succ n ih =>
      unfold forEachLoop
      refine .bind (fun u hu => ?_) fun _ => .bind (ih _) fun _ => .pure _
      rw [isValid_state]; exact hu
  exact this s rfl

theorem forEachLoop_sim : ∀ (n f : Nat) (acc : List Int) (i : Int) (s : Heap K V), n < f → 0 ≤ i →
    n = (s.size - i).toNat → s.size < 2 ^ 31 - 1 →
    Sim (fun l r => r = acc ++ l) (forEachLoop n i) (KeyValueHeap.forEachEntry_loop1 pure f acc i) s
  | _, 0, _, _, _, h, _, _, _ => absurd h (by omega)
  | 0, f + 1, acc, i, s, _, h0, hn, hs => by
    unfold forEachLoop KeyValueHeap.forEachEntry_loop1
    refine .right rfl ?_
    rw [if_neg (by simp; omega)]
    exact .pure (by simp)
  | n + 1, f + 1, acc, i, s, hf, h0, hn, hs => by
    unfold forEachLoop KeyValueHeap.forEachEntry_loop1
    refine .right rfl ?_
    rw [if_pos (by simp; omega), isValid_eq]
    refine .stepS (isValid_state _ _) fun v _ => ?_
    dsimp only
    rw [i32_of_range (by omega)]
    have e : ((if v = true then do
          let v3 ← (pure i : JM (Heap K V) Int)
          let acc := acc ++ [v3]
          pure acc
        else pure acc) : JM (Heap K V) _) = pure (if v = true then acc ++ [i] else acc) := by split <;> rfl
    rw [e]
    refine .right rfl ?_
    refine Sim.tailL (forEachLoop_sim n f (if v = true then acc ++ [i] else acc) (i + 1) s (by omega) (by omega) (by omega) hs)
      fun l r t _ hr => .pure ?_
    rw [hr]; cases v <;> simp

theorem forEach_sim (fuel : Nat) (hfu : 2 ^ 31 ≤ fuel) (s : Heap K V) (hs : s.size < 2 ^ 31 - 1) :
    Sim Eq Heap.forEachEntry (KeyValueHeap.forEachEntry fuel pure) s := by
  unfold Heap.forEachEntry KeyValueHeap.forEachEntry
  refine .left rfl ?_
  exact (forEachLoop_sim s.size.toNat fuel [] 0 s (by omega) (by omega) (by simp) hs).mono fun a b hr => by simpa using hr.symm

theorem firstLoop_sim (key : K) : ∀ (n f : Nat) (i : Int) (s : Heap K V), n < f → 0 ≤ i →
    n = (s.size - i).toNat → s.size < 2 ^ 31 - 1 →
    Sim (fun e r => (match r with | .ret v => v | .next _ => -1) = e) (firstLoop key n i)
      (KeyValueHeap.getFirstEntry_loop1 key f i) s
  | _, 0, _, _, h, _, _, _ => absurd h (by omega)
  | 0, f + 1, i, s, _, h0, hn, hs => by
    unfold firstLoop KeyValueHeap.getFirstEntry_loop1
    refine .right rfl ?_
    rw [if_neg (by simp; omega)]
    exact .pure rfl
  | n + 1, f + 1, i, s, hf, h0, hn, hs => by
    unfold firstLoop KeyValueHeap.getFirstEntry_loop1
    refine .right rfl ?_
    rw [if_pos (by simp; omega)]
    refine .stepS (rd_state _ _ _) fun e _ => ?_
    refine .stepS (rd_state _ _ _) fun k _ => ?_
    refine .left rfl ?_
    refine .ite (by simp) (fun _ => .pure rfl) fun _ => ?_
    dsimp only
    rw [i32_of_range (by omega)]
    exact firstLoop_sim key n f _ s (by omega) (by omega) (by omega) hs

theorem first_sim (fuel : Nat) (hfu : 2 ^ 31 ≤ fuel) (key : K) (s : Heap K V) (hs : s.size < 2 ^ 31 - 1) :
    Sim Eq (Heap.getFirstEntry key) (KeyValueHeap.getFirstEntry fuel key) s := by
  unfold Heap.getFirstEntry KeyValueHeap.getFirstEntry
  refine .left rfl ?_
  refine Sim.tailR (firstLoop_sim key s.size.toNat fuel 0 s (by omega) (by omega) (by simp) hs) fun a b t _ hr => ?_
  cases b with
  | ret v => exact .pure hr.symm
  | next _ => exact .pure hr.symm

/-- A step that makes an array and stores it. -/
theorem storeH {α γ δ : Type} {Q : γ → δ → Prop} {m : JM (Heap K V) (Arr α)} {put put' : Arr α → Heap K V → Heap K V}
    {f : JM (Heap K V) γ} {h : JM (Heap K V) δ} {s : Heap K V} (hm : ∃ r, ∀ s, m s = ofExcept r s)
    (hp : ∀ x, put' x s = put x s) (hk : ∀ x, Sim Q f h (put x s)) :
    Sim Q (m >>= fun x => modify (put x) >>= fun _ => f) (m >>= fun x => modify (put' x) >>= fun _ => h) s :=
  .stepL hm fun x _ => .modify (hp x) (hk x)

theorem fillAll_local (σ : Type) {α : Type} (a : Arr α) (v : α) :
    ∃ r, ∀ s, (fillAll a v : JM σ (Arr α)) s = ofExcept r s := by
  unfold fillAll; exact fill_local _ _ _ _ _

theorem clear_sim (s : Heap K V) : Sim Eq Heap.clear (KeyValueHeap.clear : JM (Heap K V) Unit) s := by
  unfold Heap.clear KeyValueHeap.clear KeyValueHeap.clearValues bumpMod
  simp only [assoc, bind_unit]
  refine .get ?_
  refine storeH (put := fun x h => { h with tree := x }) (fillAll_local _ _ _) (fun _ => rfl) fun x => ?_
  refine .right rfl ?_
  refine storeH (put := fun x h => { h with inverse := x }) (fillAll_local _ _ _) (fun _ => rfl) fun x => ?_
  refine .right rfl ?_
  refine storeH (put := fun x h => { h with keys := x }) (fill_local _ _ _ _ _) (fun _ => rfl) fun x => ?_
  refine .right rfl ?_
  refine storeH (put := fun x h => { h with values := x }) (fill_local _ _ _ _ _) (fun _ => rfl) fun x => ?_
  exact .of_eq rfl

theorem setDefaultKey_sim (k : K) (s : Heap K V) :
    Sim Eq (Heap.setDefaultKey k) (KeyValueHeap.setDefaultKey k) s := by
  unfold Heap.setDefaultKey KeyValueHeap.setDefaultKey
  simp only [bind_unit]
  refine .get ?_
  refine guard (by simp) fun _ => ?_
  refine .right rfl ?_
  by_cases h : (s.defaultKey == k) = true
  · rw [if_pos h, if_neg (by simp [h])]; exact .rfl
  · rw [if_neg h, if_pos (by simp [h])]
    refine .modify rfl (.right rfl ?_)
    exact .rfl

theorem setDefaultValue_sim (v : V) (s : Heap K V) :
    Sim Eq (Heap.setDefaultValue v) (KeyValueHeap.setDefaultValue v) s := by
  unfold Heap.setDefaultValue KeyValueHeap.setDefaultValue
  simp only [bind_unit]
  refine .get ?_
  refine guard (by simp) fun _ => ?_
  refine .right rfl ?_
  by_cases h : (s.defaultValue == v) = true
  · rw [if_pos h, if_neg (by simp [h])]; exact .rfl
  · rw [if_neg h, if_pos (by simp [h])]
    refine .modify rfl (.right rfl ?_)
    exact .rfl

/-- One public call of the generated class. -/
def step (fuel : Nat) : Op K V → JM (Heap K V) (Out K V)
  | .insert k => do return .int (← KeyValueHeap.insert1 fuel k)
  | .insertKV k v => do return .int (← KeyValueHeap.insert2 fuel k v)
  | .removeAt e => do KeyValueHeap.removeAt fuel e; pure .unit
  | .resetKey e k => do KeyValueHeap.resetKey fuel e k; pure .unit
  | .setComparator c => do KeyValueHeap.setComparator fuel c; pure .unit
  | .clear => do KeyValueHeap.clear; pure .unit
  | .setDefaultKey k => do KeyValueHeap.setDefaultKey k; pure .unit
  | .setDefaultValue v => do KeyValueHeap.setDefaultValue v; pure .unit
  | .setValueAt e v => do KeyValueHeap.setValueAt e v; pure .unit
  | .peek => do return .int (← KeyValueHeap.peek)
  | .getSize => do return .int (← KeyValueHeap.getSize)
  | .isEmpty => do return .bool (← KeyValueHeap.isEmpty)
  | .getCapacity => do return .int (← KeyValueHeap.getCapacity)
  | .forEachEntry => do return .ints (← KeyValueHeap.forEachEntry fuel pure)
  | .isValidEntry e => do return .bool (← KeyValueHeap.isValidEntry e)
  | .getKeyAt e => do return .key (← KeyValueHeap.getKeyAt e)
  | .containsKey k => do return .bool (← KeyValueHeap.containsKey fuel k)
  | .getFirstEntry k => do return .int (← KeyValueHeap.getFirstEntry fuel k)
  | .getValueAt e => do return .val (← KeyValueHeap.getValueAt e)
  | .getValueAtOrDefault e d => do return .val (← KeyValueHeap.getValueAtOrDefault e d)
  | .getDefaultKey => do return .key (← KeyValueHeap.getDefaultKey)
  | .getDefaultValue => do return .val (← KeyValueHeap.getDefaultValue)

/-- the array lengths are Java `int`s -/
def Fits (a : Abs K V) : Prop := a.cap < 2 ^ 31

theorem step_sim (fuel : Nat) (hfu : 2 ^ 31 ≤ fuel) {s : Heap K V} {a : Abs K V} (h : Inv s a) (hb : Fits a)
    (o : Op K V) (hg : Guard o a) : Sim Eq (Heap.step o) (step fuel o) s := by
  have h1 := h.sz; have h2 := h.fc; have h3 := h.big; have h4 := h.cap; have h5 := h.good.il
  unfold used at h3
  unfold Fits at hb
  have hs : 0 ≤ s.size ∧ s.size < 2 ^ 31 - 1 := by omega
  have hf : 0 ≤ s.freeCount ∧ s.freeCount < 2 ^ 31 - 1 := by omega
  cases o with
  | insert k => exact Sim.bind_eq (insert_sim fuel hfu k s hs (by omega)) fun _ _ _ => .rfl
  | insertKV k v => exact Sim.bind_eq (insertKV_sim fuel hfu k v s hs (by omega)) fun _ _ _ => .rfl
  | removeAt e => exact Sim.bind_eq (removeAt_sim fuel hfu e s hs hf (by omega)) fun _ _ _ => .rfl
  | resetKey e k =>
    by_cases he : e ∈ a.live
    · exact Sim.bind_eq (resetKey_sim fuel hfu e k s hs.2 (by have := (h.inv_live he); omega)) fun _ _ _ => .rfl
    · have hout : ¬ (0 ≤ e ∧ e < s.keys.len) := by
        have := h.good.kl
        rcases hg with hg | hg | hg
        · exact absurd hg he
        · omega
        · omega
      refine Sim.bind_eq ?_ fun _ _ _ => .rfl
      unfold resetKey KeyValueHeap.resetKey
      refine .step fun _ t ht => ?_
      rw [show wrKeys e k s = .err .indexOutOfBounds s from wr_oob _ _ hout] at ht
      cases ht
  | setComparator c => exact Sim.bind_eq (setComparator_sim fuel hfu c s hs.2) fun _ _ _ => .rfl
  | clear => exact Sim.bind_eq (clear_sim s) fun _ _ _ => .rfl
  | setDefaultKey k => exact Sim.bind_eq (setDefaultKey_sim k s) fun _ _ _ => .rfl
  | setDefaultValue v => exact Sim.bind_eq (setDefaultValue_sim v s) fun _ _ _ => .rfl
  | setValueAt e v =>
    refine Sim.bind_eq ?_ fun _ _ _ => .rfl
    exact .unit_right .rfl
  | peek =>
    refine Sim.bind_eq ?_ fun _ _ _ => .rfl
    unfold peek KeyValueHeap.peek
    refine .get (guard (by simp) fun _ => ?_)
    exact .rfl
  | getSize => exact .rfl
  | isEmpty => exact .rfl
  | getCapacity => exact .rfl
  | forEachEntry => exact Sim.bind_eq (forEach_sim fuel hfu s hs.2) fun _ _ _ => .rfl
  | isValidEntry e =>
    refine Sim.bind_eq ?_ fun _ _ _ => .rfl
    rw [isValid_eq]; exact .rfl
  | getKeyAt e =>
    refine Sim.bind_eq ?_ fun _ _ _ => .rfl
    exact .rfl
  | containsKey k =>
    refine Sim.bind_eq ?_ fun _ _ _ => .rfl
    exact Sim.bind_eq (first_sim fuel hfu k s hs.2) fun _ _ _ => .rfl
  | getFirstEntry k => exact Sim.bind_eq (first_sim fuel hfu k s hs.2) fun _ _ _ => .rfl
  | getValueAt e =>
    refine Sim.bind_eq ?_ fun _ _ _ => .rfl
    exact .rfl
  | getValueAtOrDefault e d =>
    refine Sim.bind_eq ?_ fun _ _ _ => .rfl
    unfold getValueAtOrDefault KeyValueHeap.getValueAtOrDefault
    refine .get (.ite (by simp) (fun _ => .rfl) fun _ => ?_)
    exact .rfl
  | getDefaultKey => exact .rfl
  | getDefaultValue => exact .rfl

theorem ok_ne_diverge {s : Heap K V} {a : Abs K V} (h : Inv s a) (o : Op K V) (hg : Guard o a) :
    (Heap.step o s).out ≠ .error .diverge := by
  intro hd
  have hk := (step_spec h o hg).1
  rw [hd] at hk
  cases o <;> simp only [Ok] at hk
  case setComparator c => cases c <;> simp at hk
  case peek =>
    by_cases hl : a.live = []
    · simpa using hk.1 hl
    · obtain ⟨e, _, he⟩ := hk.2 hl; simp at he
  all_goals (try split at hk) <;> (try split at hk) <;> simp at hk

theorem after_fits (o : Op K V) {a : Abs K V} (h : Fits a) : Fits (after o a) := by
  unfold Fits at h ⊢
  have ins : ∀ k, (a.insert k).cap < 2 ^ 31 := by
    intro k
    show a.newCap < 2 ^ 31
    unfold Abs.newCap
    split
    · omega
    · exact h
  cases o with
  | insert k => simp only [after]; split; · exact h
                exact ins k
  | insertKV k v => simp only [after]; split; · exact h
                    exact ins k
  | setComparator c => cases c <;> exact h
  | removeAt e => simp only [after]; split <;> exact h
  | resetKey e k => simp only [after]; split <;> exact h
  | setDefaultKey k => simp only [after]; split <;> exact h
  | setDefaultValue k => simp only [after]; split <;> exact h
  | setValueAt e k => simp only [after]; split <;> exact h
  | _ => exact h

/-- One call, as an equation. -/
theorem step_eq (fuel : Nat) (hfu : 2 ^ 31 ≤ fuel) {s : Heap K V} {a : Abs K V} (h : Inv s a) (hb : Fits a)
    (o : Op K V) (hg : Guard o a) : step fuel o s = Heap.step o s :=
  (step_sim fuel hfu h hb o hg).toEq (ok_ne_diverge h o hg)

theorem run_eq (fuel : Nat) (hfu : 2 ^ 31 ≤ fuel) : ∀ (ops : List (Op K V)) {s : Heap K V} {a : Abs K V},
    Inv s a → Fits a → Guarded a ops → runM (step fuel) s ops = runM Heap.step s ops
  | [], _, _, _, _, _ => rfl
  | o :: os, s, a, h, hb, hg => by
    have e := step_eq fuel hfu h hb o hg.1
    simp only [runM]
    rw [e, run_eq fuel hfu os (step_spec h o hg.1).2.1 (after_fits o hb) hg.2]

theorem init_eq (asc : Comparator K) (dk : K) (dv : V) (ic : Int) (s : Heap K V) (h1 : s.freeCount = 0)
    (h2 : s.size = 0) :
    (match KeyValueHeap.init1 asc dk dv ic s with | .ok _ t => .ok t | .err e _ => .error e) = Heap.new asc dk dv ic := by
  unfold KeyValueHeap.init1 KeyValueHeap.init_BaseKeyHeap_1 KeyValueHeap.init_BaseHeap_1 Heap.new
  by_cases h : ic < 0
  · rw [if_pos h]
    simp only [assoc]
    have e : ∀ (α : Type) (d : α) (t : Heap K V), (newArr ic d : JM (Heap K V) _) t = .err .negativeArraySize t := by
      intro α d t; simp only [newArr]; rw [if_neg (by omega)]
    rw [JM.bind_ok (JM.modify_apply _ _), JM.bind_err (e _ _ _)]
  · rw [if_neg h]
    have e : ∀ (α : Type) (d : α), (newArr ic d : JM (Heap K V) _) = pure (Arr.create ic d) := by
      intro α d; apply JM_ext; intro t; simp only [newArr]; rw [if_pos (by omega)]; rfl
    simp only [e]
    obtain ⟨tr, iv, fc, sz, mc, ks, cm, dk0, vs, dv0⟩ := s
    simp only at h1 h2
    subst h1 h2
    rfl

end Verif.Link.HeapL

namespace Verif
open Heap HeapSpec HeapProof
variable {K V : Type} [BEq K] [BEq V]

/-- A new heap of the generated class with capacity `n`, after a history; the object starts with
Java's zeros in its two counters. -/
def Link.HeapL.afterRun (fuel : Nat) (c : Comparator K) (dk : K) (dv : V) (n : Int) (s₀ : Heap K V)
    (ops : List (Op K V)) : Option (List (Except Err (Out K V)) × Heap K V) :=
  match Gen.KeyValueHeap.init1 c dk dv n s₀ with
  | .ok _ s => some (runM (Link.HeapL.step fuel) s ops)
  | .err _ _ => none

theorem Link.HeapL.afterRun_eq {fuel : Nat} (hfu : 2 ^ 31 ≤ fuel) {c : Comparator K} {dk : K} {dv : V} {n : Int}
    (hn : n < 2 ^ 31) {s₀ : Heap K V} (h1 : s₀.freeCount = 0) (h2 : s₀.size = 0) {ops : List (Op K V)}
    (hg : Guarded (empty c dk dv n) ops) :
    Link.HeapL.afterRun fuel c dk dv n s₀ ops =
      match Heap.new c dk dv n with | .ok s => some (runM Heap.step s ops) | .error _ => none := by
  have e := Link.HeapL.init_eq c dk dv n s₀ h1 h2
  unfold Link.HeapL.afterRun
  cases hr : Gen.KeyValueHeap.init1 c dk dv n s₀ with
  | ok u s =>
    rw [hr] at e
    simp only at e
    rw [← e]
    simp only
    rw [Link.HeapL.run_eq fuel hfu ops (new_inv e.symm) hn hg]
  | err x s =>
    rw [hr] at e
    simp only at e
    rw [← e]

/-- C50 for the code generated from KeyValueHeap.ftl, BaseKeyHeap.ftl and BaseHeap.java: all results of
all histories (that respect `Guarded`) on a new heap are those of the ideal heap.  `fuel` is any bound
from 2^31 on for the iterations of a loop. -/
theorem C50_generated_results {fuel : Nat} (hfu : 2 ^ 31 ≤ fuel) {c : Comparator K} {dk : K} {dv : V} {n : Int}
    (hn : n < 2 ^ 31) {s₀ : Heap K V} (h1 : s₀.freeCount = 0) (h2 : s₀.size = 0) {ops : List (Op K V)}
    (hg : Guarded (empty c dk dv n) ops) {rs : List (Except Err (Out K V))} {s : Heap K V}
    (h : Link.HeapL.afterRun fuel c dk dv n s₀ ops = some (rs, s)) :
    Legal (empty c dk dv n) ops rs := by
  rw [Link.HeapL.afterRun_eq hfu hn h1 h2 hg] at h
  split at h
  · rename_i s0 h0
    injection h with h
    have := (run_spec ops s0 _ (new_inv h0) hg).1
    rw [h] at this; exact this
  · cases h

/-- The generated constructor accepts exactly the capacities that are not negative. -/
theorem C50_generated_new (c : Comparator K) (dk : K) (dv : V) (n : Int) (s₀ : Heap K V) :
    (∃ s, Gen.KeyValueHeap.init1 c dk dv n s₀ = .ok () s) ↔ 0 ≤ n := by
  have e : ∀ (α : Type) (d : α), (newArr n d : JM (Heap K V) _) =
      if 0 ≤ n then pure (Arr.create n d) else JM.throw .negativeArraySize := by
    intro α d; apply Link.JM_ext; intro t; simp only [newArr]; split <;> rfl
  unfold Gen.KeyValueHeap.init1 Gen.KeyValueHeap.init_BaseKeyHeap_1 Gen.KeyValueHeap.init_BaseHeap_1
  simp only [e, Link.assoc]
  by_cases h : 0 ≤ n
  · simp only [if_pos h]
    exact ⟨fun _ => h, fun _ => ⟨_, rfl⟩⟩
  · simp only [if_neg h]
    exact ⟨fun ⟨s, hs⟩ => (by cases hs), fun hh => absurd hh h⟩

theorem Link.HeapL.ideal_fits : ∀ (ops : List (Op K V)) {a : Abs K V}, Link.HeapL.Fits a → Link.HeapL.Fits (ideal a ops)
  | [], _, h => h
  | o :: os, _, h => Link.HeapL.ideal_fits os (Link.HeapL.after_fits o h)

theorem Link.HeapL.afterRun_model {fuel : Nat} (hfu : 2 ^ 31 ≤ fuel) {c : Comparator K} {dk : K} {dv : V} {n : Int}
    (hn : n < 2 ^ 31) {s₀ : Heap K V} (h1 : s₀.freeCount = 0) (h2 : s₀.size = 0) {ops : List (Op K V)}
    (hg : Guarded (empty c dk dv n) ops) {rs : List (Except Err (Out K V))} {s : Heap K V}
    (h : Link.HeapL.afterRun fuel c dk dv n s₀ ops = some (rs, s)) : Heap.afterRun c dk dv n ops = some s := by
  rw [Link.HeapL.afterRun_eq hfu hn h1 h2 hg] at h
  unfold Heap.afterRun
  split at h
  · rename_i s0 h0
    injection h with h
    rw [h0]; simp only; rw [h]
  · cases h

/-- C49 for the generated class: after every guarded history, under a comparator that orders the keys,
`peek()` throws exactly when no entry is live and otherwise returns a live entry that no live key precedes. -/
theorem C49_generated_peek_is_minimum {P : K → Prop} {fuel : Nat} (hfu : 2 ^ 31 ≤ fuel) {c : Comparator K}
    (hc : TotalOn P c.compare) {dk : K} {dv : V} {n : Int} (hn : n < 2 ^ 31) {s₀ : Heap K V} (h1 : s₀.freeCount = 0)
    (h2 : s₀.size = 0) {ops : List (Op K V)} (hg : Guarded (empty c dk dv n) ops) (hs : ∀ o ∈ ops, Sane P o)
    {rs : List (Except Err (Out K V))} {s : Heap K V}
    (h : Link.HeapL.afterRun fuel c dk dv n s₀ ops = some (rs, s)) :
    let a := ideal (empty c dk dv n) ops
    (a.live = [] → (Link.HeapL.step fuel .peek s).out = .error .runtime) ∧
    (a.live ≠ [] → ∃ e ∈ a.live, (Link.HeapL.step fuel .peek s).out = .ok (.int e) ∧
      ∀ x ∈ a.live, ¬ a.cmp.compare (a.keyOf x) (a.keyOf e) < 0) := by
  obtain ⟨i1, i2⟩ := afterRun_spec (Link.HeapL.afterRun_model hfu hn h1 h2 hg h) hg
  intro a
  rw [Link.HeapL.step_eq fuel hfu i1 (Link.HeapL.ideal_fits ops hn) .peek trivial]
  exact peek_min i1 (i2 P hc hs)

/-- The generated class run on a history with growth, a removal, a reset and a change of comparator. -/
example : (Link.HeapL.afterRun 40 asc (0 : Int) (0 : Int) 2
      { tree := Arr.create 0 0, inverse := Arr.create 0 0, freeCount := 0, size := 0, keys := Arr.create 0 0, comp := asc,
        modCount := 0, defaultKey := 0, values := Arr.create 0 0, defaultValue := 0 } Heap.demo).map
      (fun r => (Link.HeapL.step 40 .peek r.2).out) = some (.ok (.int 1)) := by
  decide +kernel
end Verif

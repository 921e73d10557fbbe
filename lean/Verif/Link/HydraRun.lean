import Verif.Link.Hydra
/-! `KeyHydraDeque.ftl`: whole histories of the generated class, and the two iterators. -/
set_option linter.unusedSectionVars false
namespace Verif.Link.HydraL
open Verif Verif.Gen Hydra HydraSpec Linked
variable {α : Type}

/-- The client loop `while (it.hasNext()) { seen.add(it.next()); }` on a generated iterator. -/
def drain (hasNext : JM (HydraIt α) Bool) (next : JM (HydraIt α) α) : Nat → JM (HydraIt α) (List α)
  | 0 => JM.throw .diverge
  | fuel + 1 => do
    if (← hasNext) then do
      let v ← next
      let rest ← drain hasNext next fuel
      pure (v :: rest)
    else pure []

/-- the deque part of a result -/
def toDeque {β : Type} : Res (HydraIt α) β → Res (Hydra α) β
  | .ok l t => .ok l t.deque
  | .err e t => .err e t.deque

/-- A new iterator (its `entry` is Java's 0) is reset to a list and run to its end. -/
def walk (fuel : Nat) (reset : JM (HydraIt α) Unit) (hasNext : JM (HydraIt α) Bool) (next : JM (HydraIt α) α) :
    JM (Hydra α) (List α) := ⟨fun s => toDeque ((reset >>= fun _ => drain hasNext next fuel) ⟨s, 0⟩)⟩

/-- One call of the generated class. -/
def step (fuel : Nat) (d : α) : Op α → JM (Hydra α) (Out α)
  | .addFirst i v => do return .entry (← KeyHydraDeque.addFirst d i v)
  | .addLast i v => do return .entry (← KeyHydraDeque.addLast d i v)
  | .removeFirst i => do return .val (← KeyHydraDeque.removeFirst d i)
  | .removeLast i => do return .val (← KeyHydraDeque.removeLast d i)
  | .size => do return .int (← KeyHydraDeque.size0 d)
  | .sizeOf i => do return .int (← KeyHydraDeque.size1 d i)
  | .isEmpty => do return .bool (← KeyHydraDeque.isEmpty d)
  | .iterate i => do return .seq (← walk fuel (KeyHydraDeque.ForwardIterator.reset d i)
      (KeyHydraDeque.ForwardIterator.hasNext d) (KeyHydraDeque.ForwardIterator.next d))
  | .reverseIterate i => do return .seq (← walk fuel (KeyHydraDeque.ReverseIterator.reset d i)
      (KeyHydraDeque.ReverseIterator.hasNext d) (KeyHydraDeque.ReverseIterator.next d))
  | .clear => do KeyHydraDeque.clear d; pure .unit

theorem next_eq (fwd : Bool) (d : α) (s : Hydra α) (e : Int) :
    (if fwd then KeyHydraDeque.ForwardIterator.next d else KeyHydraDeque.ReverseIterator.next d) ⟨s, e⟩ =
      match iterNext (if fwd then Hydra.nexts else Hydra.prevs) e s with
      | .ok r t => .ok r.1 ⟨t, r.2⟩
      | .err x t => .err x ⟨t, e⟩ := by
  cases fwd
  all_goals
    simp only [if_true, Bool.false_eq_true, if_false]
    unfold iterNext
    first | unfold KeyHydraDeque.ForwardIterator.next | unfold KeyHydraDeque.ReverseIterator.next
    rw [JM.bind_ok (JM.get_apply _)]
    by_cases he : e < 0
    · rw [if_pos (by simpa using he), if_pos he]; rfl
    · rw [if_neg (by simpa using he), if_neg he, JM.bind_ok (JM.pure_apply _ _), JM.bind_ok (JM.get_apply _)]
      by_cases h1 : 0 ≤ e ∧ e < s.values.len
      · have q1 : (rd (fun self : HydraIt α => self.deque.values) e) ⟨s, e⟩ = .ok (s.values.get e) ⟨s, e⟩ := by
          simp only [rd]; rw [if_pos h1]
        rw [JM.bind_ok q1, JM.bind_ok (rd_ok _ h1)]
        simp only [JM.bind_apply, rd]
        split_ifs <;> rfl
      · have q1 : (rd (fun self : HydraIt α => self.deque.values) e) ⟨s, e⟩ = .err .indexOutOfBounds ⟨s, e⟩ := by
          simp only [rd]; rw [if_neg h1]
        have q2 : (rd Hydra.values e) s = .err .indexOutOfBounds s := by
          simp only [rd]; rw [if_neg h1]
        rw [JM.bind_err q1, JM.bind_err q2]

theorem reset_eq (fwd : Bool) (d : α) (i : Int) (s : Hydra α) (e : Int) :
    (if fwd then KeyHydraDeque.ForwardIterator.reset d i else KeyHydraDeque.ReverseIterator.reset d i) ⟨s, e⟩ =
      match iterReset (if fwd then Hydra.heads else Hydra.tails) i s with
      | .ok r t => .ok () ⟨t, r⟩
      | .err x t => .err x ⟨t, e⟩ := by
  cases fwd
  all_goals
    simp only [if_true, Bool.false_eq_true, if_false]
    unfold iterReset
    first | unfold KeyHydraDeque.ForwardIterator.reset | unfold KeyHydraDeque.ReverseIterator.reset
    rw [JM.bind_ok (JM.get_apply _), JM.bind_ok (JM.get_apply _)]
    simp only [ge_iff_le, decide_eq_true_eq]
    split
    · rfl
    · simp only [JM.bind_apply, rd]
      split_ifs <;> rfl

theorem hasNext_eq (fwd : Bool) (d : α) (s : Hydra α) (e : Int) :
    (if fwd then KeyHydraDeque.ForwardIterator.hasNext d else KeyHydraDeque.ReverseIterator.hasNext d) ⟨s, e⟩ =
      .ok (iterHasNext e) ⟨s, e⟩ := by cases fwd <;> rfl

theorem drain_eq (fwd : Bool) (d : α) : ∀ (fuel : Nat) (s : Hydra α) (e : Int),
    toDeque (drain (if fwd then KeyHydraDeque.ForwardIterator.hasNext d else KeyHydraDeque.ReverseIterator.hasNext d)
      (if fwd then KeyHydraDeque.ForwardIterator.next d else KeyHydraDeque.ReverseIterator.next d) fuel ⟨s, e⟩) =
      iterLoop (if fwd then Hydra.nexts else Hydra.prevs) fuel e s
  | 0, _, _ => rfl
  | fuel + 1, s, e => by
    rw [drain, iterLoop, JM.bind_ok (hasNext_eq fwd d s e)]
    split
    · rw [JM.bind_apply, next_eq, JM.bind_apply]
      cases hn : iterNext (if fwd then Hydra.nexts else Hydra.prevs) e s with
      | err x t => rfl
      | ok r t =>
        have ih := drain_eq fwd d fuel t r.2
        simp only
        rw [JM.bind_apply, JM.bind_apply, ← ih]
        split <;> rename_i h <;> rw [h] <;> rfl
    · rfl

theorem iterLoop_mono (link : Hydra α → Arr Int) : ∀ {f g : Nat} {e : Int} {s t : Hydra α} {l : List α},
    f ≤ g → iterLoop link f e s = .ok l t → iterLoop link g e s = .ok l t
  | 0, _, _, _, _, _, _, h => by cases h
  | f + 1, 0, _, _, _, _, hfg, _ => by omega
  | f + 1, g + 1, e, s, t, l, hfg, h => by
    rw [iterLoop] at h ⊢
    split at h
    · rename_i he
      rw [if_pos he]
      rw [JM.bind_apply] at h ⊢
      cases hn : iterNext link e s with
      | err x u => rw [hn] at h; cases h
      | ok r u =>
        rw [hn] at h
        simp only at h ⊢
        rw [JM.bind_apply] at h ⊢
        cases hl : iterLoop link f r.2 u with
        | err x w => rw [hl] at h; cases h
        | ok l' w =>
          rw [hl] at h
          rw [iterLoop_mono link (by omega) hl]
          exact h
    · rename_i he
      rw [if_neg he]; exact h

theorem iterLoop_len (link : Hydra α → Arr Int) : ∀ {f : Nat} {e : Int} {s t : Hydra α} {l : List α},
    iterLoop link f e s = .ok l t → iterLoop link (l.length + 1) e s = .ok l t
  | 0, _, _, _, _, h => by cases h
  | f + 1, e, s, t, l, h => by
    rw [iterLoop] at h ⊢
    split at h
    · rename_i he
      rw [if_pos he]
      rw [JM.bind_apply] at h ⊢
      cases hn : iterNext link e s with
      | err x u => rw [hn] at h; cases h
      | ok r u =>
        rw [hn] at h
        simp only at h ⊢
        rw [JM.bind_apply] at h ⊢
        cases hl : iterLoop link f r.2 u with
        | err x w => rw [hl] at h; cases h
        | ok l' w =>
          rw [hl] at h
          injection h with h1 h2
          subst h1 h2
          rw [show (r.1 :: l').length = l'.length + 1 from rfl, iterLoop_len link hl]
          rfl
    · rename_i he
      rw [if_neg he]; exact h

theorem walk_eq (fwd : Bool) (fuel : Nat) (d : α) (i : Int) (s : Hydra α) :
    walk fuel (if fwd then KeyHydraDeque.ForwardIterator.reset d i else KeyHydraDeque.ReverseIterator.reset d i)
      (if fwd then KeyHydraDeque.ForwardIterator.hasNext d else KeyHydraDeque.ReverseIterator.hasNext d)
      (if fwd then KeyHydraDeque.ForwardIterator.next d else KeyHydraDeque.ReverseIterator.next d) s =
      (iterReset (if fwd then Hydra.heads else Hydra.tails) i >>= fun e =>
        iterLoop (if fwd then Hydra.nexts else Hydra.prevs) fuel e) s := by
  show toDeque _ = _
  rw [JM.bind_apply, reset_eq, JM.bind_apply]
  cases iterReset (if fwd then Hydra.heads else Hydra.tails) i s with
  | err x t => rfl
  | ok e t => exact drain_eq fwd d fuel t e

theorem iterReset_keeps {start : Hydra α → Arr Int} {i e : Int} {s t : Hydra α} (hr : iterReset start i s = .ok e t) :
    t = s ∧ ¬ i < 0 := by
  unfold iterReset at hr
  rw [JM.bind_ok (JM.get_apply _)] at hr
  split at hr
  · rename_i hi
    injection hr with _ h2; exact ⟨h2.symm, by omega⟩
  · simp only [rd] at hr
    split at hr
    · rename_i hi
      injection hr with _ h2; exact ⟨h2.symm, by omega⟩
    · cases hr

theorem iterate_eq (fuel : Nat) {d : α} {s : Hydra α} {a : Stored α} (h : Inv d s a) (hfu : 2 ^ 31 ≤ fuel)
    (hn : a.next ≤ 2 ^ 30) (fwd : Bool) (i : Int) :
    walk fuel (if fwd then KeyHydraDeque.ForwardIterator.reset d i else KeyHydraDeque.ReverseIterator.reset d i)
      (if fwd then KeyHydraDeque.ForwardIterator.hasNext d else KeyHydraDeque.ReverseIterator.hasNext d)
      (if fwd then KeyHydraDeque.ForwardIterator.next d else KeyHydraDeque.ReverseIterator.next d) s =
      (if fwd then iterate i else reverseIterate i) s := by
  rw [walk_eq]
  have hp : s.prevs.len = s.nexts.len := by
    have h1 := h.vn; have h2 := h.vp; omega
  have key : (if fwd then iterate i else reverseIterate i) s =
      (iterReset (if fwd then Hydra.heads else Hydra.tails) i >>= fun e => MonadState.get >>= fun s =>
        iterLoop (if fwd then Hydra.nexts else Hydra.prevs) (s.nexts.len + 1) e) s := by
    cases fwd
    · show (reverseIterate i) s = _
      unfold reverseIterate
      rw [JM.bind_apply, JM.bind_apply]
      cases hr : iterReset (if false = true then Hydra.heads else Hydra.tails) i s with
      | err x t =>
        simp only [Bool.false_eq_true, if_false] at hr ⊢
        rw [hr]
      | ok e t =>
        simp only [Bool.false_eq_true, if_false] at hr ⊢
        have ht := (iterReset_keeps hr).1
        subst ht
        rw [hr]
        simp only
        rw [JM.bind_ok (JM.get_apply _), JM.bind_ok (JM.get_apply _), hp]
    · rfl
  rw [key, JM.bind_apply, JM.bind_apply]
  have hspec : ∀ x t, (if fwd then iterate i else reverseIterate i) s = .err x t → i < 0 := by
    intro x t
    cases fwd
    · show reverseIterate i s = _ → _
      rw [reverseIterate_spec h i]; split <;> intro hh
      · assumption
      · cases hh
    · show iterate i s = _ → _
      rw [iterate_spec h i]; split <;> intro hh
      · assumption
      · cases hh
  cases hr : iterReset (if fwd then Hydra.heads else Hydra.tails) i s with
  | err x t => rfl
  | ok e t =>
    simp only
    rw [JM.bind_ok (JM.get_apply _)]
    have hts := iterReset_keeps hr
    obtain ⟨rfl, hi⟩ := hts
    cases hl : iterLoop (if fwd then Hydra.nexts else Hydra.prevs) (t.nexts.len + 1) e t with
    | ok l u =>
      refine iterLoop_mono _ ?_ (iterLoop_len _ hl)
      have hlen : l.length = (a.lists i).length := by
        have e1 : (if fwd then iterate i else reverseIterate i) t = .ok l u := by
          rw [key, JM.bind_ok hr, JM.bind_ok (JM.get_apply _), hl]
        cases fwd
        · have e2 : reverseIterate i t = .ok l u := e1
          rw [reverseIterate_spec h i, if_neg hi] at e2
          injection e2 with e3 _
          rw [← e3]; simp
        · have e2 : iterate i t = .ok l u := e1
          rw [iterate_spec h i, if_neg hi] at e2
          injection e2 with e3 _
          rw [← e3]; simp
      have := length_le (n := a.next.toNat) (h.nd i) (fun e he => by have := h.rng i e he; omega)
      simp at this
      omega
    | err x u =>
      refine absurd (hspec x u ?_) hi
      rw [key, JM.bind_ok hr, JM.bind_ok (JM.get_apply _), hl]

theorem of_eq_bind {β γ σ : Type} {m g : JM σ β} {f : β → JM σ γ} {s : σ} (h : g s = m s) : (g >>= f) s = (m >>= f) s := by
  rw [JM.bind_apply, JM.bind_apply, h]

theorem step_sim (fuel : Nat) (hfu : 2 ^ 31 ≤ fuel) {d : α} {s : Hydra α} {a : Stored α} (h : Inv d s a) (o : Op α)
    (h1 : a.next ≤ 2 ^ 30) (h2 : a.total ≤ 2 ^ 30) (h3 : isAdd o = true → a.next < 2 ^ 30 ∧ a.total < 2 ^ 30)
    (hid : ∀ i, idOf o = some i → i < 2 ^ 30) : Sim Eq (Hydra.step d o) (step fuel d o) s := by
  cases o with
  | addFirst i v => exact .bind_eq (addFirst_sim d i v h (h3 rfl).1 (h3 rfl).2 (hid i rfl)) fun _ _ _ => .rfl
  | addLast i v => exact .bind_eq (addLast_sim d i v h (h3 rfl).1 (h3 rfl).2 (hid i rfl)) fun _ _ _ => .rfl
  | removeFirst i => exact .bind_eq (removeFirst_sim d i h h1 h2) fun _ _ _ => .rfl
  | removeLast i => exact .bind_eq (removeLast_sim d i h h1 h2) fun _ _ _ => .rfl
  | size => exact .of_eq rfl
  | sizeOf i => exact .bind_eq (sizeOf_sim d i s) fun _ _ _ => .rfl
  | isEmpty => exact .of_eq rfl
  | iterate i => exact .of_eq (of_eq_bind (iterate_eq fuel h hfu h1 true i))
  | reverseIterate i => exact .of_eq (of_eq_bind (iterate_eq fuel h hfu h1 false i))
  | clear => exact .bind_eq (clear_sim d s) fun _ _ _ => .rfl

theorem stored_ne_diverge (o : Op α) (a : Stored α) : (storedStep o a).1 ≠ .error .diverge := by
  cases o <;> simp only [storedStep] <;> (try split) <;> simp

theorem stored_total (o : Op α) (a : Stored α) :
    (storedStep o a).2.total ≤ max 0 (a.total + (if isAdd o then 1 else 0)) := by
  have ht : a.take.total = a.total := by unfold Stored.take; split <;> rfl
  cases o <;> simp only [storedStep, isAdd] <;> (try split) <;> simp <;> omega

/-- One call of the generated class, as an equation. -/
theorem step_eq (fuel : Nat) (hfu : 2 ^ 31 ≤ fuel) {d : α} {s : Hydra α} {a : Stored α} (h : Inv d s a) (o : Op α)
    (h1 : a.next ≤ 2 ^ 30) (h2 : a.total ≤ 2 ^ 30) (h3 : isAdd o = true → a.next < 2 ^ 30 ∧ a.total < 2 ^ 30)
    (hid : ∀ i, idOf o = some i → -2 ^ 31 ≤ i ∧ i < 2 ^ 30) : step fuel d o s = Hydra.step d o s := by
  refine (step_sim fuel hfu h o h1 h2 h3 fun i hi => (hid i hi).2).toEq ?_
  have g : Room o a := by
    cases o with
    | addFirst i v => exact ⟨(hid i rfl).1, (hid i rfl).2, fun _ => (h3 rfl).1⟩
    | addLast i v => exact ⟨(hid i rfl).1, (hid i rfl).2, fun _ => (h3 rfl).1⟩
    | _ => trivial
  rw [(step_spec s a o h g).1]
  exact stored_ne_diverge o a

theorem room_of {o : Op α} {a : Stored α} (hid : ∀ i, idOf o = some i → -2 ^ 31 ≤ i ∧ i < 2 ^ 30)
    (h3 : isAdd o = true → a.next < 2 ^ 30) : Room o a := by
  cases o with
  | addFirst i v => exact ⟨(hid i rfl).1, (hid i rfl).2, fun _ => h3 rfl⟩
  | addLast i v => exact ⟨(hid i rfl).1, (hid i rfl).2, fun _ => h3 rfl⟩
  | _ => trivial

theorem run_eq (fuel : Nat) (hfu : 2 ^ 31 ≤ fuel) (d : α) : ∀ (ops : List (Op α)) {s : Hydra α} {a : Stored α},
    Inv d s a → (∀ o ∈ ops, ∀ i, idOf o = some i → -2 ^ 31 ≤ i ∧ i < 2 ^ 30) →
    a.next + (ops.countP isAdd : Int) ≤ 2 ^ 30 → max 0 a.total + (ops.countP isAdd : Int) ≤ 2 ^ 30 →
    runM (step fuel d) s ops = runM (Hydra.step d) s ops
  | [], _, _, _, _, _, _ => rfl
  | o :: os, s, a, h, hid, hn, ht => by
    rw [List.countP_cons] at hn ht
    have h3 : isAdd o = true → a.next < 2 ^ 30 ∧ a.total < 2 ^ 30 := by
      intro hc; rw [if_pos hc] at hn ht; omega
    have e := step_eq fuel hfu h o (by omega) (by omega) h3 (hid o (by simp))
    have q1 := HydraIt.next_add o a
    have q2 := stored_total o a
    have i' := (step_spec s a o h (room_of (hid o (by simp)) fun hc => (h3 hc).1)).2
    simp only [runM]
    rw [e, run_eq fuel hfu d os i' (fun o ho => hid o (by simp [ho])) ?_ ?_]
    · by_cases hc : isAdd o = true
      · rw [if_pos hc] at hn q1; omega
      · rw [if_neg hc] at hn q1; omega
    · by_cases hc : isAdd o = true
      · rw [if_pos hc] at ht q2; omega
      · rw [if_neg hc] at ht q2; omega

theorem init_eq (d : α) (q c : Int) (s : Hydra α) :
    (match KeyHydraDeque.init d q c s with | .ok _ t => .ok t | .err e _ => .error e) = Hydra.new q c d := by
  unfold KeyHydraDeque.init Hydra.new
  simp only [nextPowerOf2_eq]
  generalize nextPowerOf2 c = n
  by_cases hc : c < 1
  · rw [if_pos hc]
    simp only [hc, decide_true, if_true]
    rfl
  · rw [if_neg hc]
    simp only [hc, decide_false, Bool.false_eq_true, if_false]
    have e : ∀ (n : Int) (β : Type) (x : β), (newArr n x : JM (Hydra α) _) =
        if 0 ≤ n then pure (Arr.create n x) else JM.throw .negativeArraySize := by
      intro n β x; apply JM_ext; intro t; simp only [newArr]; split <;> rfl
    have pb : ∀ {γ : Type} (f : Int → JM (Hydra α) γ), ((pure n : JM (Hydra α) Int) >>= f) = f n := fun _ => rfl
    simp only [e, pb]
    by_cases hq : 0 ≤ q
    · by_cases hn : 0 ≤ n
      · simp only [if_pos hq, if_pos hn]
        rw [if_neg (by omega)]
        rfl
      · simp only [if_pos hq, if_neg hn]
        rw [if_pos (by omega)]
        rfl
    · simp only [if_neg hq]
      rw [if_pos (show q < 0 ∨ n < 0 by omega)]
      rfl

/-- A new deque of the generated class, after a history. -/
def afterRun (fuel : Nat) (d : α) (q c : Int) (s₀ : Hydra α) (ops : List (Op α)) :
    Option (List (Except Err (Out α)) × Hydra α) :=
  match KeyHydraDeque.init d q c s₀ with
  | .ok _ s => some (runM (step fuel d) s ops)
  | .err _ _ => none

theorem afterRun_eq {fuel : Nat} (hfu : 2 ^ 31 ≤ fuel) (d : α) (q c : Int) (s₀ : Hydra α) {ops : List (Op α)}
    (hf : Fits ops) : afterRun fuel d q c s₀ ops =
      match Hydra.new q c d with | .ok s => some (runM (Hydra.step d) s ops) | .error _ => none := by
  have e := init_eq d q c s₀
  unfold afterRun
  cases hr : KeyHydraDeque.init d q c s₀ with
  | ok u s =>
    rw [hr] at e
    simp only at e
    rw [← e]
    simp only
    have h2 := hf.2
    rw [run_eq fuel hfu d ops (inv_new e.symm) hf.1 (by simp [Stored.empty]; omega) (by simp [Stored.empty]; omega)]
  | err x s =>
    rw [hr] at e
    simp only at e
    rw [← e]

theorem afterRun_model {fuel : Nat} (hfu : 2 ^ 31 ≤ fuel) {d : α} {q c : Int} {s₀ : Hydra α} {ops : List (Op α)}
    (hf : Fits ops) {rs : List (Except Err (Out α))} {s : Hydra α} (h : afterRun fuel d q c s₀ ops = some (rs, s)) :
    ∃ s0, Hydra.new q c d = .ok s0 ∧ runM (Hydra.step d) s0 ops = (rs, s) := by
  rw [afterRun_eq hfu d q c s₀ hf] at h
  split at h
  · rename_i s0 h0
    injection h with h
    exact ⟨s0, h0, h⟩
  · cases h

/-- `hasNext()` of the generated iterators. -/
def itHasNext (fwd : Bool) (d : α) : JM (HydraIt α) Bool :=
  if fwd then KeyHydraDeque.ForwardIterator.hasNext d else KeyHydraDeque.ReverseIterator.hasNext d

/-- `next()` of the generated iterators. -/
def itNext (fwd : Bool) (d : α) : JM (HydraIt α) α :=
  if fwd then KeyHydraDeque.ForwardIterator.next d else KeyHydraDeque.ReverseIterator.next d

/-- `reset(listId)` of the generated iterators. -/
def itReset (fwd : Bool) (d : α) (listId : Int) : JM (HydraIt α) Unit :=
  if fwd then KeyHydraDeque.ForwardIterator.reset d listId else KeyHydraDeque.ReverseIterator.reset d listId

/-- One call on the deque, or on the generated iterator of it. -/
def itStep (fuel : Nat) (fwd : Bool) (d : α) : HydraIt.IOp α → JM (HydraIt α) (Out α)
  | .call o => HydraIt.onDeque (step fuel d o)
  | .hasNext => do return .bool (← itHasNext fwd d)
  | .next => do return .val (← itNext fwd d)

theorem itStep_iter (fuel : Nat) (fwd : Bool) (d : α) (o : HydraIt.IOp α) (ho : ∀ c, o ≠ .call c) (s : HydraIt α) :
    itStep fuel fwd d o s = HydraIt.step fwd d o s := by
  obtain ⟨s, e⟩ := s
  cases o with
  | call c => exact absurd rfl (ho c)
  | hasNext =>
    have q : itHasNext fwd d ⟨s, e⟩ = _ := hasNext_eq fwd d s e
    simp only [itStep]
    rw [JM.bind_ok q]; rfl
  | next =>
    have q : itNext fwd d ⟨s, e⟩ = _ := next_eq fwd d s e
    simp only [itStep, HydraIt.step]
    rw [JM.bind_apply, q, JM.bind_ok (JM.get_apply _), JM.bind_apply]
    simp only [HydraIt.onDeque]
    cases iterNext (if fwd then Hydra.nexts else Hydra.prevs) e s <;> rfl

/-- The iterator's own calls leave the deque alone. -/
theorem itStep_deque (fwd : Bool) (d : α) (o : HydraIt.IOp α) (ho : ∀ c, o ≠ .call c) (s : HydraIt α) :
    (HydraIt.step fwd d o s).state.deque = s.deque := by
  obtain ⟨s, e⟩ := s
  cases o with
  | call c => exact absurd rfl (ho c)
  | hasNext => rfl
  | next =>
    simp only [HydraIt.step]
    rw [JM.bind_ok (JM.get_apply _), JM.bind_apply]
    simp only [HydraIt.onDeque]
    have hk : (iterNext (if fwd then Hydra.nexts else Hydra.prevs) e s).state = s := by
      generalize (if fwd then Hydra.nexts else Hydra.prevs) = link
      unfold iterNext
      split
      · rfl
      · simp only [JM.bind_apply, rd]
        by_cases h1 : 0 ≤ e ∧ e < s.values.len
        · simp only [if_pos h1]
          split_ifs <;> rfl
        · simp only [if_neg h1]
          rfl
    cases hn : iterNext (if fwd then Hydra.nexts else Hydra.prevs) e s with
    | ok r t => rw [hn] at hk; exact hk
    | err x t => rw [hn] at hk; exact hk

theorem itRun_eq (fuel : Nat) (hfu : 2 ^ 31 ≤ fuel) (fwd : Bool) (d : α) : ∀ (ops : List (HydraIt.IOp α)) {s : HydraIt α}
    {a : Stored α}, Inv d s.deque a →
    (∀ o ∈ HydraSpec.calls ops, ∀ i, idOf o = some i → -2 ^ 31 ≤ i ∧ i < 2 ^ 30) →
    a.next + ((HydraSpec.calls ops).countP isAdd : Int) ≤ 2 ^ 30 →
    max 0 a.total + ((HydraSpec.calls ops).countP isAdd : Int) ≤ 2 ^ 30 →
    runM (itStep fuel fwd d) s ops = runM (HydraIt.step fwd d) s ops
  | [], _, _, _, _, _, _ => rfl
  | .hasNext :: os, s, a, h, hid, hn, ht => by
    have e := itStep_iter fuel fwd d .hasNext (fun _ h => by cases h) s
    have k := itStep_deque fwd d .hasNext (fun _ h => by cases h) s
    simp only [runM]
    rw [e, itRun_eq fuel hfu fwd d os (a := a) (by rw [k]; exact h) hid hn ht]
  | .next :: os, s, a, h, hid, hn, ht => by
    have e := itStep_iter fuel fwd d .next (fun _ h => by cases h) s
    have k := itStep_deque fwd d .next (fun _ h => by cases h) s
    simp only [runM]
    rw [e, itRun_eq fuel hfu fwd d os (a := a) (by rw [k]; exact h) hid hn ht]
  | .call o :: os, s, a, h, hid, hn, ht => by
    simp only [HydraSpec.calls, List.mem_cons] at hid hn ht
    rw [List.countP_cons] at hn ht
    have h3 : isAdd o = true → a.next < 2 ^ 30 ∧ a.total < 2 ^ 30 := by
      intro hc; rw [if_pos hc] at hn ht; omega
    have e := step_eq fuel hfu h o (by omega) (by omega) h3 (hid o (.inl rfl))
    have q1 := HydraIt.next_add o a
    have q2 := stored_total o a
    have i' := (step_spec s.deque a o h (room_of (hid o (.inl rfl)) fun hc => (h3 hc).1)).2
    have e' : itStep fuel fwd d (.call o) s = HydraIt.step fwd d (.call o) s := by
      simp only [itStep, HydraIt.step, HydraIt.onDeque]
      rw [e]
    have k : (HydraIt.step fwd d (.call o) s).state.deque = (Hydra.step d o s.deque).state := by
      simp only [HydraIt.step, HydraIt.onDeque]
      cases Hydra.step d o s.deque <;> rfl
    simp only [runM]
    rw [e', itRun_eq fuel hfu fwd d os (a := (storedStep o a).2) (by rw [k]; exact i')
      (fun o ho => hid o (.inr ho)) ?_ ?_]
    · by_cases hc : isAdd o = true
      · rw [if_pos hc] at hn q1; omega
      · rw [if_neg hc] at hn q1; omega
    · by_cases hc : isAdd o = true
      · rw [if_pos hc] at ht q2; omega
      · rw [if_neg hc] at ht q2; omega

theorem reset_start {fwd : Bool} {d : α} {i e : Int} {s : Hydra α} {t : HydraIt α}
    (h : itReset fwd d i ⟨s, e⟩ = .ok () t) : HydraIt.start fwd i s = .ok () t := by
  have q : itReset fwd d i ⟨s, e⟩ = _ := reset_eq fwd d i s e
  rw [q] at h
  unfold HydraIt.start
  cases hr : iterReset (if fwd then Hydra.heads else Hydra.tails) i s with
  | ok r t => rw [hr] at h; exact h
  | err x t => rw [hr] at h; cases h

theorem bounds_run : ∀ (ops : List (Op α)) (a : Stored α),
    (runS storedStep a ops).2.next ≤ a.next + (ops.countP isAdd : Int) ∧
    max 0 (runS storedStep a ops).2.total ≤ max 0 a.total + (ops.countP isAdd : Int)
  | [], a => by simp [runS]
  | o :: ops, a => by
    have h1 := HydraIt.next_add o a
    have h3 := stored_total o a
    have h2 := bounds_run ops (storedStep o a).2
    simp only [runS, List.countP_cons]
    by_cases hc : isAdd o = true
    · rw [if_pos hc] at h1 h3 ⊢; omega
    · rw [if_neg hc] at h1 h3 ⊢; omega

end Verif.Link.HydraL

namespace Verif
open Hydra HydraSpec
variable {α : Type}

/-- C45 for the code generated from KeyHydraDeque.ftl: every result of every history that fits, on a new deque,
is that of a family of independent ideal lists, entry numbers aside.  `fuel` is any bound from 2^31 on for the
client's loop over an iterator; `s₀` is what is in the object's fields before its constructor runs. -/
theorem C45_generated_family {fuel : Nat} (hfu : 2 ^ 31 ≤ fuel) {d : α} {q c : Int} {s₀ : Hydra α} {ops : List (Op α)}
    (hf : Fits ops) {rs : List (Except Err (Out α))} {s : Hydra α}
    (h : Link.HydraL.afterRun fuel d q c s₀ ops = some (rs, s)) :
    rs.map eraseOut = (runS HydraSpec.step Family.empty ops).1 := by
  obtain ⟨s0, h0, h1⟩ := Link.HydraL.afterRun_model hfu hf h
  have := C45_family d q c s0 h0 ops hf
  rw [h1] at this; exact this

/-- The generated constructor accepts every sensible pair of sizes and refuses a capacity below one. -/
theorem C45_generated_new (d : α) (q c : Int) (s₀ : Hydra α) :
    (0 ≤ q → 1 ≤ c → c ≤ 2 ^ 30 → ∃ s, Gen.KeyHydraDeque.init d q c s₀ = .ok () s) ∧
    (c < 1 → ∃ s, Gen.KeyHydraDeque.init d q c s₀ = .err .illegalArgument s) := by
  have e := Link.HydraL.init_eq d q c s₀
  obtain ⟨n1, n2⟩ := C45_new q c d
  cases hr : Gen.KeyHydraDeque.init d q c s₀ with
  | ok u s =>
    rw [hr] at e
    refine ⟨fun _ _ _ => ⟨s, rfl⟩, fun hc => ?_⟩
    rw [n2 hc] at e; cases e
  | err x s =>
    rw [hr] at e
    refine ⟨fun a1 a2 a3 => ?_, fun hc => ⟨s, ?_⟩⟩
    · obtain ⟨t, ht⟩ := n1 a1 a2 a3
      rw [ht] at e; cases e
    · rw [n2 hc] at e
      injection e with e; rw [e]

/-- C68 for the generated class: after every history that fits, a cell of the value array holds the default or a
current value. -/
theorem C68_generated_no_stale_references {fuel : Nat} (hfu : 2 ^ 31 ≤ fuel) {d : α} {q c : Int} {s₀ : Hydra α}
    {ops : List (Op α)} (hf : Fits ops) {rs : List (Except Err (Out α))} {s : Hydra α}
    (h : Link.HydraL.afterRun fuel d q c s₀ ops = some (rs, s)) :
    ∀ e : Int, 0 ≤ e → e < s.values.len →
      s.values.get e = d ∨ ∃ i, s.values.get e ∈ (runS HydraSpec.step Family.empty ops).2.lists i := by
  obtain ⟨s0, h0, h1⟩ := Link.HydraL.afterRun_model hfu hf h
  have := C68_no_stale_references d q c s0 h0 ops hf
  rw [h1] at this; exact this

/-- C92 for the generated class and its generated iterators (`fwd`: ForwardIterator, else ReverseIterator), under
the same condition as `C92_iterator_partial`: the value an iterator hands out next is not removed before. -/
theorem C92_generated_iterator_partial {fuel : Nat} (hfu : 2 ^ 31 ≤ fuel) (fwd : Bool) {d : α} {q c : Int} {s₀ : Hydra α}
    {ops : List (Op α)} {id : Int} (hid : 0 ≤ id) {iops : List (HydraIt.IOp α)}
    (hf : Fits (ops ++ HydraSpec.calls iops)) {rs : List (Except Err (Out α))} {s : Hydra α}
    (h : Link.HydraL.afterRun fuel d q c s₀ ops = some (rs, s)) {e : Int} {t : HydraIt α}
    (ht : Link.HydraL.itReset fwd d id ⟨s, e⟩ = .ok () t)
    (hk : Allowed (HydraSpec.itStep fwd id) HydraSpec.Known
      ((runS HydraSpec.step Family.empty ops).2,
        HydraSpec.Place.start fwd ((runS HydraSpec.step Family.empty ops).2.lists id)) iops) :
    (runM (Link.HydraL.itStep fuel fwd d) t iops).1.map eraseOut =
      (runS (HydraSpec.itStep fwd id) ((runS HydraSpec.step Family.empty ops).2,
        HydraSpec.Place.start fwd ((runS HydraSpec.step Family.empty ops).2.lists id)) iops).1 := by
  obtain ⟨f1, f2⟩ := hf
  rw [List.countP_append] at f2
  have hfit : Fits ops := ⟨fun o ho => f1 o (by simp [ho]), by omega⟩
  obtain ⟨s0, h0, h1⟩ := Link.HydraL.afterRun_model hfu hfit h
  have hs := Link.HydraL.reset_start ht
  have hi := (run_spec h0 hfit).2
  rw [h1] at hi
  obtain ⟨t', ht', hr⟩ := HydraIt.start_spec (fwd := fwd) hid hi
  rw [hs] at ht'
  cases ht'
  have hb := Link.HydraL.bounds_run ops (Stored.empty (α := α))
  simp only [Stored.empty] at hb
  rw [Link.HydraL.itRun_eq fuel hfu fwd d iops (a := (runS storedStep Stored.empty ops).2) hr.1
    (fun o ho => f1 o (by simp [ho])) (by simp only [Stored.empty] at *; omega) (by simp only [Stored.empty] at *; omega)]
  refine C92_iterator_partial fwd d q c s0 h0 ops id hid iops ⟨f1, by rw [List.countP_append]; omega⟩ t ?_ hk
  rw [h1]; exact hs

/-- The generated class run on a history with two lists, growth and both ends. -/
example : (Link.HydraL.afterRun 40 (0 : Int) 0 1
      { values := Arr.create 0 0, heads := Arr.create 0 0, tails := Arr.create 0 0, count := Arr.create 0 0,
        nexts := Arr.create 0 0, prevs := Arr.create 0 0, freeList := 0, size := 0, maxEntry := 0 }
      [Op.addLast 0 10, .addFirst 2 20, .addLast 0 11, .addFirst 0 9, .removeLast 2, .addLast 2 21,
      .iterate 0, .reverseIterate 0, .removeFirst 0, .iterate 2, .size, .sizeOf 0]).map Prod.fst = some
      [.ok (.entry 0), .ok (.entry 1), .ok (.entry 2), .ok (.entry 3), .ok (.val 20), .ok (.entry 1),
       .ok (.seq [9, 10, 11]), .ok (.seq [11, 10, 9]), .ok (.val 9), .ok (.seq [21]), .ok (.int 3),
       .ok (.int 2)] := by decide +kernel

end Verif

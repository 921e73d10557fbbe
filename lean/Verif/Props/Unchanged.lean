import Verif.Proofs.Unchanged
import Verif.Props.Deque
import Verif.Props.Vector
import Verif.Props.Hydra
import Verif.Props.Index
import Verif.Props.Heap
set_option linter.unusedSectionVars false
/-! # Property C105: a call that throws leaves no trace

`NoTrace step s o` (Spec/Unchanged.lean): whatever calls follow `o`, they answer as if `o` had not been called. -/
namespace Verif

section deque
open Deque
variable {α : Type}

theorem Deque.throw_keeps {ref : Bool} {d : α} {s : Deque α} {l : List α} (h : Inv ref d s l) {o : Op α}
    (hb : DequeSpec.Bounded o l) {e : Err} (he : (step ref d o s).out = .error e) :
    (step ref d o s).state = s := by
  have ho := (step_spec s l o h hb).1
  rw [he] at ho
  have hz : Quiet (JM.throw .noSuchElement : JM (Deque α) α) := .throw _
  cases o with
  | removeFirst =>
    cases l with
    | nil =>
      have hs : s.size = 0 := by simpa using h.size
      simp [step, removeFirst, JM.bind_apply, hs]
    | cons v l => cases ho
  | removeLast =>
    rcases nil_or_snoc l with rfl | ⟨l', v, rfl⟩
    · have hs : s.size = 0 := by simpa using h.size
      simp [step, removeLast, JM.bind_apply, hs]
    · simp [DequeSpec.step] at ho
  | peekFirst =>
    refine (Quiet.bind (.bind .get fun _ => ?_) fun _ => .pure _ : Quiet _) s
    exact .ite (.throw _) (.rd _ _)
  | peekLast =>
    refine (Quiet.bind (.bind .get fun _ => ?_) fun _ => .pure _ : Quiet _) s
    exact .ite (.throw _) (.rd _ _)
  | _ => cases ho

/-- C105 for the deques: after any history that keeps fewer than 2^29 elements, a call that throws leaves no
trace.  (`C01_full_add_corrupts_refuted` is the call that does, beyond that bound.) -/
theorem C105_deque (ref : Bool) (d : α) (c : Int) (s0 : Deque α) (hnew : Deque.new c d = .ok s0) (ops : List (Op α))
    (o : Op α) (hb : Allowed DequeSpec.step DequeSpec.Bounded [] (ops ++ [o])) (e : Err)
    (he : (step ref d o (runM (step ref d) s0 ops).2).out = .error e) :
    NoTrace (step ref d) (runM (step ref d) s0 ops).2 o := by
  rw [Allowed_append] at hb
  have hinv := (runM_refines (fun s a o h g => step_spec s a o h g) ops s0 [] (inv_new (ref := ref) hnew) hb.1).2
  exact noTrace_of_state (throw_keeps hinv hb.2.1 he)

/- An empty deque after some use: `removeLast` throws and the deque goes on. -/
example : ∃ s : Deque Int, Deque.new 2 0 = .ok s ∧
    (runM (step true 0) s [.addLast 1, .removeFirst, .removeLast, .addFirst 7, .forEach]).1 =
      [.ok .unit, .ok (.val 1), .error .noSuchElement, .ok .unit, .ok (.seq [7])] := ⟨_, rfl, rfl⟩

end deque

section vector
open Vec
variable {α : Type}

/-- C105 for the vectors: after any legal history, a call that is legal or reads anywhere, and throws, leaves no
trace. -/
theorem C105_vector (ref : Bool) (d : α) (c : Int) (s0 : Vec α) (hnew : Vec.new c d = .ok s0) (ops : List (Op α))
    (hb : Allowed VecSpec.step VecSpec.Legal [] ops) (o : Op α)
    (hl : VecSpec.Legal o (runS VecSpec.step [] ops).2 ∨ ∃ i, o = .valueAt i) (e : Err)
    (he : (step ref d o (runM (step ref d) s0 ops).2).out = .error e) :
    NoTrace (step ref d) (runM (step ref d) s0 ops).2 o := by
  have hinv := (runM_refines (fun s a o h g => step_spec s a o h g) ops s0 [] (inv_new (ref := ref) hnew) hb).2
  apply noTrace_of_state
  rcases hl with hl | ⟨i, rfl⟩
  · have ho := (step_spec _ _ o hinv hl).1
    rw [he] at ho
    cases o with
    | valueAt i => exact (Quiet.bind (.rd _ _) fun _ => .pure _ : Quiet _) _
    | _ => cases ho
  · exact (Quiet.bind (.rd _ _) fun _ => .pure _ : Quiet _) _

example : ∃ s : Vec Int, Vec.new 1 0 = .ok s ∧
    (runM (step false 0) s [.append 1, .valueAt 9, .append 2, .forEach]).1 =
      [.ok .unit, .error .indexOutOfBounds, .ok .unit, .ok (.seq [1, 2])] := ⟨_, rfl, rfl⟩

end vector

section hydra
open Hydra HydraSpec
variable {α : Type}

theorem Hydra.throw_keeps {d : α} {s : Hydra α} {a : Stored α} (h : Inv d s a) {o : Op α} (hr : Room o a) {e : Err}
    (he : (step d o s).out = .error e) : (step d o s).state = s := by
  have ho := (step_spec s a o h hr).1
  rw [he] at ho
  have val : ∀ (i : Int) (start : Hydra α → Arr Int), Quiet (validate i start) := fun i start =>
    .bind .get fun _ => .ite (.throw _) (.ite (.throw _) (.bind (.rd _ _) fun _ => .ite (.throw _) (.pure _)))
  have loop : ∀ (link : Hydra α → Arr Int) (n : Nat) (e : Int), Quiet (iterLoop link n e) := by
    intro link n
    induction n with
    | zero => intro e; exact .throw _
    | succ n ih =>
      intro e
      refine .ite (.bind ?_ fun _ => .bind (ih _) fun _ => .pure _) (.pure _)
      exact .ite (.throw _) (.bind (.rd _ _) fun _ => .bind (.rd _ _) fun _ => .pure _)
  cases o with
  | addFirst i v =>
    by_cases hi : i < 0
    · have := (add_neg h v hi (by simp only [Room] at hr; omega)).1
      simp [step, JM.bind_apply, this]
    · simp [storedStep, hi] at ho
  | addLast i v =>
    by_cases hi : i < 0
    · have := (add_neg h v hi (by simp only [Room] at hr; omega)).2
      simp [step, JM.bind_apply, this]
    · simp [storedStep, hi] at ho
  | removeFirst i =>
    cases hl : a.lists i with
    | nil =>
      have := validate_none h hl
      simp [step, removeFirst, JM.bind_apply, this.1]
    | cons p l => simp [storedStep, hl] at ho
  | removeLast i =>
    cases hl : a.lists i with
    | nil =>
      have := validate_none h hl
      simp [step, removeLast, JM.bind_apply, this.2]
    | cons p l =>
      have : ∃ x, (p :: l).getLast? = some x := by
        cases hh : (p :: l).getLast? with
        | none => simp at hh
        | some x => exact ⟨x, rfl⟩
      obtain ⟨x, hx⟩ := this
      simp [storedStep, hl, hx] at ho
  | iterate i =>
    refine (Quiet.bind (.bind ?_ fun _ => .bind .get fun _ => loop _ _ _) fun _ => .pure _ : Quiet _) _
    exact .bind .get fun _ => .ite (.pure _) (.rd _ _)
  | reverseIterate i =>
    refine (Quiet.bind (.bind ?_ fun _ => .bind .get fun _ => loop _ _ _) fun _ => .pure _ : Quiet _) _
    exact .bind .get fun _ => .ite (.pure _) (.rd _ _)
  | _ => simp [storedStep] at ho

/-- C105 for the multi-headed deques: after any history that fits in the arrays, a call that throws leaves no
trace. -/
theorem C105_hydra (d : α) (q c : Int) (s0 : Hydra α) (hnew : Hydra.new q c d = .ok s0) (ops : List (Op α)) (o : Op α)
    (hf : Fits (ops ++ [o])) (e : Err) (he : (step d o (runM (step d) s0 ops).2).out = .error e) :
    NoTrace (step d) (runM (step d) s0 ops).2 o := by
  have hb := allowed_of_fits hf
  rw [Allowed_append] at hb
  have hinv := (runM_refines (fun s a o h g => step_spec s a o h g) ops s0 Stored.empty (inv_new hnew) hb.1).2
  exact noTrace_of_state (throw_keeps hinv hb.2.1 he)

example : ∃ s : Hydra Int, Hydra.new 1 1 0 = .ok s ∧
    (runM (step 0) s [.addLast 0 5, .addLast (-1) 6, .removeFirst 3, .addLast 3 7, .iterate 3]).1 =
      [.ok (.entry 0), .error .indexOutOfBounds, .error .noSuchElement, .ok (.entry 1), .ok (.seq [7])] := ⟨_, rfl, rfl⟩

end hydra

section index
open Index IndexSpec
variable {K V : Type} [Inhabited K] [Inhabited V]

theorem Index.throw_keeps {tight : Prop} {s : Index K V} {a : Abs K V} {F : List Int} (h : Inv tight s a F)
    {o : Op K V} (hg : Guard o a) {e : Err} (he : (step o s).out = .error e) : (step o s).state = s := by
  have ho := (step_spec h o hg).1
  rw [he] at ho
  have look : ∀ (k : K) (n : Nat) (e : Int), Quiet (lookupLoop (V := V) k n e) := by
    intro k n
    induction n with
    | zero => intro e; exact .throw _
    | succ n ih =>
      intro e
      exact .ite (.bind (.rd _ _) fun _ => .bind .get fun _ => .ite (.pure _) (.bind (.rd _ _) fun _ => ih _)) (.pure _)
  have lookE : ∀ k : K, Quiet (lookupEntry (V := V) k) := fun k =>
    .bind (.bind .get fun _ => .pure _) fun _ => .bind (.rd _ _) fun _ => .bind .get fun _ => look _ _ _
  cases o with
  | add k =>
    simp only [Ok] at ho
    split at ho
    · cases ho
    · obtain ⟨_, ho, _⟩ := ho; cases ho
  | put k v =>
    simp only [Ok] at ho
    split at ho
    · cases ho
    · obtain ⟨_, ho, _⟩ := ho; cases ho
  | lookupEntry k => exact (Quiet.bind (lookE k) fun _ => .pure _ : Quiet _) s
  | containsKey k => exact (Quiet.bind (.bind (lookE k) fun _ => .pure _) fun _ => .pure _ : Quiet _) s
  | get k =>
    exact (Quiet.bind (.bind (lookE k) fun _ => .ite (.throw _) (.rd _ _)) fun _ => .pure _ : Quiet _) s
  | getOrDefault k d =>
    exact (Quiet.bind (.bind (lookE k) fun _ => .ite (.pure _) (.rd _ _)) fun _ => .pure _ : Quiet _) s
  | remove k =>
    simp only [Ok] at ho
    split at ho <;> cases ho
  | removeAt x =>
    rcases ho with ho | ⟨hx, _⟩
    · cases ho
    · rcases removeAt_other h hx with h1 | h1 <;> simp [step, JM.bind_apply, h1]
  | removeAtAndReserve x => cases ho
  | freeReservedEntry x => cases ho
  | getKeyAt x => exact (Quiet.bind (.rd _ _) fun _ => .pure _ : Quiet _) s
  | getValueAt x => exact (Quiet.bind (.rd _ _) fun _ => .pure _ : Quiet _) s
  | getValueAtOrDefault x d =>
    exact (Quiet.bind (.bind .get fun _ => .ite (.pure _) (.rd _ _)) fun _ => .pure _ : Quiet _) s
  | putValueAt x v =>
    have hk : Tidy (step (K := K) (.putValueAt x v)) := .seq (m := putValueAt x v) (by unfold putValueAt; exact .wr _ _ _ _) fun _ _ => ⟨_, _, rfl⟩
    exact hk.state he
  | size => cases ho
  | isEmpty => cases ho
  | capacity => obtain ⟨_, ho, _⟩ := ho; cases ho
  | forEach => obtain ⟨_, ho, _⟩ := ho; cases ho
  | forEachEntry => obtain ⟨_, ho, _⟩ := ho; cases ho
  | forEachValue => obtain ⟨_, ho, _⟩ := ho; cases ho
  | clear => cases ho
  | setHashMethod q =>
    exact Tidy.state (.seq (.bind .get fun _ => .ite (Quiet.throw _).tidy (.modify _)) fun _ _ => ⟨_, _, rfl⟩) he
  | setEqMethod q =>
    exact Tidy.state (.seq (.bind .get fun _ => .ite (Quiet.throw _).tidy (.modify _)) fun _ _ => ⟨_, _, rfl⟩) he

/-- C105 for the indexed sets and maps: in any collection a program can hold, a guarded call that throws leaves no
trace. -/
theorem C105_index {exact : Prop} {s : Index K V} {a : Abs K V} (h : Reach exact s a) (o : Op K V) (hg : Guard o a)
    (e : Err) (he : (step o s).out = .error e) : NoTrace step s o := by
  obtain ⟨F, hI⟩ := reach_inv h
  exact noTrace_of_state (throw_keeps hI hg he)

example : ∃ s : Index Int Int, Index.new (fun k => BitVec.ofInt 32 k) (fun a b => a == b) 2 1 2 = .ok s ∧
    (runM step s [.put 1 10, .get 2, .removeAt 9, .setHashMethod (fun _ => 0#32), .putValueAt (-1) 3, .get 1, .size]).1 =
      [.ok (.int 0), .error .keyNotFound, .error .indexOutOfBounds, .error .illegalState, .error .indexOutOfBounds,
        .ok (.val 10), .ok (.int 1)] := ⟨_, rfl, by decide⟩

end index

section heap
open Heap HeapSpec HeapProof
variable {K V : Type}

theorem Heap.throw_keeps [BEq K] [BEq V] {s : Heap K V} {a : Abs K V} (h : HeapProof.Inv s a) {o : Op K V}
    (hg : Guard o a) {e : Err} (he : (step o s).out = .error e) : (step o s).state = s := by
  have ho := (step_spec h o hg).1
  rw [he] at ho
  have hcap := h.cap
  have hsz := h.sz
  cases o with
  | insert k =>
    by_cases hc : a.Full ∧ a.Stuck
    · simp [step, JM.bind_apply, insert_stuck h k hc.1 hc.2]
    · simp [Ok, hc] at ho
  | insertKV k v =>
    by_cases hc : a.Full ∧ a.Stuck
    · simp [step, insertKV, JM.bind_apply, insert_stuck h k hc.1 hc.2]
    · simp [Ok, hc] at ho
  | removeAt x =>
    by_cases hl : x ∈ a.live
    · simp [Ok, hl] at ho
    · by_cases hr : x < 0 ∨ a.cap ≤ x
      · simp [step, JM.bind_apply, removeAt_range h hr]
      · rw [step, JM.bind_err (removeAt_dead h (by omega) hl ?_)]
        · rfl
        · rcases hg with hg | hg | hg
          · exact .inl hg
          · exact .inr hg
          · exact absurd (.inr hg) hr
  | resetKey x k =>
    by_cases hl : x ∈ a.live
    · simp [Ok, hl] at ho
    · have hr : x < 0 ∨ a.cap ≤ x := hg.resolve_left hl
      have hkl := h.good.kl
      have : resetKey x k s = .err .indexOutOfBounds s := by
        unfold resetKey
        exact JM.bind_err (wr_oob _ _ (by omega))
      simp [step, JM.bind_apply, this]
  | setComparator c =>
    cases c with
    | none => rfl
    | some c => cases ho
  | clear => cases ho
  | setDefaultKey k =>
    by_cases hl : a.live = []
    · simp [Ok, hl] at ho
    · have : 0 < s.size := by rw [hsz]; have := List.length_pos_iff.2 hl; omega
      simp [step, setDefaultKey, JM.bind_apply, this]
  | setDefaultValue v =>
    by_cases hl : a.live = []
    · simp [Ok, hl] at ho
    · have : 0 < s.size := by rw [hsz]; have := List.length_pos_iff.2 hl; omega
      simp [step, setDefaultValue, JM.bind_apply, this]
  | setValueAt x v =>
    have hk : Tidy (step (K := K) (.setValueAt x v)) := .seq (m := setValueAt x v) (by unfold setValueAt; exact .wr _ _ _ _) fun _ _ => ⟨_, _, rfl⟩
    exact hk.state he
  | peek => exact (Quiet.bind (.bind .get fun _ => .ite (.throw _) (.rd _ _)) fun _ => .pure _ : Quiet _) s
  | getSize => cases ho
  | isEmpty => cases ho
  | getCapacity => cases ho
  | forEachEntry => cases ho
  | isValidEntry x =>
    refine (Quiet.bind (.bind .get fun _ => .ite (.bind (.rd _ _) fun _ => .ite ?_ (.pure _)) (.pure _)) fun _ => .pure _ :
      Quiet _) s
    exact .bind (.rd _ _) fun _ => .pure _
  | getKeyAt x => exact (Quiet.bind (.rd _ _) fun _ => .pure _ : Quiet _) s
  | containsKey k => obtain ⟨_, ho, _⟩ := ho; cases ho
  | getFirstEntry k =>
    rcases ho with ⟨_, _, _, ho⟩ | ⟨_, ho⟩ <;> cases ho
  | getValueAt x => exact (Quiet.bind (.rd _ _) fun _ => .pure _ : Quiet _) s
  | getValueAtOrDefault x d =>
    exact (Quiet.bind (.bind .get fun _ => .ite (.pure _) (.rd _ _)) fun _ => .pure _ : Quiet _) s
  | getDefaultKey => cases ho
  | getDefaultValue => cases ho

/-- C105 for the heaps: after any guarded history, a guarded call that throws leaves no trace; in particular an
insertion that cannot grow the heap. -/
theorem C105_heap [BEq K] [BEq V] {c : Comparator K} {dk : K} {dv : V} {n : Int} {ops : List (Op K V)}
    (hg : Guarded (empty c dk dv n) ops) {s : Heap K V} (hs : afterRun c dk dv n ops = some s) (o : Op K V)
    (ho : Guard o (ideal (empty c dk dv n) ops)) (e : Err) (he : (step o s).out = .error e) :
    NoTrace step s o := by
  obtain ⟨h, -⟩ := afterRun_spec hs hg
  exact noTrace_of_state (throw_keeps h ho he)

/- A heap of capacity 0 cannot grow: `insert` throws, and the calls after it answer as before. -/
example : ∃ s, afterRun Heap.asc 0 (0 : Int) 0 [] = some s ∧ (step (.insert 5) s).out = .error .resize ∧
    (runM step s [.insert 5, .getSize, .isValidEntry 0]).1 =
      .error .resize :: (runM step s [.getSize, .isValidEntry 0]).1 := ⟨_, rfl, rfl, rfl⟩

/- A removed entry is removed again: the call throws and the heap goes on as if it had not been made. -/
example : ∃ s, afterRun Heap.asc 0 (0 : Int) 2 [.insertKV 5 50, .insertKV 3 30, .removeAt 1] = some s ∧
    (step (.removeAt 1) s).out = .error .invalidEntry ∧
    (runM step s [.removeAt 1, .insertKV 4 40, .peek, .getKeyAt 1]).1 =
      .error .invalidEntry :: (runM step s [.insertKV 4 40, .peek, .getKeyAt 1]).1 := ⟨_, rfl, rfl, rfl⟩

end heap

end Verif

import Verif.Link.Script
import Verif.Spec.ScriptUse
/-! C113 for deque and vector: consumers that use what they walk over as a work queue. -/
namespace Verif
open ScriptSpec Verif.Deque
variable {α : Type}

namespace Link.QueueL
open DequeSpec

theorem adds_sure {N : Nat} {Q : Except Err Unit → List α → Walk α → Prop} (u : List α) :
    ∀ (l a : List α), (a ++ l).length < N → Q (.ok ()) u ⟨[], a ++ l⟩ →
    Script.sure (fun o w => ∃ w', Walk.call N o w = some w') (dequeCan N) Q (addsAll l u) ⟨[], a⟩
  | [], a, _, h => by simpa [addsAll, Script.sure] using h
  | x :: l, a, hl, h => by
    have hx : Walk.call N (.addLast x) ⟨[], a⟩ = some ⟨[], a ++ [x]⟩ := by
      simp only [List.length_append, List.length_cons] at hl
      have hl' : (Walk.all (⟨[], a⟩ : Walk α)).length + 1 < N := by simp [Walk.all]; omega
      simp only [Walk.call]
      rw [if_pos hl']
    refine ⟨⟨_, hx⟩, ?_⟩
    rintro r b ⟨rfl, hb⟩
    rw [hx] at hb
    injection hb with hb
    subst hb
    exact adds_sure u l (a ++ [x]) (by simpa using hl) (by simpa using h)

theorem works_sure {N : Nat} {f : α → List α} {q out : List α} (h : WorkedOff N f q out) : ∀ seen : List α,
    Sure (fun o w => ∃ w', Walk.call N o w = some w') (dequeCan N) dequeMove (worker f)
      (fun r u w => r = .ok () ∧ u = seen ++ out ∧ w.all = []) ⟨[], q⟩ seen := by
  induction h with
  | done => exact fun seen => .done rfl ⟨rfl, by simp, rfl⟩
  | @step v q out hl _ ih =>
    intro seen
    refine .step (fun r u w => r = .ok () ∧ u = seen ++ [v] ∧ w = ⟨[], q ++ f v⟩) rfl ?_ (by simp) ?_
    · refine ⟨⟨_, rfl⟩, ?_⟩
      rintro r b ⟨rfl, hb⟩
      simp only [Walk.call, List.nil_append, Option.some.injEq] at hb
      subst hb
      exact adds_sure _ (f v) q hl ⟨rfl, rfl, rfl⟩
    · rintro u w ⟨-, rfl, rfl⟩
      have := ih (seen ++ [v])
      simpa using this

/-- A queue whose values bring in nothing is worked off in its order. -/
theorem drained (N : Nat) : ∀ q : List α, q.length ≤ N → WorkedOff N (fun _ => []) q q
  | [], _ => .done
  | v :: q, h => .step (by simp at h ⊢; omega) (by simpa using drained N q (by simp at h; omega))

end Link.QueueL

/-- C113: a deque as a work queue that is filled while it is walked.  After any history, if working off the ideal
sequence takes the values `out` and never leaves `N` or more of them, `forEach` with the worker as its consumer returns,
the worker has noted exactly `out`, and the deque then answers every further history as an empty one.  `N` is the
capacity asked for or the largest number of values that history held. -/
theorem C113_generated_deque_worklist (ref : Bool) (d : α) (c0 : Int) (z s0 : Deque α) (x : Unit)
    (hnew : Gen.KeyDeque.init ref d c0 z = .ok x s0)
    (ops : List (Deque.Op α)) (hb : Allowed DequeSpec.step DequeSpec.Bounded [] ops) (N : Nat)
    (hN : N ≤ 2 ^ 29) (hcap : (N : Int) ≤ c0 ∧ c0 ≤ 2 ^ 30 ∨ N ≤ DequeSpec.peak [] ops + 1)
    (f : α → List α) (out : List α) (hw : DequeSpec.WorkedOff N f (runS DequeSpec.step [] ops).2 out)
    (calls : Nat) (hc : 2 ^ 31 ≤ calls) :
    ∃ s', (∃ n, ∀ fuel, n ≤ fuel →
      Ended (Gen.KeyDequeWalk.forEach ref d fuel (consumer (Link.Deque.step calls ref d) (worker f))
        ⟨(runM (Link.Deque.step calls ref d) s0 ops).2, []⟩) (.ok ()) ⟨s', out⟩) ∧
      ∀ more : List (Deque.Op α), Allowed DequeSpec.step DequeSpec.Bounded [] more →
        (runM (Link.Deque.step calls ref d) s' more).1 = (runS DequeSpec.step [] more).1 := by
  obtain ⟨r, u', b, s', ⟨rfl, rfl, hb'⟩, hrun, hmore⟩ := C113_generated_deque_partial ref d c0 z s0 x hnew ops hb N hN hcap
    (worker f) [] _ (Link.QueueL.works_sure hw []) calls hc
  rw [hb'] at hmore
  exact ⟨s', hrun, hmore⟩

/-- C113: taking the first value out at each step empties any deque, whatever history it has had, and each value is seen
exactly once, in order. -/
theorem C113_generated_deque_drain (ref : Bool) (d : α) (c0 : Int) (z s0 : Deque α) (x : Unit)
    (hnew : Gen.KeyDeque.init ref d c0 z = .ok x s0)
    (ops : List (Deque.Op α)) (hb : Allowed DequeSpec.step DequeSpec.Bounded [] ops)
    (calls : Nat) (hc : 2 ^ 31 ≤ calls) :
    ∃ s', (∃ n, ∀ fuel, n ≤ fuel →
      Ended (Gen.KeyDequeWalk.forEach ref d fuel (consumer (Link.Deque.step calls ref d) (worker fun _ => []))
        ⟨(runM (Link.Deque.step calls ref d) s0 ops).2, []⟩) (.ok ()) ⟨s', (runS DequeSpec.step [] ops).2⟩) ∧
      ∀ more : List (Deque.Op α), Allowed DequeSpec.step DequeSpec.Bounded [] more →
        (runM (Link.Deque.step calls ref d) s' more).1 = (runS DequeSpec.step [] more).1 := by
  have hpeak : ∀ (ops : List (Deque.Op α)) (l : List α), (runS DequeSpec.step l ops).2.length ≤ DequeSpec.peak l ops := by
    intro ops
    induction ops with
    | nil => intro l; exact Nat.le_refl _
    | cons o ops ih =>
      intro l
      have := ih (DequeSpec.step o l).2
      simp only [DequeSpec.peak, runS]
      omega
  have hs := Link.Deque.small ops [] (by simp) hb
  exact C113_generated_deque_worklist ref d c0 z s0 x hnew ops hb (runS DequeSpec.step [] ops).2.length (by omega)
    (.inr (by have := hpeak ops []; omega)) _ _ (Link.QueueL.drained _ _ (Nat.le_refl _)) calls hc

/-- What a number brings in: its half and its third, if it is above 2. -/
def smaller (n : Int) : List Int := if n ≤ 1 then [] else if n ≤ 2 then [n / 2] else [n / 2, n / 3]

/- The hypotheses of `C113_generated_deque_worklist` are met by a deque of capacity 6 that holds 6 and 3 (another
value has come and gone). -/
example : (∃ x s, Gen.KeyDeque.init false (0 : Int) 6 ⟨Arr.create 0 0, 7, 7, 7⟩ = .ok x s) ∧
    Allowed DequeSpec.step DequeSpec.Bounded [] [.addLast (6 : Int), .addFirst 9, .addLast 3, .removeFirst] ∧
    DequeSpec.WorkedOff 6 smaller (runS DequeSpec.step [] [.addLast (6 : Int), .addFirst 9, .addLast 3, .removeFirst]).2
      [6, 3, 3, 2, 1, 1, 1, 1, 1] := by
  refine ⟨⟨_, _, rfl⟩, by simp [Allowed, DequeSpec.Bounded, DequeSpec.step], ?_⟩
  show DequeSpec.WorkedOff 6 smaller [6, 3] _
  repeat' first
    | exact .done
    | exact DequeSpec.WorkedOff.step (by decide) .done
    | refine DequeSpec.WorkedOff.step (by decide) ?_

/- The run: the worker meets the values in that order and leaves the deque empty. -/
example : (match Gen.KeyDeque.init false (0 : Int) 6 ⟨Arr.create 0 0, 7, 7, 7⟩ with
    | .ok _ s => match Gen.KeyDequeWalk.forEach false 0 50 (consumer (Link.Deque.step 50 false 0) (worker smaller))
        ⟨(runM (Link.Deque.step 50 false 0) s [.addLast 6, .addFirst 9, .addLast 3, .removeFirst]).2, []⟩ with
      | .ok _ t => some (t.ext, (Link.Deque.step 50 false 0 .forEach t.obj).out)
      | _ => none
    | _ => none) = some ([6, 3, 3, 2, 1, 1, 1, 1, 1], .ok (.seq [])) := by rfl

/-- C113 is false if the work does not fit: in a deque of capacity 2, when 9 has come and gone and 6 is there, the worker
takes out 6, puts 3 and 2 at the back, which makes the deque grow, and the walk ends with both still in the deque. -/
theorem C113_generated_deque_worklist_refuted :
    (match Gen.KeyDeque.init false (0 : Int) 2 ⟨Arr.create 0 0, 7, 7, 7⟩ with
    | .ok _ s => match Gen.KeyDequeWalk.forEach false 0 50 (consumer (Link.Deque.step 50 false 0) (worker smaller))
        ⟨(runM (Link.Deque.step 50 false 0) s [.addLast 9, .removeFirst, .addLast 6]).2, []⟩ with
      | .ok _ t => some (t.ext, (Link.Deque.step 50 false 0 .forEach t.obj).out)
      | _ => none
    | _ => none) = some ([6], .ok (.seq [3, 2])) ∧
    DequeSpec.WorkedOff 6 smaller (runS DequeSpec.step [] [.addLast (9 : Int), .removeFirst, .addLast 6]).2
      [6, 3, 2, 1, 1, 1] := by
  refine ⟨by rfl, ?_⟩
  show DequeSpec.WorkedOff 6 smaller [6] _
  repeat' first
    | exact .done
    | exact DequeSpec.WorkedOff.step (by decide) .done
    | refine DequeSpec.WorkedOff.step (by decide) ?_

/-! ### vector -/

namespace Link.QueueL
open DequeSpec

theorem appends_sure {Q : Except Err Unit → List α → Nat × List α → Prop} (u : List α) (i : Nat) :
    ∀ (l a : List α), (a ++ l).length ≤ 2 ^ 30 → Q (.ok ()) u (i, a ++ l) →
    Script.sure (fun o a => VecSpec.Legal o a.2) vectorCan Q (appendsAll l u) (i, a)
  | [], a, _, h => by simpa [appendsAll, Script.sure] using h
  | x :: l, a, hl, h => by
    refine ⟨?_, ?_⟩
    · simp only [List.length_append, List.length_cons] at hl
      show (a.length : Int) < 2 ^ 30
      omega
    rintro r b ⟨rfl, rfl⟩
    exact appends_sure u i l (a ++ [x]) (by simpa using hl) (by simpa using h)

theorem queue_le {N : Nat} {f : α → List α} {q out : List α} (h : WorkedOff N f q out) : q.length ≤ out.length := by
  induction h with
  | done => simp
  | step _ _ ih => simp only [List.length_append, List.length_cons] at *; omega

theorem explores_sure {N : Nat} {f : α → List α} {q out : List α} (h : WorkedOff N f q out) : ∀ pre seen : List α,
    pre.length + out.length ≤ 2 ^ 30 →
    Sure (fun o a => VecSpec.Legal o a.2) vectorCan vectorMove (explorer f)
      (fun r u a => r = .ok () ∧ u = seen ++ out ∧ a.2 = pre ++ out) (pre.length, pre ++ q) seen := by
  induction h with
  | done => exact fun pre seen _ => .done (by simp [vectorMove]) ⟨rfl, by simp, rfl⟩
  | @step v q out _ hw ih =>
    intro pre seen hl
    have hq := queue_le hw
    refine .step (b := (pre.length + 1, pre ++ v :: q))
      (fun r u a => r = .ok () ∧ u = seen ++ [v] ∧ a = (pre.length + 1, pre ++ v :: q ++ f v)) (by simp [vectorMove])
      (appends_sure _ _ (f v) _ (by simp only [List.length_append, List.length_cons] at *; omega) ⟨rfl, rfl, rfl⟩) (by simp) ?_
    rintro u a ⟨-, rfl, rfl⟩
    have := ih (pre ++ [v]) (seen ++ [v]) (by simp only [List.length_append, List.length_cons, List.length_nil] at *; omega)
    simpa using this

end Link.QueueL

/-- C113: a vector that is filled while it is walked.  After any history, if working off the elements takes the values
`out`, at most 2^30 in all, `forEach` with the explorer as its consumer returns, the explorer has been handed exactly
`out`, and the vector then answers every further history as one with the elements `out`. -/
theorem C113_generated_vector_explore (ref : Bool) (d : α) (c0 : Int) (z s0 : Vec α) (x : Unit)
    (hnew : Gen.KeyVector.init ref d c0 z = .ok x s0)
    (ops : List (Vec.Op α)) (hb : Allowed VecSpec.step VecSpec.Legal [] ops)
    (N : Nat) (f : α → List α) (out : List α) (hw : DequeSpec.WorkedOff N f (runS VecSpec.step [] ops).2 out)
    (hout : out.length ≤ 2 ^ 30) (calls : Nat) (hc : 2 ^ 31 ≤ calls) :
    ∃ s', (∃ n, ∀ fuel, n ≤ fuel →
      Ended (Gen.KeyVectorWalk.forEach ref d fuel (consumer (Link.Vec.step calls ref d) (explorer f))
        ⟨(runM (Link.Vec.step calls ref d) s0 ops).2, []⟩) (.ok ()) ⟨s', out⟩) ∧
      ∀ more : List (Vec.Op α), Allowed VecSpec.step VecSpec.Legal out more →
        (runM (Link.Vec.step calls ref d) s' more).1 = (runS VecSpec.step out more).1 := by
  obtain ⟨r, u', b, s', ⟨rfl, rfl, hb'⟩, hrun, hmore⟩ := C113_generated_vector ref d c0 z s0 x hnew ops hb (explorer f) [] _
    (by simpa using Link.QueueL.explores_sure hw [] [] (by simpa using hout)) calls hc
  rw [hb'] at hmore
  exact ⟨s', hrun, hmore⟩

/- The hypotheses of `C113_generated_vector_explore` are met by a vector of capacity 1 with 6 and 3 in it, and this is the
run. -/
example : (∃ x s, Gen.KeyVector.init false (0 : Int) 1 ⟨Arr.create 0 0, 7, 7⟩ = .ok x s) ∧
    Allowed VecSpec.step VecSpec.Legal [] [.append (6 : Int), .append 3] ∧
    DequeSpec.WorkedOff 6 smaller (runS VecSpec.step [] [.append (6 : Int), .append 3]).2 [6, 3, 3, 2, 1, 1, 1, 1, 1] := by
  refine ⟨⟨_, _, rfl⟩, by simp [Allowed, VecSpec.Legal, VecSpec.step], ?_⟩
  show DequeSpec.WorkedOff 6 smaller [6, 3] _
  repeat' first
    | exact .done
    | exact DequeSpec.WorkedOff.step (by decide) .done
    | refine DequeSpec.WorkedOff.step (by decide) ?_

example : (match Gen.KeyVector.init false (0 : Int) 1 ⟨Arr.create 0 0, 7, 7⟩ with
    | .ok _ s => match Gen.KeyVectorWalk.forEach false 0 50 (consumer (Link.Vec.step 50 false 0) (explorer smaller))
        ⟨(runM (Link.Vec.step 50 false 0) s [.append 6, .append 3]).2, []⟩ with
      | .ok _ t => some (t.ext, (Link.Vec.step 50 false 0 .forEach t.obj).out)
      | _ => none
    | _ => none) = some ([6, 3, 3, 2, 1, 1, 1, 1, 1], .ok (.seq [6, 3, 3, 2, 1, 1, 1, 1, 1])) := by rfl

end Verif

import Verif.Link.ScriptQueue
/-! C113 for the deque: work that never ends. -/
namespace Verif
open ScriptSpec Verif.Deque
variable {α : Type}

namespace Link.QueueL
open DequeSpec Verif.Deque Verif.Walk Link.Deque Link.ScriptL Link.WalkL

theorem endless_loop {ref : Bool} {d : α} {N : Nat} (hN : N ≤ 2 ^ 29) {f : α → List α} {S : List α → Prop}
    (hS : ∀ q, S q → ∃ v q', q = v :: q' ∧ (q' ++ f v).length < N ∧ S (q' ++ f v)) {fuel' : Nat} (hf' : 2 ^ 31 ≤ fuel') :
    ∀ (fuel : Nat) (q : List α) (s : Deque α) (pos : Int) (seen : List α) (acc : List Unit), S q →
    Deque.Inv ref d s q ∧ q.length < 2 ^ 29 → N ≤ s.values.len → At s 0 pos →
    (Gen.KeyDequeWalk.forEach_loop1 ref d (consumer (step fuel' ref d) (worker f)) fuel acc pos ⟨s, seen⟩).out = .error .diverge
  | 0, _, _, _, _, _, _, _, _, _ => rfl
  | fuel + 1, q, s, pos, seen, acc, hq, ⟨h, hsm⟩, hc, hat => by
    obtain ⟨v, q, rfl, hl, hq'⟩ := hS q hq
    have hinc : At s 1 (inc pos s.values.len) := by
      obtain ⟨p0, p1, p2⟩ := hat
      have := h.head
      have hl := h.room
      simp only [List.length_cons] at hl
      unfold At inc
      split <;> omega
    obtain ⟨r, u', s', b', p1, ⟨p2, p3, p4⟩, rfl, rfl, rfl⟩ := play_spec
      (R := fun t w => (Deque.Inv ref d t w.all ∧ w.all.length < 2 ^ 29) ∧ t.values.len = s.values.len ∧
        At t w.behind.length (inc pos s.values.len))
      (step := step fuel' ref d)
      (may := fun o w => ∃ w', Walk.call N o w = some w') (can := dequeCan N)
      (Q := fun r u w => r = .ok () ∧ u = seen ++ [v] ∧ w = ⟨[], q ++ f v⟩)
      (fun o t w h hm => script_step hN (fuel := fuel') hf' hc o t w h hm)
      (worker f v seen) s ⟨[v], q⟩ seen ⟨⟨by simpa [Walk.all] using h, by simpa [Walk.all] using hsm⟩, rfl, hinc⟩ (by
        refine ⟨⟨_, rfl⟩, ?_⟩
        rintro r b ⟨rfl, hb⟩
        simp only [Walk.call, Option.some.injEq] at hb
        subst hb
        exact adds_sure _ (f v) q hl ⟨rfl, rfl, rfl⟩)
    obtain ⟨o0, o1, o2⟩ := hat
    have ne : pos ≠ s.tail := by
      have := h.link; have := h.tail; have hl := h.room; have := h.head
      simp only [List.length_cons] at *
      omega
    have hv := h.slots 0 pos (by simp) o0 o1 (by simpa using o2)
    simp at hv
    have hle := (fits_of_inv h).len
    rw [Gen.KeyDequeWalk.forEach_loop1, JM.bind_ok (lift_get _), if_pos (by simpa using ne),
      JM.bind_ok (lift_ok (rd_ok Deque.values ⟨o0, o1⟩) seen), ← hv, consumer_cases p1]
    have e : (Gen.KeyDeque.inc ref d pos (s'.values.len : Int)) s' = .ok (inc pos s.values.len) s' := by
      rw [p3, inc_eq ref d (by omega)]; rfl
    rw [JM.bind_ok (lift_get _)]
    simp only
    rw [JM.bind_ok (lift_ok e _)]
    exact endless_loop hN hS hf' fuel (q ++ f v) s' _ _ _ hq' (by simpa [Walk.all] using p2) (by omega) (by simpa using p4)

end Link.QueueL

/-- C113: work that never ends.  If every queue in `S` can be worked at and leaves a queue in `S` with fewer than `N`
values, and the contents after the history are in `S`, `forEach` with the worker as its consumer never returns. -/
theorem C113_generated_deque_worklist_endless (ref : Bool) (d : α) (c0 : Int) (z s0 : Deque α) (x : Unit)
    (hnew : Gen.KeyDeque.init ref d c0 z = .ok x s0)
    (ops : List (Deque.Op α)) (hb : Allowed DequeSpec.step DequeSpec.Bounded [] ops) (N : Nat)
    (hN : N ≤ 2 ^ 29) (hcap : (N : Int) ≤ c0 ∧ c0 ≤ 2 ^ 30 ∨ N ≤ DequeSpec.peak [] ops + 1)
    (f : α → List α) (S : List α → Prop)
    (hS : ∀ q, S q → ∃ v q', q = v :: q' ∧ (q' ++ f v).length < N ∧ S (q' ++ f v))
    (h0 : S (runS DequeSpec.step [] ops).2) (calls : Nat) (hc : 2 ^ 31 ≤ calls) (fuel : Nat) :
    (Gen.KeyDequeWalk.forEach ref d fuel (consumer (Link.Deque.step calls ref d) (worker f))
        ⟨(runM (Link.Deque.step calls ref d) s0 ops).2, []⟩).out = .error .diverge := by
  have hm := Link.Deque.made hnew
  have hi0 := Deque.inv_new (ref := ref) hm
  have hi := (runM_refines (fun s a o h g => Deque.step_spec s a o h g) ops s0 [] hi0 hb).2
  have hl := Deque.peak_len ops hi0 hb
  have hlen := Deque.new_len hm
  rw [Link.Deque.history_eq calls hc ref d c0 s0 hm ops hb]
  generalize (runM (Deque.step ref d) s0 ops).2 = s at *
  have := Link.QueueL.endless_loop (ref := ref) (d := d) hN hS hc fuel _ s s.head [] [] h0
    ⟨hi, Link.Deque.small ops [] (by simp) hb⟩
    (by rcases hcap with hcap | hcap
        · have := hlen hcap.2; omega
        · omega)
    ⟨hi.head.1, hi.head.2, .inl (by simp)⟩
  unfold Gen.KeyDequeWalk.forEach
  simp only
  rw [JM.bind_ok (Link.ScriptL.lift_get _), JM.bind_apply]
  split
  · rename_i h; rw [h] at this; cases this
  · rename_i h; rw [h] at this; exact congrArg Except.error (Except.error.inj this)

/-- C113: putting the first value to the back at each step never ends, whatever the history, if the deque is not empty. -/
theorem C113_generated_deque_rotate_endless (ref : Bool) (d : α) (c0 : Int) (z s0 : Deque α) (x : Unit)
    (hnew : Gen.KeyDeque.init ref d c0 z = .ok x s0)
    (ops : List (Deque.Op α)) (hb : Allowed DequeSpec.step DequeSpec.Bounded [] ops)
    (hne : (runS DequeSpec.step [] ops).2 ≠ []) (calls : Nat) (hc : 2 ^ 31 ≤ calls) (fuel : Nat) :
    (Gen.KeyDequeWalk.forEach ref d fuel (consumer (Link.Deque.step calls ref d) (worker fun v => [v]))
        ⟨(runM (Link.Deque.step calls ref d) s0 ops).2, []⟩).out = .error .diverge := by
  have hpeak : ∀ (ops : List (Deque.Op α)) (l : List α), (runS DequeSpec.step l ops).2.length ≤ DequeSpec.peak l ops := by
    intro ops
    induction ops with
    | nil => intro l; exact Nat.le_refl _
    | cons o ops ih =>
      intro l
      have := ih (DequeSpec.step o l).2
      simp only [DequeSpec.peak, runS]
      omega
  have hs := Link.Deque.small ops [] (by simp) hb
  refine C113_generated_deque_worklist_endless ref d c0 z s0 x hnew ops hb ((runS DequeSpec.step [] ops).2.length + 1) (by omega)
    (.inr (by have := hpeak ops []; omega)) _ (fun q => q ≠ [] ∧ q.length = (runS DequeSpec.step [] ops).2.length) ?_
    ⟨hne, rfl⟩ calls hc fuel
  rintro (_ | ⟨v, q⟩) ⟨h1, h2⟩
  · exact absurd rfl h1
  · refine ⟨v, q, rfl, ?_, by simp, ?_⟩ <;> simp only [List.length_append, List.length_cons, List.length_nil] at * <;> omega

/- The hypotheses of `C113_generated_deque_rotate_endless` are met by a deque of capacity 2 with 6 and 3 in it, and this is
a run of 60 steps. -/
example : (∃ x s, Gen.KeyDeque.init false (0 : Int) 2 ⟨Arr.create 0 0, 7, 7, 7⟩ = .ok x s) ∧
    Allowed DequeSpec.step DequeSpec.Bounded [] [.addLast (6 : Int), .addLast 3] ∧
    (runS DequeSpec.step [] [.addLast (6 : Int), .addLast 3]).2 ≠ [] := by
  refine ⟨⟨_, _, rfl⟩, by simp [Allowed, DequeSpec.Bounded, DequeSpec.step], by simp [runS, DequeSpec.step]⟩

example : (match Gen.KeyDeque.init false (0 : Int) 2 ⟨Arr.create 0 0, 7, 7, 7⟩ with
    | .ok _ s => match Gen.KeyDequeWalk.forEach false 0 60 (consumer (Link.Deque.step 50 false 0) (worker fun v => [v]))
        ⟨(runM (Link.Deque.step 50 false 0) s [.addLast 6, .addLast 3]).2, []⟩ with
      | .err e t => some (e, t.ext.length, t.ext.take 5)
      | _ => none
    | _ => none) = some (.diverge, 60, [6, 3, 6, 3, 6]) := by decide +kernel

end Verif

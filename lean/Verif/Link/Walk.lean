import Verif.Link.DequeProps
import Verif.Link.Vector
import Verif.Link.HeapProps
import Verif.Link.IndexProps
import Verif.Link.Set4
import Verif.Gen.KeyDequeWalk
import Verif.Gen.KeyVectorWalk
import Verif.Gen.KeyValueHeapWalk
import Verif.Gen.KeyValueIndexedMapWalk
import Verif.Gen.KeyIndexedSetWalk
import Verif.Spec.Walk
/-! A consumer with a state of its own, which does not touch the collection, is handed what a walk without one hands
out: the loops of the generated walks. -/
set_option linter.unusedSectionVars false
namespace Verif.Link.WalkL
open Verif Verif.Gen Verif.Walk WalkSpec
variable {σ O α β γ δ : Type}

/-- The result of a consumer, beside the object. -/
def out (s : O) (g : List β → γ) : Res σ (List β) → Res (Beside σ O) γ
  | .ok rs u => .ok (g rs) ⟨s, u⟩
  | .err e u => .err e ⟨s, u⟩

theorem lift_ok {m : JM O α} {s t : O} {a : α} (h : m s = .ok a t) (u : σ) :
    lift m (⟨s, u⟩ : Beside σ O) = .ok a ⟨t, u⟩ := by
  unfold lift; simp only; rw [h]

theorem nil {s : O} {g : List β → γ} {w : JM (Beside σ O) γ} {c : α → JM σ β} {u : σ} (h : w ⟨s, u⟩ = .ok (g []) ⟨s, u⟩) :
    w ⟨s, u⟩ = out s g (feed c [] u) := h

theorem cons {s : O} {g : List β → γ} {c : α → JM σ β} {x : α} {l : List α} {w : β → JM (Beside σ O) γ} {u : σ}
    (h : ∀ r u1, w r ⟨s, u1⟩ = out s (fun rs => g (r :: rs)) (feed c l u1)) :
    (aside (c x) >>= w) ⟨s, u⟩ = out s g (feed c (x :: l) u) := by
  unfold feed
  rw [JM.bind_apply, JM.bind_apply]
  unfold aside
  simp only
  cases c x u with
  | err e u1 => rfl
  | ok r u1 =>
    simp only
    rw [h, JM.bind_apply]
    cases feed c l u1 <;> rfl

theorem feed_cons (c : α → JM σ β) (x : α) (l : List α) : feed c (x :: l) = (do
    let r ← c x
    let rs ← feed c l
    pure (r :: rs)) := rfl

theorem append {s : O} {g1 : List β → δ} {g : List β → γ} {c : α → JM σ β} {l1 l2 : List α} {w1 : JM (Beside σ O) δ}
    {w2 : δ → JM (Beside σ O) γ} {u : σ} (h1 : w1 ⟨s, u⟩ = out s g1 (feed c l1 u))
    (h2 : ∀ rs u1, w2 (g1 rs) ⟨s, u1⟩ = out s (fun rs' => g (rs ++ rs')) (feed c l2 u1)) :
    (w1 >>= w2) ⟨s, u⟩ = out s g (feed c (l1 ++ l2) u) := by
  have key : feed c (l1 ++ l2) u = (match feed c l1 u with
      | .ok rs u1 => (match feed c l2 u1 with | .ok rs' u2 => .ok (rs ++ rs') u2 | .err e u2 => .err e u2)
      | .err e u1 => .err e u1) := by
    clear h1 h2
    induction l1 generalizing u with
    | nil =>
      show feed c l2 u = match feed c l2 u with | .ok rs' u2 => .ok rs' u2 | .err e u2 => .err e u2
      cases feed c l2 u <;> rfl
    | cons x l ih =>
      show feed c (x :: (l ++ l2)) u = _
      rw [feed_cons, feed_cons]
      rw [JM.bind_apply, JM.bind_apply]
      cases c x u with
      | err e u1 => rfl
      | ok r u1 =>
        simp only
        rw [JM.bind_apply, JM.bind_apply, ih]
        cases feed c l u1 with
        | err e u2 => rfl
        | ok rs u2 =>
          simp only
          show _ = (match feed c l2 u2 with | .ok rs' u3 => Res.ok (r :: rs ++ rs') u3 | .err e u3 => .err e u3)
          cases feed c l2 u2 <;> rfl
  rw [JM.bind_apply, h1, key]
  cases feed c l1 u with
  | err e u1 => rfl
  | ok rs u1 =>
    show w2 (g1 rs) ⟨s, u1⟩ = _
    rw [h2]
    simp only
    cases feed c l2 u1 <;> rfl

theorem state_rd {arr : O → Arr α} {i : Int} {s t : O} {x : α} (h : rd arr i s = .ok x t) : t = s := by
  simp only [rd] at h
  split at h
  · injection h with _ h; exact h.symm
  · cases h

/-! ### deque -/

theorem inc_state {ref : Bool} {d : α} {p m r : Int} {s t : Deque α} (h : KeyDeque.inc ref d p m s = .ok r t) : t = s := by
  unfold KeyDeque.inc at h
  by_cases hm : i32 (p + 1) ≥ m
  · rw [if_pos (by simpa using hm)] at h; injection h with _ h; exact h.symm
  · rw [if_neg (by simpa using hm)] at h; injection h with _ h; exact h.symm

theorem dequeLoop (ref : Bool) (d : α) (c : α → JM σ β) : ∀ (n : Nat) (acc : List α) (pos : Int) (s t : Deque α)
    (r : List α × Int), KeyDeque.forEach_loop1 ref d pure n acc pos s = .ok r t →
    t = s ∧ ∃ l, r.1 = acc ++ l ∧ ∀ accE u, KeyDequeWalk.forEach_loop1 ref d (fun x => aside (c x)) n accE pos ⟨s, u⟩ =
      out s (fun rs => (accE ++ rs, r.2)) (feed c l u)
  | 0, _, _, _, _, _, h => by cases h
  | n + 1, acc, pos, s, t, r, h => by
    unfold KeyDeque.forEach_loop1 at h
    rw [JM.bind_ok (JM.get_apply s)] at h
    by_cases hp : pos = s.tail
    · rw [if_neg (by simp [hp])] at h
      injection h with h1 h2
      subst h1
      refine ⟨h2.symm, [], by simp, fun accE u => ?_⟩
      unfold KeyDequeWalk.forEach_loop1
      rw [JM.bind_ok (lift_ok (JM.get_apply s) u), if_neg (by simp [hp])]
      exact nil (by simp)
    · rw [if_pos (by simp [hp])] at h
      obtain ⟨v, s1, h1, h'⟩ := jm_bind_inv h
      clear h
      obtain rfl := state_rd h1
      have h := h'; clear h'
      rw [JM.bind_ok (JM.pure_apply v s1)] at h
      dsimp only at h
      rw [JM.bind_ok (JM.get_apply s1)] at h
      obtain ⟨p', s2, h2, h'⟩ := jm_bind_inv h
      clear h
      obtain rfl := inc_state h2
      have h := h'; clear h'
      obtain ⟨i1, l, i2, i3⟩ := dequeLoop ref d c n _ _ _ _ _ h
      refine ⟨i1, v :: l, by rw [i2]; simp, fun accE u => ?_⟩
      unfold KeyDequeWalk.forEach_loop1
      rw [JM.bind_ok (lift_ok (JM.get_apply s2) u), if_pos (by simp [hp]), JM.bind_ok (lift_ok h1 u)]
      refine cons fun rr u1 => ?_
      rw [JM.bind_ok (lift_ok (JM.get_apply s2) u1)]
      dsimp only
      rw [JM.bind_ok (lift_ok h2 u1), i3]
      simp

theorem deque {ref : Bool} {d : α} {fuel : Nat} {s t : Deque α} {l : List α}
    (h : KeyDeque.forEach ref d fuel pure s = .ok l t) (c : α → JM σ β) :
    HandsOut (KeyDequeWalk.forEach ref d fuel fun x => aside (c x)) s c l := by
  unfold KeyDeque.forEach at h
  rw [JM.bind_ok (JM.get_apply s)] at h
  obtain ⟨r, t1, h1, h⟩ := jm_bind_inv h
  obtain ⟨-, l', i2, i3⟩ := dequeLoop ref d c _ _ _ _ _ _ h1
  have h : Res.ok r.1 t1 = Res.ok l t := h
  injection h with h _
  intro u
  unfold KeyDequeWalk.forEach
  rw [JM.bind_ok (lift_ok (JM.get_apply s) u)]
  dsimp only
  rw [JM.bind_apply, i3, ← h, i2]
  simp only [List.nil_append]
  cases feed c l' u <;> rfl

/-! ### vector -/

theorem vecLoop (ref : Bool) (d : α) (c : α → JM σ β) : ∀ (n : Nat) (acc : List α) (i : Int) (s t : Vec α)
    (r : List α), KeyVector.forEach_loop1 ref d pure n acc i s = .ok r t →
    t = s ∧ ∃ l, r = acc ++ l ∧ ∀ accE u, KeyVectorWalk.forEach_loop1 ref d (fun x => aside (c x)) n accE i ⟨s, u⟩ =
      out s (fun rs => accE ++ rs) (feed c l u)
  | 0, _, _, _, _, _, h => by cases h
  | n + 1, acc, i, s, t, r, h => by
    unfold KeyVector.forEach_loop1 at h
    rw [JM.bind_ok (JM.get_apply s)] at h
    by_cases hp : i < s.size
    · rw [if_pos (by simp [hp])] at h
      obtain ⟨v, s1, h1, h'⟩ := jm_bind_inv h
      clear h
      obtain rfl := state_rd h1
      have h := h'; clear h'
      rw [JM.bind_ok (JM.pure_apply v s1)] at h
      dsimp only at h
      obtain ⟨i1, l, i2, i3⟩ := vecLoop ref d c n _ _ _ _ _ h
      refine ⟨i1, v :: l, by rw [i2]; simp, fun accE u => ?_⟩
      unfold KeyVectorWalk.forEach_loop1
      rw [JM.bind_ok (lift_ok (JM.get_apply s1) u), if_pos (by simp [hp]), JM.bind_ok (lift_ok h1 u)]
      refine cons fun rr u1 => ?_
      dsimp only
      rw [i3]
      simp
    · rw [if_neg (by simp [hp])] at h
      injection h with h1 h2
      subst h1
      refine ⟨h2.symm, [], by simp, fun accE u => ?_⟩
      unfold KeyVectorWalk.forEach_loop1
      rw [JM.bind_ok (lift_ok (JM.get_apply s) u), if_neg (by simp [hp])]
      exact nil (by simp)

theorem vector {ref : Bool} {d : α} {fuel : Nat} {s t : Vec α} {l : List α}
    (h : KeyVector.forEach ref d fuel pure s = .ok l t) (c : α → JM σ β) :
    HandsOut (KeyVectorWalk.forEach ref d fuel fun x => aside (c x)) s c l := by
  unfold KeyVector.forEach at h
  obtain ⟨-, l', i2, i3⟩ := vecLoop ref d c _ _ _ _ _ _ h
  intro u
  unfold KeyVectorWalk.forEach
  dsimp only
  rw [i3, i2]
  simp only [List.nil_append]
  cases feed c l' u <;> rfl

/-! ### heap -/
section Heap
variable {K V : Type} [BEq K] [BEq V]

theorem heapLoop (c : Int → JM σ β) : ∀ (n : Nat) (acc : List Int) (i : Int) (s t : Heap K V)
    (r : List Int), KeyValueHeap.forEachEntry_loop1 pure n acc i s = .ok r t →
    t = s ∧ ∃ l, r = acc ++ l ∧ ∀ accE u, KeyValueHeapWalk.forEachEntry_loop1 (fun x => aside (c x)) n accE i ⟨s, u⟩ =
      out s (fun rs => accE ++ rs) (feed c l u)
  | 0, _, _, _, _, _, h => by cases h
  | n + 1, acc, i, s, t, r, h => by
    unfold KeyValueHeap.forEachEntry_loop1 at h
    rw [JM.bind_ok (JM.get_apply s)] at h
    by_cases hp : i < s.size
    · rw [if_pos (by simp [hp])] at h
      obtain ⟨v, s1, h1, h⟩ := jm_bind_inv h
      have hs1 : s1 = s := by
        have := HeapL.isValid_state i s
        rw [← HeapL.isValid_eq, h1] at this
        exact this
      subst hs1
      cases v with
      | true =>
        rw [if_pos rfl, JM.bind_ok (a := acc ++ [i]) (s' := s1) rfl] at h
        dsimp only at h
        obtain ⟨i1, l, i2, i3⟩ := heapLoop c n _ _ _ _ _ h
        refine ⟨i1, i :: l, by rw [i2]; simp, fun accE u => ?_⟩
        unfold KeyValueHeapWalk.forEachEntry_loop1
        rw [JM.bind_ok (lift_ok (JM.get_apply s1) u), if_pos (by simp [hp]), JM.bind_ok (lift_ok h1 u), if_pos rfl, assoc]
        refine cons fun rr u1 => ?_
        dsimp only
        rw [JM.bind_ok (JM.pure_apply _ _), i3]
        simp
      | false =>
        rw [if_neg (by simp), JM.bind_ok (JM.pure_apply _ _)] at h
        dsimp only at h
        obtain ⟨i1, l, i2, i3⟩ := heapLoop c n _ _ _ _ _ h
        refine ⟨i1, l, i2, fun accE u => ?_⟩
        unfold KeyValueHeapWalk.forEachEntry_loop1
        rw [JM.bind_ok (lift_ok (JM.get_apply s1) u), if_pos (by simp [hp]), JM.bind_ok (lift_ok h1 u), if_neg (by simp),
          JM.bind_ok (JM.pure_apply _ _)]
        dsimp only
        rw [i3]
    · rw [if_neg (by simp [hp])] at h
      injection h with h1 h2
      subst h1
      refine ⟨h2.symm, [], by simp, fun accE u => ?_⟩
      unfold KeyValueHeapWalk.forEachEntry_loop1
      rw [JM.bind_ok (lift_ok (JM.get_apply s) u), if_neg (by simp [hp])]
      exact nil (by simp)

theorem heap {fuel : Nat} {s t : Heap K V} {l : List Int}
    (h : KeyValueHeap.forEachEntry fuel pure s = .ok l t) (c : Int → JM σ β) :
    HandsOut (KeyValueHeapWalk.forEachEntry fuel fun x => aside (c x)) s c l := by
  unfold KeyValueHeap.forEachEntry at h
  obtain ⟨-, l', i2, i3⟩ := heapLoop c _ _ _ _ _ _ h
  intro u
  unfold KeyValueHeapWalk.forEachEntry
  dsimp only
  rw [i3, i2]
  simp only [List.nil_append]
  cases feed c l' u <;> rfl

end Heap
/-! ### map and set -/
section Index
variable {K V : Type} [Inhabited K] [Inhabited V]

theorem map_forEachEntry_loop2 (c : Int → JM σ β) : ∀ (n : Nat) (acc : List Int) (hits e : Int) (s t : Index K V)
    (r : List Int × Int), KeyValueIndexedMap.forEachEntry_loop2 pure n acc hits e s = .ok r t →
    t = s ∧ ∃ l, r.1 = acc ++ l ∧ ∀ accE u, KeyValueIndexedMapWalk.forEachEntry_loop2 (fun x => aside (c x)) n accE hits e ⟨s, u⟩ =
      out s (fun rs => (accE ++ rs, r.2)) (feed c l u)
  | 0, _, _, _, _, _, _, h => by cases h
  | n + 1, acc, hits, e, s, t, r, h => by
    unfold KeyValueIndexedMap.forEachEntry_loop2 at h
    by_cases hp : e ≥ 0
    · rw [if_pos (by simp [hp])] at h
      obtain ⟨nx, s1, h1, h'⟩ := jm_bind_inv h
      clear h
      obtain rfl := state_rd h1
      have h := h'; clear h'
      dsimp only at h
      rw [JM.bind_ok (JM.pure_apply e s1)] at h
      obtain ⟨i1, l, i2, i3⟩ := map_forEachEntry_loop2 c n _ _ _ _ _ _ h
      refine ⟨i1, e :: l, by rw [i2]; simp, fun accE u => ?_⟩
      unfold KeyValueIndexedMapWalk.forEachEntry_loop2
      rw [if_pos (by simp [hp]), JM.bind_ok (lift_ok h1 u)]
      dsimp only
      refine cons fun rr u1 => ?_
      rw [i3]
      simp
    · rw [if_neg (by simp [hp])] at h
      injection h with h1 h2
      subst h1
      refine ⟨h2.symm, [], by simp, fun accE u => ?_⟩
      unfold KeyValueIndexedMapWalk.forEachEntry_loop2
      rw [if_neg (by simp [hp])]
      exact nil (by simp)

theorem map_forEachEntry_loop1 (c : Int → JM σ β) (fuel : Nat) (ex : Int) : ∀ (n : Nat) (acc : List Int) (hits head : Int)
    (s t : Index K V) (r : List Int × Int), KeyValueIndexedMap.forEachEntry_loop1 fuel pure ex n acc hits head s = .ok r t →
    t = s ∧ ∃ l, r.1 = acc ++ l ∧ ∀ accE u, KeyValueIndexedMapWalk.forEachEntry_loop1 fuel (fun x => aside (c x)) ex n accE hits head ⟨s, u⟩ =
      out s (fun rs => (accE ++ rs, r.2)) (feed c l u)
  | 0, _, _, _, _, _, _, h => by cases h
  | n + 1, acc, hits, head, s, t, r, h => by
    unfold KeyValueIndexedMap.forEachEntry_loop1 at h
    rw [JM.bind_ok (JM.get_apply s)] at h
    by_cases hp : head < (s.heads.len : Int) ∧ hits < ex
    · rw [if_pos (by simp [hp])] at h
      obtain ⟨e, s1, h1, h'⟩ := jm_bind_inv h
      clear h
      obtain rfl := state_rd h1
      have h := h'; clear h'
      dsimp only at h
      obtain ⟨r2, s2, h2, h'⟩ := jm_bind_inv h
      clear h
      obtain ⟨rfl, l1, j2, j3⟩ := map_forEachEntry_loop2 c _ _ _ _ _ _ _ h2
      have h := h'; clear h'
      obtain ⟨i1, l, i2, i3⟩ := map_forEachEntry_loop1 c fuel ex n _ _ _ _ _ _ h
      refine ⟨i1, l1 ++ l, by rw [i2, j2]; simp, fun accE u => ?_⟩
      unfold KeyValueIndexedMapWalk.forEachEntry_loop1
      rw [JM.bind_ok (lift_ok (JM.get_apply s2) u), if_pos (by simp [hp]), JM.bind_ok (lift_ok h1 u)]
      dsimp only
      refine append (j3 accE u) fun rs u1 => ?_
      dsimp only
      rw [i3]
      simp
    · rw [if_neg (by simpa using hp)] at h
      injection h with h1 h2
      subst h1
      refine ⟨h2.symm, [], by simp, fun accE u => ?_⟩
      unfold KeyValueIndexedMapWalk.forEachEntry_loop1
      rw [JM.bind_ok (lift_ok (JM.get_apply s) u), if_neg (by simpa using hp)]
      exact nil (by simp)

theorem map_forEachEntry {fuel : Nat} {s t : Index K V} {l : List Int}
    (h : KeyValueIndexedMap.forEachEntry fuel pure s = .ok l t) (c : Int → JM σ β) :
    HandsOut (KeyValueIndexedMapWalk.forEachEntry fuel fun x => aside (c x)) s c l := by
  unfold KeyValueIndexedMap.forEachEntry at h
  dsimp only at h
  rw [JM.bind_ok (JM.get_apply s)] at h
  intro u
  unfold KeyValueIndexedMapWalk.forEachEntry
  dsimp only
  rw [JM.bind_ok (lift_ok (JM.get_apply s) u)]
  by_cases hp : s.size = 0
  · rw [if_pos (by simp [hp])] at h ⊢
    injection h with h _
    subst h
    rfl
  · rw [if_neg (by simp [hp])] at h ⊢
    obtain ⟨r, t1, h1, h⟩ := jm_bind_inv h
    obtain ⟨-, l', i2, i3⟩ := map_forEachEntry_loop1 c _ _ _ _ _ _ _ _ _ h1
    have h : Res.ok r.1 t1 = Res.ok l t := h
    injection h with h _
    rw [JM.bind_apply, i3, ← h, i2]
    simp only [List.nil_append]
    cases feed c l' u <;> rfl

theorem map_forEach_loop2 (c : K → JM σ β) : ∀ (n : Nat) (acc : List K) (hits e : Int) (s t : Index K V)
    (r : List K × Int), KeyValueIndexedMap.forEach_loop2 pure n acc hits e s = .ok r t →
    t = s ∧ ∃ l, r.1 = acc ++ l ∧ ∀ accE u, KeyValueIndexedMapWalk.forEach_loop2 (fun x => aside (c x)) n accE hits e ⟨s, u⟩ =
      out s (fun rs => (accE ++ rs, r.2)) (feed c l u)
  | 0, _, _, _, _, _, _, h => by cases h
  | n + 1, acc, hits, e, s, t, r, h => by
    unfold KeyValueIndexedMap.forEach_loop2 at h
    by_cases hp : e ≥ 0
    · rw [if_pos (by simp [hp])] at h
      obtain ⟨nx, s1, h1, h'⟩ := jm_bind_inv h
      clear h
      obtain rfl := state_rd h1
      have h := h'; clear h'
      dsimp only at h
      obtain ⟨v, s2, h2, h'⟩ := jm_bind_inv h
      clear h
      obtain rfl := state_rd h2
      have h := h'; clear h'
      rw [JM.bind_ok (JM.pure_apply v s2)] at h
      obtain ⟨i1, l, i2, i3⟩ := map_forEach_loop2 c n _ _ _ _ _ _ h
      refine ⟨i1, v :: l, by rw [i2]; simp, fun accE u => ?_⟩
      unfold KeyValueIndexedMapWalk.forEach_loop2
      rw [if_pos (by simp [hp]), JM.bind_ok (lift_ok h1 u)]
      dsimp only
      rw [JM.bind_ok (lift_ok h2 u)]
      refine cons fun rr u1 => ?_
      rw [i3]
      simp
    · rw [if_neg (by simp [hp])] at h
      injection h with h1 h2
      subst h1
      refine ⟨h2.symm, [], by simp, fun accE u => ?_⟩
      unfold KeyValueIndexedMapWalk.forEach_loop2
      rw [if_neg (by simp [hp])]
      exact nil (by simp)

theorem map_forEach_loop1 (c : K → JM σ β) (fuel : Nat) (ex : Int) : ∀ (n : Nat) (acc : List K) (hits head : Int)
    (s t : Index K V) (r : List K × Int), KeyValueIndexedMap.forEach_loop1 fuel pure ex n acc hits head s = .ok r t →
    t = s ∧ ∃ l, r.1 = acc ++ l ∧ ∀ accE u, KeyValueIndexedMapWalk.forEach_loop1 fuel (fun x => aside (c x)) ex n accE hits head ⟨s, u⟩ =
      out s (fun rs => (accE ++ rs, r.2)) (feed c l u)
  | 0, _, _, _, _, _, _, h => by cases h
  | n + 1, acc, hits, head, s, t, r, h => by
    unfold KeyValueIndexedMap.forEach_loop1 at h
    rw [JM.bind_ok (JM.get_apply s)] at h
    by_cases hp : head < (s.heads.len : Int) ∧ hits < ex
    · rw [if_pos (by simp [hp])] at h
      obtain ⟨e, s1, h1, h'⟩ := jm_bind_inv h
      clear h
      obtain rfl := state_rd h1
      have h := h'; clear h'
      dsimp only at h
      obtain ⟨r2, s2, h2, h'⟩ := jm_bind_inv h
      clear h
      obtain ⟨rfl, l1, j2, j3⟩ := map_forEach_loop2 c _ _ _ _ _ _ _ h2
      have h := h'; clear h'
      obtain ⟨i1, l, i2, i3⟩ := map_forEach_loop1 c fuel ex n _ _ _ _ _ _ h
      refine ⟨i1, l1 ++ l, by rw [i2, j2]; simp, fun accE u => ?_⟩
      unfold KeyValueIndexedMapWalk.forEach_loop1
      rw [JM.bind_ok (lift_ok (JM.get_apply s2) u), if_pos (by simp [hp]), JM.bind_ok (lift_ok h1 u)]
      dsimp only
      refine append (j3 accE u) fun rs u1 => ?_
      dsimp only
      rw [i3]
      simp
    · rw [if_neg (by simpa using hp)] at h
      injection h with h1 h2
      subst h1
      refine ⟨h2.symm, [], by simp, fun accE u => ?_⟩
      unfold KeyValueIndexedMapWalk.forEach_loop1
      rw [JM.bind_ok (lift_ok (JM.get_apply s) u), if_neg (by simpa using hp)]
      exact nil (by simp)

theorem map_forEach {fuel : Nat} {s t : Index K V} {l : List K}
    (h : KeyValueIndexedMap.forEach fuel pure s = .ok l t) (c : K → JM σ β) :
    HandsOut (KeyValueIndexedMapWalk.forEach fuel fun x => aside (c x)) s c l := by
  unfold KeyValueIndexedMap.forEach at h
  dsimp only at h
  rw [JM.bind_ok (JM.get_apply s)] at h
  intro u
  unfold KeyValueIndexedMapWalk.forEach
  dsimp only
  rw [JM.bind_ok (lift_ok (JM.get_apply s) u)]
  by_cases hp : s.size = 0
  · rw [if_pos (by simp [hp])] at h ⊢
    injection h with h _
    subst h
    rfl
  · rw [if_neg (by simp [hp])] at h ⊢
    obtain ⟨r, t1, h1, h⟩ := jm_bind_inv h
    obtain ⟨-, l', i2, i3⟩ := map_forEach_loop1 c _ _ _ _ _ _ _ _ _ h1
    have h : Res.ok r.1 t1 = Res.ok l t := h
    injection h with h _
    rw [JM.bind_apply, i3, ← h, i2]
    simp only [List.nil_append]
    cases feed c l' u <;> rfl

theorem map_forEachValue_loop2 (c : V → JM σ β) : ∀ (n : Nat) (acc : List V) (hits e : Int) (s t : Index K V)
    (r : List V × Int), KeyValueIndexedMap.forEachValue_loop2 pure n acc hits e s = .ok r t →
    t = s ∧ ∃ l, r.1 = acc ++ l ∧ ∀ accE u, KeyValueIndexedMapWalk.forEachValue_loop2 (fun x => aside (c x)) n accE hits e ⟨s, u⟩ =
      out s (fun rs => (accE ++ rs, r.2)) (feed c l u)
  | 0, _, _, _, _, _, _, h => by cases h
  | n + 1, acc, hits, e, s, t, r, h => by
    unfold KeyValueIndexedMap.forEachValue_loop2 at h
    by_cases hp : e ≥ 0
    · rw [if_pos (by simp [hp])] at h
      obtain ⟨nx, s1, h1, h'⟩ := jm_bind_inv h
      clear h
      obtain rfl := state_rd h1
      have h := h'; clear h'
      dsimp only at h
      obtain ⟨v, s2, h2, h'⟩ := jm_bind_inv h
      clear h
      obtain rfl := state_rd h2
      have h := h'; clear h'
      rw [JM.bind_ok (JM.pure_apply v s2)] at h
      obtain ⟨i1, l, i2, i3⟩ := map_forEachValue_loop2 c n _ _ _ _ _ _ h
      refine ⟨i1, v :: l, by rw [i2]; simp, fun accE u => ?_⟩
      unfold KeyValueIndexedMapWalk.forEachValue_loop2
      rw [if_pos (by simp [hp]), JM.bind_ok (lift_ok h1 u)]
      dsimp only
      rw [JM.bind_ok (lift_ok h2 u)]
      refine cons fun rr u1 => ?_
      rw [i3]
      simp
    · rw [if_neg (by simp [hp])] at h
      injection h with h1 h2
      subst h1
      refine ⟨h2.symm, [], by simp, fun accE u => ?_⟩
      unfold KeyValueIndexedMapWalk.forEachValue_loop2
      rw [if_neg (by simp [hp])]
      exact nil (by simp)

theorem map_forEachValue_loop1 (c : V → JM σ β) (fuel : Nat) (ex : Int) : ∀ (n : Nat) (acc : List V) (hits head : Int)
    (s t : Index K V) (r : List V × Int), KeyValueIndexedMap.forEachValue_loop1 fuel pure ex n acc hits head s = .ok r t →
    t = s ∧ ∃ l, r.1 = acc ++ l ∧ ∀ accE u, KeyValueIndexedMapWalk.forEachValue_loop1 fuel (fun x => aside (c x)) ex n accE hits head ⟨s, u⟩ =
      out s (fun rs => (accE ++ rs, r.2)) (feed c l u)
  | 0, _, _, _, _, _, _, h => by cases h
  | n + 1, acc, hits, head, s, t, r, h => by
    unfold KeyValueIndexedMap.forEachValue_loop1 at h
    rw [JM.bind_ok (JM.get_apply s)] at h
    by_cases hp : head < (s.heads.len : Int) ∧ hits < ex
    · rw [if_pos (by simp [hp])] at h
      obtain ⟨e, s1, h1, h'⟩ := jm_bind_inv h
      clear h
      obtain rfl := state_rd h1
      have h := h'; clear h'
      dsimp only at h
      obtain ⟨r2, s2, h2, h'⟩ := jm_bind_inv h
      clear h
      obtain ⟨rfl, l1, j2, j3⟩ := map_forEachValue_loop2 c _ _ _ _ _ _ _ h2
      have h := h'; clear h'
      obtain ⟨i1, l, i2, i3⟩ := map_forEachValue_loop1 c fuel ex n _ _ _ _ _ _ h
      refine ⟨i1, l1 ++ l, by rw [i2, j2]; simp, fun accE u => ?_⟩
      unfold KeyValueIndexedMapWalk.forEachValue_loop1
      rw [JM.bind_ok (lift_ok (JM.get_apply s2) u), if_pos (by simp [hp]), JM.bind_ok (lift_ok h1 u)]
      dsimp only
      refine append (j3 accE u) fun rs u1 => ?_
      dsimp only
      rw [i3]
      simp
    · rw [if_neg (by simpa using hp)] at h
      injection h with h1 h2
      subst h1
      refine ⟨h2.symm, [], by simp, fun accE u => ?_⟩
      unfold KeyValueIndexedMapWalk.forEachValue_loop1
      rw [JM.bind_ok (lift_ok (JM.get_apply s) u), if_neg (by simpa using hp)]
      exact nil (by simp)

theorem map_forEachValue {fuel : Nat} {s t : Index K V} {l : List V}
    (h : KeyValueIndexedMap.forEachValue fuel pure s = .ok l t) (c : V → JM σ β) :
    HandsOut (KeyValueIndexedMapWalk.forEachValue fuel fun x => aside (c x)) s c l := by
  unfold KeyValueIndexedMap.forEachValue at h
  dsimp only at h
  rw [JM.bind_ok (JM.get_apply s)] at h
  intro u
  unfold KeyValueIndexedMapWalk.forEachValue
  dsimp only
  rw [JM.bind_ok (lift_ok (JM.get_apply s) u)]
  by_cases hp : s.size = 0
  · rw [if_pos (by simp [hp])] at h ⊢
    injection h with h _
    subst h
    rfl
  · rw [if_neg (by simp [hp])] at h ⊢
    obtain ⟨r, t1, h1, h⟩ := jm_bind_inv h
    obtain ⟨-, l', i2, i3⟩ := map_forEachValue_loop1 c _ _ _ _ _ _ _ _ _ h1
    have h : Res.ok r.1 t1 = Res.ok l t := h
    injection h with h _
    rw [JM.bind_apply, i3, ← h, i2]
    simp only [List.nil_append]
    cases feed c l' u <;> rfl

theorem set_forEachEntry_loop2 (c : Int → JM σ β) : ∀ (n : Nat) (acc : List Int) (hits e : Int) (s t : Index K V)
    (r : List Int × Int), KeyIndexedSet.forEachEntry_loop2 pure n acc hits e s = .ok r t →
    t = s ∧ ∃ l, r.1 = acc ++ l ∧ ∀ accE u, KeyIndexedSetWalk.forEachEntry_loop2 (fun x => aside (c x)) n accE hits e ⟨s, u⟩ =
      out s (fun rs => (accE ++ rs, r.2)) (feed c l u)
  | 0, _, _, _, _, _, _, h => by cases h
  | n + 1, acc, hits, e, s, t, r, h => by
    unfold KeyIndexedSet.forEachEntry_loop2 at h
    by_cases hp : e ≥ 0
    · rw [if_pos (by simp [hp])] at h
      obtain ⟨nx, s1, h1, h'⟩ := jm_bind_inv h
      clear h
      obtain rfl := state_rd h1
      have h := h'; clear h'
      dsimp only at h
      rw [JM.bind_ok (JM.pure_apply e s1)] at h
      obtain ⟨i1, l, i2, i3⟩ := set_forEachEntry_loop2 c n _ _ _ _ _ _ h
      refine ⟨i1, e :: l, by rw [i2]; simp, fun accE u => ?_⟩
      unfold KeyIndexedSetWalk.forEachEntry_loop2
      rw [if_pos (by simp [hp]), JM.bind_ok (lift_ok h1 u)]
      dsimp only
      refine cons fun rr u1 => ?_
      rw [i3]
      simp
    · rw [if_neg (by simp [hp])] at h
      injection h with h1 h2
      subst h1
      refine ⟨h2.symm, [], by simp, fun accE u => ?_⟩
      unfold KeyIndexedSetWalk.forEachEntry_loop2
      rw [if_neg (by simp [hp])]
      exact nil (by simp)

theorem set_forEachEntry_loop1 (c : Int → JM σ β) (fuel : Nat) (ex : Int) : ∀ (n : Nat) (acc : List Int) (hits head : Int)
    (s t : Index K V) (r : List Int × Int), KeyIndexedSet.forEachEntry_loop1 fuel pure ex n acc hits head s = .ok r t →
    t = s ∧ ∃ l, r.1 = acc ++ l ∧ ∀ accE u, KeyIndexedSetWalk.forEachEntry_loop1 fuel (fun x => aside (c x)) ex n accE hits head ⟨s, u⟩ =
      out s (fun rs => (accE ++ rs, r.2)) (feed c l u)
  | 0, _, _, _, _, _, _, h => by cases h
  | n + 1, acc, hits, head, s, t, r, h => by
    unfold KeyIndexedSet.forEachEntry_loop1 at h
    rw [JM.bind_ok (JM.get_apply s)] at h
    by_cases hp : head < (s.heads.len : Int) ∧ hits < ex
    · rw [if_pos (by simp [hp])] at h
      obtain ⟨e, s1, h1, h'⟩ := jm_bind_inv h
      clear h
      obtain rfl := state_rd h1
      have h := h'; clear h'
      dsimp only at h
      obtain ⟨r2, s2, h2, h'⟩ := jm_bind_inv h
      clear h
      obtain ⟨rfl, l1, j2, j3⟩ := set_forEachEntry_loop2 c _ _ _ _ _ _ _ h2
      have h := h'; clear h'
      obtain ⟨i1, l, i2, i3⟩ := set_forEachEntry_loop1 c fuel ex n _ _ _ _ _ _ h
      refine ⟨i1, l1 ++ l, by rw [i2, j2]; simp, fun accE u => ?_⟩
      unfold KeyIndexedSetWalk.forEachEntry_loop1
      rw [JM.bind_ok (lift_ok (JM.get_apply s2) u), if_pos (by simp [hp]), JM.bind_ok (lift_ok h1 u)]
      dsimp only
      refine append (j3 accE u) fun rs u1 => ?_
      dsimp only
      rw [i3]
      simp
    · rw [if_neg (by simpa using hp)] at h
      injection h with h1 h2
      subst h1
      refine ⟨h2.symm, [], by simp, fun accE u => ?_⟩
      unfold KeyIndexedSetWalk.forEachEntry_loop1
      rw [JM.bind_ok (lift_ok (JM.get_apply s) u), if_neg (by simpa using hp)]
      exact nil (by simp)

theorem set_forEachEntry {fuel : Nat} {s t : Index K V} {l : List Int}
    (h : KeyIndexedSet.forEachEntry fuel pure s = .ok l t) (c : Int → JM σ β) :
    HandsOut (KeyIndexedSetWalk.forEachEntry fuel fun x => aside (c x)) s c l := by
  unfold KeyIndexedSet.forEachEntry at h
  dsimp only at h
  rw [JM.bind_ok (JM.get_apply s)] at h
  intro u
  unfold KeyIndexedSetWalk.forEachEntry
  dsimp only
  rw [JM.bind_ok (lift_ok (JM.get_apply s) u)]
  by_cases hp : s.size = 0
  · rw [if_pos (by simp [hp])] at h ⊢
    injection h with h _
    subst h
    rfl
  · rw [if_neg (by simp [hp])] at h ⊢
    obtain ⟨r, t1, h1, h⟩ := jm_bind_inv h
    obtain ⟨-, l', i2, i3⟩ := set_forEachEntry_loop1 c _ _ _ _ _ _ _ _ _ h1
    have h : Res.ok r.1 t1 = Res.ok l t := h
    injection h with h _
    rw [JM.bind_apply, i3, ← h, i2]
    simp only [List.nil_append]
    cases feed c l' u <;> rfl

theorem set_forEach_loop2 (c : K → JM σ β) : ∀ (n : Nat) (acc : List K) (hits e : Int) (s t : Index K V)
    (r : List K × Int), KeyIndexedSet.forEach_loop2 pure n acc hits e s = .ok r t →
    t = s ∧ ∃ l, r.1 = acc ++ l ∧ ∀ accE u, KeyIndexedSetWalk.forEach_loop2 (fun x => aside (c x)) n accE hits e ⟨s, u⟩ =
      out s (fun rs => (accE ++ rs, r.2)) (feed c l u)
  | 0, _, _, _, _, _, _, h => by cases h
  | n + 1, acc, hits, e, s, t, r, h => by
    unfold KeyIndexedSet.forEach_loop2 at h
    by_cases hp : e ≥ 0
    · rw [if_pos (by simp [hp])] at h
      obtain ⟨nx, s1, h1, h'⟩ := jm_bind_inv h
      clear h
      obtain rfl := state_rd h1
      have h := h'; clear h'
      dsimp only at h
      obtain ⟨v, s2, h2, h'⟩ := jm_bind_inv h
      clear h
      obtain rfl := state_rd h2
      have h := h'; clear h'
      rw [JM.bind_ok (JM.pure_apply v s2)] at h
      obtain ⟨i1, l, i2, i3⟩ := set_forEach_loop2 c n _ _ _ _ _ _ h
      refine ⟨i1, v :: l, by rw [i2]; simp, fun accE u => ?_⟩
      unfold KeyIndexedSetWalk.forEach_loop2
      rw [if_pos (by simp [hp]), JM.bind_ok (lift_ok h1 u)]
      dsimp only
      rw [JM.bind_ok (lift_ok h2 u)]
      refine cons fun rr u1 => ?_
      rw [i3]
      simp
    · rw [if_neg (by simp [hp])] at h
      injection h with h1 h2
      subst h1
      refine ⟨h2.symm, [], by simp, fun accE u => ?_⟩
      unfold KeyIndexedSetWalk.forEach_loop2
      rw [if_neg (by simp [hp])]
      exact nil (by simp)

theorem set_forEach_loop1 (c : K → JM σ β) (fuel : Nat) (ex : Int) : ∀ (n : Nat) (acc : List K) (hits head : Int)
    (s t : Index K V) (r : List K × Int), KeyIndexedSet.forEach_loop1 fuel pure ex n acc hits head s = .ok r t →
    t = s ∧ ∃ l, r.1 = acc ++ l ∧ ∀ accE u, KeyIndexedSetWalk.forEach_loop1 fuel (fun x => aside (c x)) ex n accE hits head ⟨s, u⟩ =
      out s (fun rs => (accE ++ rs, r.2)) (feed c l u)
  | 0, _, _, _, _, _, _, h => by cases h
  | n + 1, acc, hits, head, s, t, r, h => by
    unfold KeyIndexedSet.forEach_loop1 at h
    rw [JM.bind_ok (JM.get_apply s)] at h
    by_cases hp : head < (s.heads.len : Int) ∧ hits < ex
    · rw [if_pos (by simp [hp])] at h
      obtain ⟨e, s1, h1, h'⟩ := jm_bind_inv h
      clear h
      obtain rfl := state_rd h1
      have h := h'; clear h'
      dsimp only at h
      obtain ⟨r2, s2, h2, h'⟩ := jm_bind_inv h
      clear h
      obtain ⟨rfl, l1, j2, j3⟩ := set_forEach_loop2 c _ _ _ _ _ _ _ h2
      have h := h'; clear h'
      obtain ⟨i1, l, i2, i3⟩ := set_forEach_loop1 c fuel ex n _ _ _ _ _ _ h
      refine ⟨i1, l1 ++ l, by rw [i2, j2]; simp, fun accE u => ?_⟩
      unfold KeyIndexedSetWalk.forEach_loop1
      rw [JM.bind_ok (lift_ok (JM.get_apply s2) u), if_pos (by simp [hp]), JM.bind_ok (lift_ok h1 u)]
      dsimp only
      refine append (j3 accE u) fun rs u1 => ?_
      dsimp only
      rw [i3]
      simp
    · rw [if_neg (by simpa using hp)] at h
      injection h with h1 h2
      subst h1
      refine ⟨h2.symm, [], by simp, fun accE u => ?_⟩
      unfold KeyIndexedSetWalk.forEach_loop1
      rw [JM.bind_ok (lift_ok (JM.get_apply s) u), if_neg (by simpa using hp)]
      exact nil (by simp)

theorem set_forEach {fuel : Nat} {s t : Index K V} {l : List K}
    (h : KeyIndexedSet.forEach fuel pure s = .ok l t) (c : K → JM σ β) :
    HandsOut (KeyIndexedSetWalk.forEach fuel fun x => aside (c x)) s c l := by
  unfold KeyIndexedSet.forEach at h
  dsimp only at h
  rw [JM.bind_ok (JM.get_apply s)] at h
  intro u
  unfold KeyIndexedSetWalk.forEach
  dsimp only
  rw [JM.bind_ok (lift_ok (JM.get_apply s) u)]
  by_cases hp : s.size = 0
  · rw [if_pos (by simp [hp])] at h ⊢
    injection h with h _
    subst h
    rfl
  · rw [if_neg (by simp [hp])] at h ⊢
    obtain ⟨r, t1, h1, h⟩ := jm_bind_inv h
    obtain ⟨-, l', i2, i3⟩ := set_forEach_loop1 c _ _ _ _ _ _ _ _ _ h1
    have h : Res.ok r.1 t1 = Res.ok l t := h
    injection h with h _
    rw [JM.bind_apply, i3, ← h, i2]
    simp only [List.nil_append]
    cases feed c l' u <;> rfl

end Index
end Verif.Link.WalkL

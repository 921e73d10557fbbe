import Verif.Spec.Script
import Verif.Link.WalkProps
import Verif.Link.HeapCallbacks
/-! C113: consumers that keep a state, call back, look at the answers and throw, on the generated walks. -/
set_option linter.unusedSectionVars false
namespace Verif
open ScriptSpec
variable {op res σ α A O : Type}

namespace Link.ScriptL
open Verif.Walk

/-- A script on the real collection ends as it is sure to on the ideal contents. -/
theorem play_spec {R : O → A → Prop} {may : op → A → Prop} {can : op → A → Except Err res → A → Prop}
    {step : op → JM O res}
    (hstep : ∀ o s a, R s a → may o a → ∃ b, can o a (step o s).out b ∧ R (step o s).state b)
    {Q : Except Err Unit → σ → A → Prop} :
    ∀ (p : Script op res σ) (s : O) (a : A) (u0 : σ), R s a → Script.sure may can Q p a →
    ∃ r u s' b, Ended (p.play step ⟨s, u0⟩) r ⟨s', u⟩ ∧ R s' b ∧ Q r u b
  | .done u, s, a, u0, h, hs => ⟨.ok (), u, s, a, ⟨(), rfl⟩, h, hs⟩
  | .fail e u, s, a, u0, h, hs => ⟨.error e, u, s, a, rfl, h, hs⟩
  | .call o next, s, a, u0, h, hs => by
    obtain ⟨b, h1, h2⟩ := hstep o s a h hs.1
    exact play_spec hstep (next (step o s).out) _ b u0 h2 (hs.2 _ b h1)

/-- After the consumer: go on, or pass on its exception. -/
def proceed {τ γ : Type} (r : Except Err Unit) (w : Res τ γ) (t : τ) : Res τ γ :=
  match r with
  | .ok _ => w
  | .error e => .err e t

/-- The consumer in a walk: it either throws, and the walk with it, or returns. -/
theorem consumer_cases {γ : Type} {step : op → JM O res} {c : α → σ → Script op res σ} {v : α} {s s' : O} {u u' : σ}
    {r : Except Err Unit} (h : Ended ((c v u).play step ⟨s, u⟩) r ⟨s', u'⟩) (w : Unit → JM (Beside σ O) γ) :
    (consumer step c v >>= w) ⟨s, u⟩ = proceed r (w () ⟨s', u'⟩) ⟨s', u'⟩ := by
  have e : consumer step c v (⟨s, u⟩ : Beside σ O) = (c v u).play step ⟨s, u⟩ := rfl
  cases r with
  | ok x =>
    obtain ⟨b, hb⟩ := h
    rw [JM.bind_apply, e, hb]; rfl
  | error x =>
    have h : (c v u).play step ⟨s, u⟩ = .err x ⟨s', u'⟩ := h
    rw [JM.bind_apply, e, h]; rfl

theorem lift_get (t : Beside σ O) : lift get t = .ok t.obj t := rfl

end Link.ScriptL

/-! ### vector -/

namespace Link.Vec
open VecSpec Verif.Vec Verif.Walk Link.ScriptL Link.WalkL

theorem script_step {ref : Bool} {d : α} {fuel : Nat} (hf : 2 ^ 31 ≤ fuel) (o : Op α) (s : Vec α) (a : Nat × List α)
    (h : Inv ref d s a.2 ∧ a.2.length ≤ 2 ^ 30) (hm : Legal o a.2) :
    ∃ b, vectorCan o a (step fuel ref d o s).out b ∧
      (Inv ref d (step fuel ref d o s).state b.2 ∧ b.2.length ≤ 2 ^ 30) ∧ b.1 = a.1 := by
  have e : step fuel ref d o s = Verif.Vec.step ref d o s := step_eq fuel ref d (by
    have h1 := h.1.size
    have h2 := h.1.pos
    have h3 := h.2
    constructor <;> omega) hf o
  obtain ⟨h1, h2⟩ := step_spec_small ref d s a.2 o h hm
  rw [e]
  exact ⟨_, ⟨h1, rfl⟩, h2, rfl⟩

theorem script_loop {ref : Bool} {d : α} {c : α → σ → Script (Op α) (Out α) σ}
    {P : Except Err Unit → σ → Nat × List α → Prop} {a : Nat × List α} {u : σ} {fuel' : Nat} (hf' : 2 ^ 31 ≤ fuel')
    (hw : Sure (fun o a => Legal o a.2) vectorCan vectorMove c P a u) :
    ∀ {s : Vec α}, Inv ref d s a.2 ∧ a.2.length ≤ 2 ^ 30 → ∃ r u' b s', (∃ n, ∀ fuel, n ≤ fuel → ∀ acc,
      Ended (Gen.KeyVectorWalk.forEach_loop1 ref d (consumer (step fuel' ref d) c) fuel acc a.1 ⟨s, u⟩) r ⟨s', u'⟩) ∧
        (Inv ref d s' b.2 ∧ b.2.length ≤ 2 ^ 30) ∧ P r u' b := by
  induction hw with
  | @done a u hm hp =>
    intro s h
    refine ⟨.ok (), u, a, s, ⟨1, fun fuel hf acc => ?_⟩, h, hp⟩
    obtain ⟨k, rfl⟩ : ∃ k, fuel = k + 1 := ⟨fuel - 1, by omega⟩
    have hi : a.2.length ≤ a.1 := by simpa [vectorMove] using hm
    refine ⟨acc, ?_⟩
    rw [Gen.KeyVectorWalk.forEach_loop1, JM.bind_ok (lift_get _), if_neg (by have := h.1.size; simp; omega)]; rfl
  | skip hm _ _ => simp [vectorMove] at hm
  | @step a b u v Q hm hs he _ ih =>
    intro s h
    simp only [vectorMove, Option.map_eq_some_iff, Prod.mk.injEq, Option.some.injEq] at hm
    obtain ⟨v', hv, rfl, rfl⟩ := hm
    have hil : a.1 < a.2.length := (List.getElem?_eq_some_iff.1 hv).1
    have hv' := h.1.vals a.1 hil
    rw [hv] at hv'
    simp only [Option.some.injEq] at hv'
    have h1 := h.1.size
    have h2 := h.1.room
    have h3 := h.2
    have e : i32 ((a.1 : Int) + 1) = ((a.1 + 1 : Nat) : Int) := by rw [i32_of_range (by omega)]; omega
    obtain ⟨r, u', s', b', p1, ⟨p2, p3⟩, p4⟩ := play_spec
      (R := fun s b => (Inv ref d s b.2 ∧ b.2.length ≤ 2 ^ 30) ∧ b.1 = a.1 + 1)
      (step := step fuel' ref d)
      (fun o s b h hm => by
        obtain ⟨b', q1, q2, q3⟩ := script_step (fuel := fuel') hf' o s b h.1 hm
        exact ⟨b', q1, q2, q3.trans h.2⟩) (c v' u) s (a.1 + 1, a.2) u ⟨h, rfl⟩ hs
    have unroll : ∀ k acc, Gen.KeyVectorWalk.forEach_loop1 ref d (consumer (step fuel' ref d) c) (k + 1) acc a.1 ⟨s, u⟩ =
        proceed r (Gen.KeyVectorWalk.forEach_loop1 ref d (consumer (step fuel' ref d) c) k (acc ++ [()]) (a.1 + 1 : Nat)
          ⟨s', u'⟩) ⟨s', u'⟩ := by
      intro k acc
      rw [Gen.KeyVectorWalk.forEach_loop1, JM.bind_ok (lift_get _), if_pos (by simp; omega),
        JM.bind_ok (lift_ok (rd_ok Vec.values (by omega)) u), ← hv', consumer_cases p1]
      simp only [e]
    cases r with
    | error x =>
      refine ⟨.error x, u', b', s', ⟨1, fun fuel hf acc => ?_⟩, p2, he _ _ _ p4⟩
      obtain ⟨k, rfl⟩ : ∃ k, fuel = k + 1 := ⟨fuel - 1, by omega⟩
      exact unroll k acc
    | ok x =>
      obtain ⟨r, u2, b2, s2, ⟨n, hn⟩, q2, q3⟩ := ih u' b' p4 p2
      refine ⟨r, u2, b2, s2, ⟨n + 1, fun fuel hf acc => ?_⟩, q2, q3⟩
      obtain ⟨k, rfl⟩ : ∃ k, fuel = k + 1 := ⟨fuel - 1, by omega⟩
      rw [unroll k acc, ← p3]
      exact hn k (by omega) _

end Link.Vec

/-- C113, vector: let the walk over the ideal list, with the consumer `c`, be sure to end as `P` says (how it ended, the
state of the consumer, the elements).  Then the generated `forEach` ends like that, from any vector made by the
constructor and a history, and the vector answers every further history like those elements. -/
theorem C113_generated_vector (ref : Bool) (d : α) (c0 : Int) (z s0 : Vec α) (x : Unit)
    (hnew : Gen.KeyVector.init ref d c0 z = .ok x s0)
    (ops : List (Vec.Op α)) (hb : Allowed VecSpec.step VecSpec.Legal [] ops)
    (c : α → σ → Script (Vec.Op α) (Vec.Out α) σ) (u : σ) (P : Except Err Unit → σ → Nat × List α → Prop)
    (hw : Sure (fun o a => VecSpec.Legal o a.2) vectorCan vectorMove c P (0, (runS VecSpec.step [] ops).2) u)
    (calls : Nat) (hc : 2 ^ 31 ≤ calls) :
    ∃ r u' b s', P r u' b ∧ (∃ n, ∀ fuel, n ≤ fuel →
      Ended (Gen.KeyVectorWalk.forEach ref d fuel (consumer (Link.Vec.step calls ref d) c)
        ⟨(runM (Link.Vec.step calls ref d) s0 ops).2, u⟩) r ⟨s', u'⟩) ∧
      ∀ more : List (Vec.Op α), Allowed VecSpec.step VecSpec.Legal b.2 more →
        (runM (Link.Vec.step calls ref d) s' more).1 = (runS VecSpec.step b.2 more).1 := by
  have hm := Link.Vec.made hnew
  have h0 : Vec.Inv ref d s0 [] ∧ ([] : List α).length ≤ 2 ^ 30 := ⟨Vec.inv_new (ref := ref) hm, by simp⟩
  have hi := (runM_refines (Link.Vec.step_spec_small ref d) ops s0 [] h0 hb).2
  obtain ⟨r, u', b, s', ⟨n, hn⟩, q2, q3⟩ := Link.Vec.script_loop (ref := ref) (d := d) hc hw hi
  refine ⟨r, u', b, s', q3, ⟨n, fun fuel hf => ?_⟩, fun more hb' => ?_⟩
  · rw [Link.Vec.history_eq calls hc ref d c0 s0 hm ops hb]
    have := hn fuel hf []
    unfold Gen.KeyVectorWalk.forEach
    exact this
  · rw [Link.Vec.calls_eq calls hc ref d more s' b.2 q2 hb']
    exact (runM_refines (Link.Vec.step_spec_small ref d) more s' b.2 q2 hb').1

/-! ### deque -/

namespace Link.Deque
open DequeSpec Verif.Deque Verif.Walk Link.ScriptL Link.WalkL

/-- The walk with its place has the contents of the ideal sequence. -/
theorem call_all {N : Nat} {o : Op α} {w w' : DequeSpec.Walk α} (h : DequeSpec.Walk.call N o w = some w') :
    w'.all = (DequeSpec.step o w.all).2 ∧ (w'.all.length ≤ w.all.length ∨ w'.all.length < N) := by
  obtain ⟨b, a⟩ := w
  cases o with
  | addFirst v =>
    simp only [DequeSpec.Walk.call] at h
    split at h
    · rename_i hl
      injection h with h; subst h
      simp only [DequeSpec.Walk.all, List.length_append, List.length_cons, DequeSpec.step, List.cons_append] at *
      exact ⟨trivial, .inr (by omega)⟩
    · cases h
  | addLast v =>
    simp only [DequeSpec.Walk.call] at h
    split at h
    · rename_i hl
      injection h with h; subst h
      simp only [DequeSpec.Walk.all, List.length_append, List.length_cons, DequeSpec.step, List.append_assoc,
        List.length_nil] at *
      exact ⟨trivial, .inr (by omega)⟩
    · cases h
  | removeFirst =>
    simp only [DequeSpec.Walk.call] at h
    cases b with
    | nil =>
      simp only at h
      split at h
      · rename_i ha; subst ha; injection h with h; subst h; simp [DequeSpec.Walk.all, DequeSpec.step]
      · cases h
    | cons v b => injection h with h; subst h; simp [DequeSpec.Walk.all, DequeSpec.step]
  | removeLast =>
    simp only [DequeSpec.Walk.call] at h
    by_cases ha : a = []
    · rw [if_pos ha] at h
      split at h
      · rename_i hb; subst ha; subst hb; injection h with h; subst h; simp [DequeSpec.Walk.all, DequeSpec.step]
      · cases h
    · rw [if_neg ha] at h
      injection h with h; subst h
      rcases nil_or_snoc a with rfl | ⟨a', v, rfl⟩
      · exact absurd rfl ha
      · have e : ∀ l : List α, l = b ++ a' ++ [v] → (DequeSpec.step .removeLast l).2 = b ++ a' := by
          rintro l rfl
          simp [DequeSpec.step]
        simp only [DequeSpec.Walk.all, List.dropLast_concat]
        rw [e _ (by simp)]
        exact ⟨rfl, .inl (by simp)⟩
  | clear => simp [DequeSpec.Walk.call] at h
  | peekFirst => simp only [DequeSpec.Walk.call, Option.some.injEq] at h; subst h; simp [DequeSpec.step]; split <;> rfl
  | peekLast => simp only [DequeSpec.Walk.call, Option.some.injEq] at h; subst h; simp [DequeSpec.step]; split <;> rfl
  | size => simp only [DequeSpec.Walk.call, Option.some.injEq] at h; subst h; simp [DequeSpec.step]
  | isEmpty => simp only [DequeSpec.Walk.call, Option.some.injEq] at h; subst h; simp [DequeSpec.step]
  | forEach => simp only [DequeSpec.Walk.call, Option.some.injEq] at h; subst h; simp [DequeSpec.step]

theorem small : ∀ (ops : List (Op α)) (l : List α), l.length < 2 ^ 29 → Allowed DequeSpec.step Bounded l ops →
    (runS DequeSpec.step l ops).2.length < 2 ^ 29
  | [], _, h, _ => h
  | o :: ops, l, _, hb => small ops _ (by have := hb.1; unfold Bounded at this; omega) hb.2

theorem script_step {ref : Bool} {d : α} {N : Nat} (hN : N ≤ 2 ^ 29) {fuel : Nat} (hf : 2 ^ 31 ≤ fuel) {pos : Int} {L : Nat}
    (hL : N ≤ L) (o : Op α) (s : Deque α) (w : DequeSpec.Walk α)
    (h : (Inv ref d s w.all ∧ w.all.length < 2 ^ 29) ∧ s.values.len = L ∧ At s w.behind.length pos)
    (hm : ∃ w', DequeSpec.Walk.call N o w = some w') :
    ∃ w', dequeCan N o w (step fuel ref d o s).out w' ∧
      (Inv ref d (step fuel ref d o s).state w'.all ∧ w'.all.length < 2 ^ 29) ∧
      (step fuel ref d o s).state.values.len = L ∧ At (step fuel ref d o s).state w'.behind.length pos := by
  obtain ⟨w', hw'⟩ := hm
  obtain ⟨⟨h1, h0⟩, h2, h3⟩ := h
  rw [step_eq fuel ref d (fits_of_inv h1) hf o]
  obtain ⟨q1, q2, q3⟩ := call_spec hN h1 (by omega) h3 hw'
  obtain ⟨l1, l2⟩ := call_all hw'
  have hb : w'.all.length < 2 ^ 29 := by omega
  exact ⟨w', ⟨(Verif.Deque.step_spec s w.all o h1 (by unfold Bounded; rw [← l1]; omega)).1, hw'⟩, ⟨q1, hb⟩, by omega, q3⟩

theorem script_loop {ref : Bool} {d : α} {N : Nat} (hN : N ≤ 2 ^ 29) {c : α → σ → Script (Op α) (Out α) σ}
    {P : Except Err Unit → σ → DequeSpec.Walk α → Prop} {w : DequeSpec.Walk α} {u : σ} {fuel' : Nat} (hf' : 2 ^ 31 ≤ fuel')
    (hw : Sure (fun o w => ∃ w', DequeSpec.Walk.call N o w = some w') (dequeCan N) dequeMove c P w u) :
    ∀ {s : Deque α} {pos : Int}, Inv ref d s w.all ∧ w.all.length < 2 ^ 29 → N ≤ s.values.len → At s w.behind.length pos →
    ∃ r u' b s', (∃ n, ∀ fuel, n ≤ fuel → ∀ acc,
      Ended (Gen.KeyDequeWalk.forEach_loop1 ref d (consumer (step fuel' ref d) c) fuel acc pos ⟨s, u⟩) r ⟨s', u'⟩) ∧
        Inv ref d s' b.all ∧ P r u' b := by
  induction hw with
  | @done w u hm hp =>
    intro s pos h hc hat
    refine ⟨.ok (), u, w, s, ⟨1, fun fuel hf acc => ?_⟩, h.1, hp⟩
    obtain ⟨k, rfl⟩ : ∃ k, fuel = k + 1 := ⟨fuel - 1, by omega⟩
    obtain ⟨b, a⟩ := w
    cases a with
    | cons v a => simp [dequeMove] at hm
    | nil =>
      have h' : Inv ref d s b := by simpa [DequeSpec.Walk.all] using h.1
      have e : pos = s.tail := by
        obtain ⟨p0, p1, p2⟩ := hat
        have := h'.link; have := h'.tail; simp only at p2; omega
      refine ⟨(acc, pos), ?_⟩
      rw [Gen.KeyDequeWalk.forEach_loop1, JM.bind_ok (lift_get _), if_neg (by simp [e])]; rfl
  | @skip w b u hm _ _ =>
    obtain ⟨x, a⟩ := w
    cases a <;> simp [dequeMove] at hm
  | @step w b u v Q hm hs he _ ih =>
    intro s pos hh hc hat
    obtain ⟨h, hsm⟩ := hh
    obtain ⟨x, a⟩ := w
    cases a with
    | nil => simp [dequeMove] at hm
    | cons v' a =>
      simp only [dequeMove, Option.some.injEq, Prod.mk.injEq] at hm
      obtain ⟨rfl, rfl⟩ := hm
      have hinc : At s (x ++ [v']).length (inc pos s.values.len) := by
        obtain ⟨p0, p1, p2⟩ := hat
        have := h.head
        have hl := h.room
        simp only [DequeSpec.Walk.all, List.length_append, List.length_cons] at hl
        simp only at p2
        unfold At inc
        simp only [List.length_append, List.length_cons, List.length_nil]
        split <;> omega
      have h' : Inv ref d s (DequeSpec.Walk.all ⟨x ++ [v'], a⟩) := by simpa [DequeSpec.Walk.all] using h
      obtain ⟨r, u', s', b', p1, ⟨p2, p3, p4⟩, p5⟩ := play_spec
        (R := fun t w => (Inv ref d t w.all ∧ w.all.length < 2 ^ 29) ∧ t.values.len = s.values.len ∧ At t w.behind.length (inc pos s.values.len))
        (step := step fuel' ref d)
        (fun o t w h hm => script_step hN (fuel := fuel') hf' hc o t w h hm)
        (c v' u) s ⟨x ++ [v'], a⟩ u ⟨⟨h', by simpa [DequeSpec.Walk.all] using hsm⟩, rfl, hinc⟩ hs
      obtain ⟨o0, o1, o2⟩ := hat
      have ne : pos ≠ s.tail := by
        have := h.link; have := h.tail; have hl := h.room; have := h.head
        simp only [DequeSpec.Walk.all, List.length_append, List.length_cons] at *
        omega
      have hv := h.slots x.length pos (by simp [DequeSpec.Walk.all]) o0 o1 o2
      simp [DequeSpec.Walk.all] at hv
      have hfit := fits_of_inv h
      have hle := hfit.len
      have unroll : ∀ k acc, Gen.KeyDequeWalk.forEach_loop1 ref d (consumer (step fuel' ref d) c) (k + 1) acc pos ⟨s, u⟩ =
          proceed r (Gen.KeyDequeWalk.forEach_loop1 ref d (consumer (step fuel' ref d) c) k (acc ++ [()])
            (inc pos s.values.len) ⟨s', u'⟩) ⟨s', u'⟩ := by
        intro k acc
        rw [Gen.KeyDequeWalk.forEach_loop1, JM.bind_ok (lift_get _), if_pos (by simpa using ne),
          JM.bind_ok (lift_ok (rd_ok Deque.values ⟨o0, o1⟩) u), ← hv, consumer_cases p1]
        have e : (Gen.KeyDeque.inc ref d pos (s'.values.len : Int)) s' = .ok (inc pos s.values.len) s' := by
          rw [p3, inc_eq ref d (by omega)]; rfl
        rw [JM.bind_ok (lift_get _)]
        simp only
        rw [JM.bind_ok (lift_ok e u')]
      cases r with
      | error x =>
        refine ⟨.error x, u', b', s', ⟨1, fun fuel hf acc => ?_⟩, p2.1, he _ _ _ p5⟩
        obtain ⟨k, rfl⟩ : ∃ k, fuel = k + 1 := ⟨fuel - 1, by omega⟩
        exact unroll k acc
      | ok x =>
        obtain ⟨r, u2, b2, s2, ⟨n, hn⟩, q2, q3⟩ := ih u' b' p5 p2 (by omega) p4
        refine ⟨r, u2, b2, s2, ⟨n + 1, fun fuel hf acc => ?_⟩, q2, q3⟩
        obtain ⟨k, rfl⟩ : ∃ k, fuel = k + 1 := ⟨fuel - 1, by omega⟩
        rw [unroll k acc]
        exact hn k (by omega) _

end Link.Deque

/-- C113, deque (partial as `C90_deque_partial`: the walk must survive the calls): the generated `forEach` ends as the walk
over the ideal sequence is sure to, and the deque then answers every further history like the contents at the end. -/
theorem C113_generated_deque_partial (ref : Bool) (d : α) (c0 : Int) (z s0 : Deque α) (x : Unit)
    (hnew : Gen.KeyDeque.init ref d c0 z = .ok x s0)
    (ops : List (Deque.Op α)) (hb : Allowed DequeSpec.step DequeSpec.Bounded [] ops) (N : Nat)
    (hN : N ≤ 2 ^ 29) (hcap : (N : Int) ≤ c0 ∧ c0 ≤ 2 ^ 30 ∨ N ≤ DequeSpec.peak [] ops + 1)
    (c : α → σ → Script (Deque.Op α) (Deque.Out α) σ) (u : σ) (P : Except Err Unit → σ → DequeSpec.Walk α → Prop)
    (hw : Sure (fun o w => ∃ w', DequeSpec.Walk.call N o w = some w') (dequeCan N) dequeMove c P
      ⟨[], (runS DequeSpec.step [] ops).2⟩ u)
    (calls : Nat) (hc : 2 ^ 31 ≤ calls) :
    ∃ r u' b s', P r u' b ∧ (∃ n, ∀ fuel, n ≤ fuel →
      Ended (Gen.KeyDequeWalk.forEach ref d fuel (consumer (Link.Deque.step calls ref d) c)
        ⟨(runM (Link.Deque.step calls ref d) s0 ops).2, u⟩) r ⟨s', u'⟩) ∧
      ∀ more : List (Deque.Op α), Allowed DequeSpec.step DequeSpec.Bounded b.all more →
        (runM (Link.Deque.step calls ref d) s' more).1 = (runS DequeSpec.step b.all more).1 := by
  have hm := Link.Deque.made hnew
  have h0 := Deque.inv_new (ref := ref) hm
  have hi := (runM_refines (fun s a o h g => Deque.step_spec s a o h g) ops s0 [] h0 hb).2
  have hl := Deque.peak_len ops h0 hb
  have hlen := Deque.new_len hm
  rw [Link.Deque.history_eq calls hc ref d c0 s0 hm ops hb]
  generalize (runM (Deque.step ref d) s0 ops).2 = s at *
  have hat : Deque.At s 0 s.head := ⟨hi.head.1, hi.head.2, .inl (by simp)⟩
  obtain ⟨r, u', b, s', ⟨n, hn⟩, q2, q3⟩ := Link.Deque.script_loop (ref := ref) (d := d) hN hc hw
    (by simpa [DequeSpec.Walk.all] using ⟨hi, Link.Deque.small ops [] (by simp) hb⟩)
    (by rcases hcap with hcap | hcap
        · have := hlen hcap.2; omega
        · omega) hat
  refine ⟨r, u', b, s', q3, ⟨n, fun fuel hf => ?_⟩, fun more hb' => ?_⟩
  · have := hn fuel hf []
    unfold Gen.KeyDequeWalk.forEach
    simp only
    rw [JM.bind_ok (Link.ScriptL.lift_get _), JM.bind_apply]
    cases r with
    | ok y =>
      obtain ⟨p, hp⟩ := this
      exact ⟨p.1, by rw [hp]; rfl⟩
    | error e =>
      have this : Gen.KeyDequeWalk.forEach_loop1 ref d (consumer (Link.Deque.step calls ref d) c) fuel [] s.head ⟨s, u⟩ =
        .err e ⟨s', u'⟩ := this
      show _ = _
      rw [this]
  · rw [Link.runM_congr_spec (fun s a o h g => Deque.step_spec s a o h g)
      (fun _ _ o h _ => Link.Deque.step_eq calls ref d (Link.Deque.fits_of_inv h) (by omega) o) more s' b.all q2 hb']
    exact (runM_refines (fun s a o h g => Deque.step_spec s a o h g) more s' b.all q2 hb').1

/-! ### heap -/

section Heap
open Heap HeapSpec HeapProof
variable {K V : Type} [BEq K] [BEq V]

namespace Link.HeapL
open Verif.Walk Link.ScriptL Link.WalkL

theorem script_loop {c : Int → σ → Script (Op K V) (Out K V) σ}
    {P : Except Err Unit → σ → Nat × Abs K V → Prop} {a : Nat × Abs K V} {u : σ} {fuel' : Nat} (hf' : 2 ^ 31 ≤ fuel')
    (hw : Sure (fun o a => Guard o a.2) heapCan heapMove c P a u) :
    ∀ {s : Heap K V}, Inv s a.2 ∧ Fits a.2 → ∃ r u' b s', (∃ n, ∀ fuel, n ≤ fuel → ∀ acc,
      Ended (Gen.KeyValueHeapWalk.forEachEntry_loop1 (consumer (step fuel') c) fuel acc a.1 ⟨s, u⟩) r ⟨s', u'⟩) ∧
        (Inv s' b.2 ∧ Fits b.2) ∧ P r u' b := by
  induction hw with
  | @done a u hm hp =>
    intro s h
    refine ⟨.ok (), u, a, s, ⟨1, fun fuel hf acc => ?_⟩, h, hp⟩
    obtain ⟨k, rfl⟩ : ∃ k, fuel = k + 1 := ⟨fuel - 1, by omega⟩
    have hi : a.2.live.length ≤ a.1 := by simpa [heapMove] using hm
    refine ⟨acc, ?_⟩
    rw [Gen.KeyValueHeapWalk.forEachEntry_loop1, JM.bind_ok (lift_get _), if_neg (by have := h.1.sz; simp; omega)]; rfl
  | @skip a b u hm _ ih =>
    intro s h
    unfold heapMove at hm
    split at hm
    · rename_i he
      split at hm
      · simp at hm
      · rename_i hl
        simp only [Option.some.injEq, Prod.mk.injEq, true_and] at hm
        subst hm
        obtain ⟨r, u', b, s', ⟨n, hn⟩, q2, q3⟩ := ih h
        refine ⟨r, u', b, s', ⟨n + 1, fun fuel hf acc => ?_⟩, q2, q3⟩
        obtain ⟨k, rfl⟩ : ∃ k, fuel = k + 1 := ⟨fuel - 1, by omega⟩
        have hv : isValidEntry (a.1 : Int) s = .ok false s := by
          rw [isValid_spec h.1, if_neg (by omega)]
          congr 1
          apply decide_eq_false
          rintro (hx | ⟨_, hx, _⟩)
          · exact hl hx
          · omega
        have hul := h.1.used_le
        unfold used at hul
        have e1 : i32 ((a.1 : Int) + 1) = ((a.1 + 1 : Nat) : Int) := by
          have : a.2.cap < 2 ^ 31 := h.2
          have := h.1.cap
          rw [i32_of_range (by omega)]; omega
        rw [Gen.KeyValueHeapWalk.forEachEntry_loop1, JM.bind_ok (lift_get _), if_pos (by have := h.1.sz; simp; omega),
          isValid_eq, JM.bind_ok (lift_ok hv u)]
        simp only [e1]
        exact hn k (by omega) acc
    · cases hm
  | @step a b u v Q hm hs he _ ih =>
    intro s h
    unfold heapMove at hm
    split at hm
    · rename_i hlt
      split at hm
      · rename_i hl
        simp only [Option.some.injEq, Prod.mk.injEq] at hm
        obtain ⟨rfl, rfl⟩ := hm
        obtain ⟨r, u', s', b', p1, ⟨p2, p3⟩, p4⟩ := play_spec
          (R := fun s (b : Nat × Abs K V) => (Inv s b.2 ∧ Fits b.2) ∧ b.1 = a.1 + 1)
          (step := step fuel')
          (fun o s b h hm => by
            rw [step_eq fuel' hf' h.1.1 h.1.2 o hm]
            obtain ⟨q1, q2, -⟩ := step_spec h.1.1 o hm
            exact ⟨_, ⟨q1, rfl⟩, ⟨q2, after_fits o h.1.2⟩, h.2⟩) (c (a.1 : Int) u) s (a.1 + 1, a.2) u ⟨h, rfl⟩ hs
        have hv : isValidEntry (a.1 : Int) s = .ok true s := by
          rw [isValid_spec h.1, if_neg (by omega), decide_eq_true (.inl hl)]
        have hul := h.1.used_le
        unfold used at hul
        have e1 : i32 ((a.1 : Int) + 1) = ((a.1 + 1 : Nat) : Int) := by
          have : a.2.cap < 2 ^ 31 := h.2
          have := h.1.cap
          rw [i32_of_range (by omega)]; omega
        have unroll : ∀ k acc, Gen.KeyValueHeapWalk.forEachEntry_loop1 (consumer (step fuel') c) (k + 1) acc a.1 ⟨s, u⟩ =
            proceed r (Gen.KeyValueHeapWalk.forEachEntry_loop1 (consumer (step fuel') c) k (acc ++ [()]) (a.1 + 1 : Nat)
              ⟨s', u'⟩) ⟨s', u'⟩ := by
          intro k acc
          rw [Gen.KeyValueHeapWalk.forEachEntry_loop1, JM.bind_ok (lift_get _), if_pos (by have := h.1.sz; simp; omega),
            isValid_eq, JM.bind_ok (lift_ok hv u)]
          simp only [e1, if_true]
          have e2 := consumer_cases p1 fun x => (pure (acc ++ [x]) : JM (Beside σ (Heap K V)) (List Unit))
          cases r with
          | ok x => exact JM.bind_ok e2
          | error x => exact JM.bind_err e2
        cases r with
        | error x =>
          refine ⟨.error x, u', b', s', ⟨1, fun fuel hf acc => ?_⟩, p2, he _ _ _ p4⟩
          obtain ⟨k, rfl⟩ : ∃ k, fuel = k + 1 := ⟨fuel - 1, by omega⟩
          exact unroll k acc
        | ok x =>
          obtain ⟨r, u2, b2, s2, ⟨n, hn⟩, q2, q3⟩ := ih u' b' p4 p2
          refine ⟨r, u2, b2, s2, ⟨n + 1, fun fuel hf acc => ?_⟩, q2, q3⟩
          obtain ⟨k, rfl⟩ : ∃ k, fuel = k + 1 := ⟨fuel - 1, by omega⟩
          rw [unroll k acc, ← p3]
          exact hn k (by omega) _
      · simp at hm
    · cases hm

end Link.HeapL

/-- C113, heap: the generated `forEachEntry` ends as the walk over the ideal heap is sure to, whichever of the answers it
may give the calls get, and the heap then answers every further history like the contents at the end. -/
theorem C113_generated_heap {cmp : Comparator K} {dk : K} {dv : V} {n : Int} (hn : n < 2 ^ 31)
    {ops : List (Op K V)} (hg : Guarded (empty cmp dk dv n) ops) (c : Int → σ → Script (Op K V) (Out K V) σ) (u : σ)
    (P : Except Err Unit → σ → Nat × Abs K V → Prop)
    (hw : Sure (fun o a => Guard o a.2) heapCan heapMove c P (0, ideal (empty cmp dk dv n) ops) u)
    (calls : Nat) (hc : 2 ^ 31 ≤ calls) {s : Heap K V} (hs : Link.HeapL.Made calls cmp dk dv n ops s) :
    ∃ r u' b s', P r u' b ∧ (∃ n, ∀ fuel, n ≤ fuel →
      Ended (Gen.KeyValueHeapWalk.forEachEntry fuel (consumer (Link.HeapL.step calls) c) ⟨s, u⟩) r ⟨s', u'⟩) ∧
      Link.HeapL.Behaves calls s' b.2 := by
  have hm := hs.model hc hn hg
  obtain ⟨r, u', b, s', ⟨m, hm'⟩, ⟨q2, q3⟩, q4⟩ :=
    Link.HeapL.script_loop hc hw ⟨(afterRun_spec hm hg).1, Link.HeapL.ideal_fits ops hn⟩
  refine ⟨r, u', b, s', q4, ⟨m, fun fuel hf => hm' fuel hf []⟩, fun ops' hg' => ?_⟩
  rw [Link.HeapL.run_eq calls hc ops' q2 q3 hg']
  exact (run_spec ops' s' b.2 q2 hg').1

end Heap

/-! ### Non-vacuity, and what is false without the restriction -/

/-- A consumer of ints: it asks for the size, throws if that is 5, and else appends the successor; it adds up the values. -/
def growing (v : Int) (u : Int) : Script (Vec.Op Int) (Vec.Out Int) Int :=
  .call .size fun r => match r with
    | .ok (.int 5) => .fail .illegalState u
    | _ => .call (.append (v + 1)) fun _ => .done (u + v)

/- `growing` on a vector meets the hypothesis of `C113_generated_vector`, and this is the run. -/
example : Sure (fun o a => VecSpec.Legal o a.2) vectorCan vectorMove growing
    (fun r u b => r = .error .illegalState ∧ u = 5 ∧ b.2 = [1, 2, 2, 3, 3]) (0, [1, 2]) (0 : Int) := by
  refine .step (fun r u b => r = .ok () ∧ u = 1 ∧ b = (1, [1, 2, 2])) rfl
    ⟨trivial, fun r b h => ?_⟩ (by simp) ?_
  · obtain ⟨rfl, rfl⟩ := h
    refine ⟨by simp [VecSpec.Legal, VecSpec.step], fun r b h => ?_⟩
    obtain ⟨rfl, rfl⟩ := h
    exact ⟨rfl, rfl, rfl⟩
  rintro u b ⟨-, rfl, rfl⟩
  refine .step (fun r u b => r = .ok () ∧ u = 3 ∧ b = (2, [1, 2, 2, 3])) rfl
    ⟨trivial, fun r b h => ?_⟩ (by simp) ?_
  · obtain ⟨rfl, rfl⟩ := h
    refine ⟨by simp [VecSpec.Legal, VecSpec.step], fun r b h => ?_⟩
    obtain ⟨rfl, rfl⟩ := h
    exact ⟨rfl, rfl, rfl⟩
  rintro u b ⟨-, rfl, rfl⟩
  refine .step (fun r u b => r = .ok () ∧ u = 5 ∧ b = (3, [1, 2, 2, 3, 3])) rfl
    ⟨trivial, fun r b h => ?_⟩ (by simp) ?_
  · obtain ⟨rfl, rfl⟩ := h
    refine ⟨by simp [VecSpec.Legal, VecSpec.step], fun r b h => ?_⟩
    obtain ⟨rfl, rfl⟩ := h
    exact ⟨rfl, rfl, rfl⟩
  rintro u b ⟨-, rfl, rfl⟩
  refine .step (fun r u b => r = .error .illegalState ∧ u = 5 ∧ b = (4, [1, 2, 2, 3, 3])) rfl
    ⟨trivial, fun r b h => ?_⟩ (by rintro e u b ⟨h, rfl, rfl⟩; exact ⟨h, rfl, rfl⟩) (by simp)
  obtain ⟨rfl, rfl⟩ := h
  exact ⟨rfl, rfl, rfl⟩

example : (match Gen.KeyVector.init false (0 : Int) 2 ⟨Arr.create 0 0, 7, 7⟩ with
    | .ok _ s => match Gen.KeyVectorWalk.forEach false 0 50 (consumer (Link.Vec.step 50 false 0) growing)
        ⟨(runM (Link.Vec.step 50 false 0) s [.append 1, .append 2]).2, 0⟩ with
      | .err e t => some (e, t.ext, (Link.Vec.step 50 false 0 .forEach t.obj).out)
      | _ => none
    | _ => none) = some (.illegalState, 5, .ok (.seq [1, 2, 2, 3, 3])) := by rfl

/-- A consumer of ints that takes the first value out, adds it up, and throws after an even one. -/
def draining (_ : Int) (u : Int) : Script (Deque.Op Int) (Deque.Out Int) Int :=
  .call .removeFirst fun r => match r with
    | .ok (.val w) => if w % 2 = 0 then .fail .unsupported (u + w) else .done (u + w)
    | _ => .fail .illegalState u

/- `draining` on a deque meets the hypothesis of `C113_generated_deque_partial`, and this is the run. -/
example : Sure (fun o w => ∃ w', DequeSpec.Walk.call 4 o w = some w') (dequeCan 4) dequeMove draining
    (fun r u w => r = .error .unsupported ∧ u = 7 ∧ w.all = [5]) ⟨[], [3, 4, 5]⟩ (0 : Int) := by
  refine .step (fun r u w => r = .ok () ∧ u = 3 ∧ w = ⟨[], [4, 5]⟩) rfl
    ⟨⟨_, rfl⟩, fun r b h => ?_⟩ (by simp) ?_
  · obtain ⟨rfl, h⟩ := h
    simp only [DequeSpec.Walk.call, List.nil_append, Option.some.injEq] at h
    subst h
    exact ⟨rfl, rfl, rfl⟩
  rintro u b ⟨-, rfl, rfl⟩
  refine .step (fun r u w => r = .error .unsupported ∧ u = 7 ∧ w = ⟨[], [5]⟩) rfl
    ⟨⟨_, rfl⟩, fun r b h => ?_⟩ (by rintro e u b ⟨h, rfl, rfl⟩; exact ⟨h, rfl, rfl⟩) (by simp)
  obtain ⟨rfl, h⟩ := h
  simp only [DequeSpec.Walk.call, List.nil_append, Option.some.injEq] at h
  subst h
  exact ⟨rfl, rfl, rfl⟩

example : (match Gen.KeyDeque.init true (0 : Int) 4 ⟨Arr.create 0 0, 7, 7, 7⟩ with
    | .ok _ s => match Gen.KeyDequeWalk.forEach true 0 50 (consumer (Link.Deque.step 50 true 0) draining)
        ⟨(runM (Link.Deque.step 50 true 0) s [.addLast 4, .addLast 5, .addFirst 3]).2, 0⟩ with
      | .err e t => some (e, t.ext, (Link.Deque.step 50 true 0 .forEach t.obj).out)
      | _ => none
    | _ => none) = some (.unsupported, 7, .ok (.seq [5])) := by rfl

/-- C113 is false of a deque whose consumer makes it grow: it asks for the size, puts 8 at the back at the first value,
and is handed 5, 7, 8 but not 6. -/
theorem C113_generated_deque_refuted :
    (match Gen.KeyDeque.init false (0 : Int) 4 ⟨Arr.create 0 0, 7, 7, 7⟩ with
    | .ok _ s => match Gen.KeyDequeWalk.forEach false 0 50 (consumer (Link.Deque.step 50 false 0)
          fun v (seen : List Int) => .call .size fun r => match r with
            | .ok (.int 3) => .call (.addLast 8) fun _ => .done (seen ++ [v])
            | _ => .done (seen ++ [v]))
        ⟨(runM (Link.Deque.step 50 false 0) s [.addLast 4, .addLast 5, .addLast 6, .removeFirst, .addLast 7]).2, []⟩ with
      | .ok _ t => some (t.ext, (Link.Deque.step 50 false 0 .forEach t.obj).out)
      | _ => none
    | _ => none) = some ([5, 7, 8], .ok (.seq [5, 6, 7, 8])) := by rfl

/-- A consumer of entries: it looks up the key, and if that is above 6 removes the entry and throws. -/
def pruning (e : Int) (u : List Int) : Script (Heap.Op Int Int) (Heap.Out Int Int) (List Int) :=
  .call (.getKeyAt e) fun r => match r with
    | .ok (.key k) => if 6 < k then .call (.removeAt e) fun _ => .fail .runtime (u ++ [k]) else .done (u ++ [k])
    | _ => .fail .illegalState u

section
open Heap HeapSpec

/- `pruning` on a heap meets the hypotheses of `C113_generated_heap`. -/
example : Guarded (empty asc (0 : Int) (0 : Int) 4) [.insert 5, .insert 8, .insert 3] ∧
    Sure (fun o a => Guard o a.2) heapCan heapMove pruning
      (fun r u b => r = .error .runtime ∧ u = [5, 8] ∧ b.2.live = [2, 0])
      (0, ideal (empty asc (0 : Int) (0 : Int) 4) [.insert 5, .insert 8, .insert 3]) [] := by
  refine ⟨by simp only [Guarded, Guard]; decide +kernel, ?_⟩
  refine .step (fun r u b => r = .ok () ∧ u = [5] ∧
    b = (1, ideal (empty asc (0 : Int) (0 : Int) 4) [.insert 5, .insert 8, .insert 3])) rfl
    ⟨trivial, fun r b h => ?_⟩ (by simp) ?_
  · obtain ⟨h, rfl⟩ := h
    have h : r = .ok (.key 5) := h
    subst h
    exact ⟨rfl, rfl, rfl⟩
  rintro u b ⟨-, rfl, rfl⟩
  refine .step (fun r u b => r = .error .runtime ∧ u = [5, 8] ∧ b.2.live = [2, 0]) rfl
    ⟨trivial, fun r b h => ?_⟩ (by rintro e u b h; exact h) (by simp)
  obtain ⟨h, rfl⟩ := h
  have h : r = .ok (.key 8) := h
  subst h
  refine ⟨.inr (.inl (by decide)), fun r b h => ?_⟩
  obtain ⟨h, rfl⟩ := h
  exact ⟨rfl, rfl, by decide⟩
end

end Verif

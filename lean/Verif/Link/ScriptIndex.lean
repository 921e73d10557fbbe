import Verif.Link.Script
import Verif.Link.IndexCallbacks
/-! C113 for the indexed map: consumers that keep a state, call back, look at the answers and throw, on the generated
walks. -/
set_option linter.unusedSectionVars false
namespace Verif
open ScriptSpec Verif.Index Verif.IndexSpec

namespace Link.Map
open Verif.Walk Link.ScriptL Link.WalkL
variable {σ β : Type} {K V : Type} [Inhabited K] [Inhabited V]

theorem walk_keys_loop2 (c : K → JM (Beside σ (Index K V)) β) : ∀ (n : Nat) (acc : List β) (hits e : Int),
    Gen.KeyValueIndexedMapWalk.forEach_loop2 c n acc hits e =
      Gen.KeyValueIndexedMapWalk.forEachEntry_loop2 (fun e => lift (rd Index.keys e) >>= c) n acc hits e
  | 0, _, _, _ => rfl
  | n + 1, acc, hits, e => by
    unfold Gen.KeyValueIndexedMapWalk.forEach_loop2 Gen.KeyValueIndexedMapWalk.forEachEntry_loop2
    simp only [assoc, walk_keys_loop2 c n]

theorem walk_keys_loop1 (fuel : Nat) (c : K → JM (Beside σ (Index K V)) β) (N : Int) : ∀ (n : Nat) (acc : List β)
    (hits e : Int), Gen.KeyValueIndexedMapWalk.forEach_loop1 fuel c N n acc hits e =
      Gen.KeyValueIndexedMapWalk.forEachEntry_loop1 fuel (fun e => lift (rd Index.keys e) >>= c) N n acc hits e
  | 0, _, _, _ => rfl
  | n + 1, acc, hits, e => by
    unfold Gen.KeyValueIndexedMapWalk.forEach_loop1 Gen.KeyValueIndexedMapWalk.forEachEntry_loop1
    simp only [walk_keys_loop2, walk_keys_loop1 fuel c N n]

theorem walk_keys (fuel : Nat) (c : K → JM (Beside σ (Index K V)) β) :
    Gen.KeyValueIndexedMapWalk.forEach fuel c =
      Gen.KeyValueIndexedMapWalk.forEachEntry fuel (fun e => lift (rd Index.keys e) >>= c) := by
  unfold Gen.KeyValueIndexedMapWalk.forEach Gen.KeyValueIndexedMapWalk.forEachEntry
  simp only [walk_keys_loop1]

theorem walk_values_loop2 (c : V → JM (Beside σ (Index K V)) β) : ∀ (n : Nat) (acc : List β) (hits e : Int),
    Gen.KeyValueIndexedMapWalk.forEachValue_loop2 c n acc hits e =
      Gen.KeyValueIndexedMapWalk.forEachEntry_loop2 (fun e => lift (rd Index.values e) >>= c) n acc hits e
  | 0, _, _, _ => rfl
  | n + 1, acc, hits, e => by
    unfold Gen.KeyValueIndexedMapWalk.forEachValue_loop2 Gen.KeyValueIndexedMapWalk.forEachEntry_loop2
    simp only [assoc, walk_values_loop2 c n]

theorem walk_values_loop1 (fuel : Nat) (c : V → JM (Beside σ (Index K V)) β) (N : Int) : ∀ (n : Nat) (acc : List β)
    (hits e : Int), Gen.KeyValueIndexedMapWalk.forEachValue_loop1 fuel c N n acc hits e =
      Gen.KeyValueIndexedMapWalk.forEachEntry_loop1 fuel (fun e => lift (rd Index.values e) >>= c) N n acc hits e
  | 0, _, _, _ => rfl
  | n + 1, acc, hits, e => by
    unfold Gen.KeyValueIndexedMapWalk.forEachValue_loop1 Gen.KeyValueIndexedMapWalk.forEachEntry_loop1
    simp only [walk_values_loop2, walk_values_loop1 fuel c N n]

theorem walk_values (fuel : Nat) (c : V → JM (Beside σ (Index K V)) β) :
    Gen.KeyValueIndexedMapWalk.forEachValue fuel c =
      Gen.KeyValueIndexedMapWalk.forEachEntry fuel (fun e => lift (rd Index.values e) >>= c) := by
  unfold Gen.KeyValueIndexedMapWalk.forEachValue Gen.KeyValueIndexedMapWalk.forEachEntry
  simp only [walk_values_loop1]

/-- What the generated inner loop does at an entry. -/
def playing {op : Type} (step : op → JM (Index K V) (Out K V)) (c : Out K V → σ → Script op (Out K V) σ) (k : Kind) (e : Int) :
    JM (Beside σ (Index K V)) Unit := lift (handed k e) >>= consumer step c

theorem lift_pure_bind {α : Type} (x : α) (w : α → JM (Beside σ (Index K V)) β) : lift (pure x) >>= w = w x := rfl

theorem lift_map_bind {α γ : Type} (m : JM (Index K V) α) (f : α → γ) (w : γ → JM (Beside σ (Index K V)) β) :
    lift (m >>= fun x => pure (f x)) >>= w = lift m >>= fun x => w (f x) := by
  apply JM_ext; intro t
  rw [JM.bind_apply, JM.bind_apply]
  unfold lift
  simp only [JM.bind_apply]
  cases m t.obj <;> rfl

/-- The three generated walks with a consumer that is a script for each value handed out. -/
def scriptWalk (fuel : Nat) (c : Out K V → σ → Script (Op K V) (Out K V) σ) : Kind → JM (Beside σ (Index K V)) (List Unit)
  | .entries => Gen.KeyValueIndexedMapWalk.forEachEntry fuel (consumer (step fuel) fun e => c (.int e))
  | .keys => Gen.KeyValueIndexedMapWalk.forEach fuel (consumer (step fuel) fun k => c (.key k))
  | .values => Gen.KeyValueIndexedMapWalk.forEachValue fuel (consumer (step fuel) fun v => c (.val v))

theorem scriptWalk_eq (fuel : Nat) (c : Out K V → σ → Script (Op K V) (Out K V) σ) (k : Kind) :
    scriptWalk fuel c k = Gen.KeyValueIndexedMapWalk.forEachEntry fuel (playing (step fuel) c k) := by
  cases k
  · rfl
  · simp only [scriptWalk, walk_keys]
    congr 1; funext e
    unfold playing handed
    simp only
    rw [lift_map_bind]; rfl
  · simp only [scriptWalk, walk_values]
    congr 1; funext e
    unfold playing handed
    simp only
    rw [lift_map_bind]; rfl

/-- The class with calls `op` behaves, in the state `o`, as the map in a state `s` related to it. -/
structure Sim {op : Type} (fuel : Nat) (k : Kind) (stepC : op → JM (Index K V) (Out K V)) (toOp : op → Op K V)
    (Arg : op → Prop) (Rel : Index K V → Index K V → Prop) (J : Index K V → Abs K V → Prop) : Prop where
  heads : ∀ {o s}, Rel o s → o.heads = s.heads
  nexts : ∀ {o s}, Rel o s → o.nexts = s.nexts
  size : ∀ {o s}, Rel o s → o.size = s.size
  hand : ∀ {o s e b}, Rel o s → handed k e s = .ok b s → handed k e o = .ok b o
  arg : ∀ {x}, Arg x → IntArg (toOp x)
  call : ∀ {o s a x}, Rel o s → Made fuel s a → Arg x → Guard (toOp x) a →
    (stepC x o).out = (step fuel (toOp x) s).out ∧ Rel (stepC x o).state (step fuel (toOp x) s).state
  keep : ∀ {o a x}, J o a → Arg x → Guard (toOp x) a → J (stepC x o).state (after (toOp x) (stepC x o).out a)

theorem find_same {a b : Abs K V} {l : List Int} {y : Int} (hsub : ∀ x, x ∈ b.live → x ∈ a.live)
    (h : (l.find? fun e => e ∈ a.live) = some y) (hy : y ∈ b.live) : (l.find? fun e => e ∈ b.live) = some y := by
  induction l with
  | nil => simp at h
  | cons x l ih =>
    rw [List.find?_cons] at h ⊢
    by_cases hx : x ∈ a.live
    · simp only [hx, decide_true, Option.some.injEq] at h
      subst h
      simp [hy]
    · simp only [hx, decide_false] at h
      have : x ∉ b.live := fun hb => hx (hsub x hb)
      simp only [this, decide_false]
      exact ih h

theorem find_head {a : Abs K V} {y : Int} {ys : List Int} : ∀ (l rest : List Int), (l.filter fun e => e ∈ a.live) = y :: ys →
    ((l ++ rest).find? fun e => e ∈ a.live) = some y
  | [], _, h => by simp at h
  | x :: l, rest, h => by
    rw [List.filter_cons] at h
    rw [List.cons_append, List.find?_cons]
    by_cases hx : x ∈ a.live
    · simp only [hx, decide_true, if_true, List.cons.injEq] at h
      rw [h.1] at hx ⊢
      simp [hx]
    · simp only [hx, decide_false, Bool.false_eq_true, if_false] at h
      simp only [hx, decide_false]
      exact find_head l rest h

variable {op : Type} {fuel : Nat} {k : Kind} {stepC : op → JM (Index K V) (Out K V)} {toOp : op → Op K V}
  {Arg : op → Prop} {Rel : Index K V → Index K V → Prop} {J : Index K V → Abs K V → Prop}
  {c : Out K V → σ → Script op (Out K V) σ} {P : Except Err Unit → σ → List Int × Abs K V → Prop}

theorem script_call (S : Sim fuel k stepC toOp Arg Rel J) (hf : 2 ^ 31 ≤ fuel) {s : Index K V} {a : Abs K V} {L : List Int}
    (x : op) (o : Index K V) (b : List Int × Abs K V)
    (h : b.1 = L ∧ J o b.2 ∧ ∃ t, Rel o t ∧ Made fuel t b.2 ∧ Shrunk s t a b.2 ∧
      ∀ y, (L.find? fun e => e ∈ a.live) = some y → y ∈ b.2.live)
    (hm : Arg x ∧ indexMay (toOp x) b) :
    ∃ b', indexCan (toOp x) b (stepC x o).out b' ∧ (b'.1 = L ∧ J (stepC x o).state b'.2 ∧ ∃ t, Rel (stepC x o).state t ∧
      Made fuel t b'.2 ∧ Shrunk s t a b'.2 ∧ ∀ y, (L.find? fun e => e ∈ a.live) = some y → y ∈ b'.2.live) := by
  obtain ⟨h1, hj, t, hr, h2, h3, h4⟩ := h
  obtain ⟨m1, m2, m3⟩ := hm
  obtain ⟨F, hI⟩ := reach_inv (h2.reach hf)
  have hj' := S.keep hj m1 m2
  obtain ⟨r1, r2⟩ := S.call hr h2 m1 m2
  have hc := h2.call (toOp x) (S.arg m1) m2
  have he := h2.eq hf (toOp x) (S.arg m1) m2
  obtain ⟨q1, q2⟩ := step_shrunk hI (toOp x) m2 m3
  rw [r1] at hj' ⊢
  rw [he] at hc r2 hj' ⊢
  refine ⟨_, ⟨(step_spec hI (toOp x) m2).1, rfl⟩, h1, hj', _, r2, hc, h3.trans q1, fun y hy => ?_⟩
  have hyb := h4 y hy
  have : (b.1.find? fun e => e ∈ b.2.live) = some y := by
    rw [h1]; exact find_same (fun x hx => h3.live hx) hy hyb
  exact q2 y hyb this

theorem handed_row {s : Index K V} {a : Abs K V} {F : List Int} (hI : Inv False s a F)
    {e : Int} {r : Row K V} (hr : (a.rows.find? fun r => r.entry = e) = some r) :
    handed k e s = .ok (handsOut k r) s := by
  have h1 := List.mem_of_find?_eq_some hr
  have h2 : r.entry = e := by simpa using List.find?_some hr
  refine handed_spec hI (List.mem_map.2 ⟨r, h1, h2⟩) ?_
  cases k
  · simp [handsOut, h2]
  · exact (step_spec hI (.getKeyAt e) trivial).1 r (.inl h1) h2
  · exact (step_spec hI (.getValueAt e) trivial).1 r (.inl h1) h2

theorem script_loop2 (S : Sim fuel k stepC toOp Arg Rel J) (hf : 2 ^ 31 ≤ fuel) (rest : List Int) :
    ∀ (l : List Int) (n : Nat) (acc : List Unit) (hits e u : Int) (o s : Index K V) (a : Abs K V) (x : σ),
      J o a → Rel o s → Made fuel s a → Sure (fun x a => Arg x ∧ indexMay (toOp x) a) (fun x => indexCan (toOp x)) (indexMove k) c P (l ++ rest, a) x →
      Path s.nexts e (l.filter fun e => e ∈ a.live) u → l.length < n → 0 ≤ hits → hits + l.length < 2 ^ 31 →
      (∃ z o' x' b, Gen.KeyValueIndexedMapWalk.forEachEntry_loop2 (playing stepC c k) n acc hits e ⟨o, x⟩ = .err z ⟨o', x'⟩ ∧
        J o' b.2 ∧ P (.error z) x' b) ∨
      (∃ acc' hits' o' s' x' a', Gen.KeyValueIndexedMapWalk.forEachEntry_loop2 (playing stepC c k) n acc hits e ⟨o, x⟩ =
          .ok (acc', hits') ⟨o', x'⟩ ∧ J o' a' ∧ Rel o' s' ∧ Made fuel s' a' ∧ Shrunk s s' a a' ∧
        Sure (fun x a => Arg x ∧ indexMay (toOp x) a) (fun x => indexCan (toOp x)) (indexMove k) c P (rest, a') x' ∧
        hits ≤ hits' ∧ hits' ≤ hits + (l.filter fun e => e ∈ a.live).length)
  | _, 0, _, _, _, _, _, _, _, _, _, _, _, _, _, h, _, _ => by omega
  | [], n + 1, acc, hits, e, u, o, s, a, x, hj, hr, hm, hs, hp, _, h0, _ => by
    obtain ⟨F, hI⟩ := reach_inv (hm.reach hf)
    have h1 := hp.1; have h2 := hp.2
    refine .inr ⟨acc, hits, o, s, x, a, ?_, hj, hr, hm, shrunk_refl hI, hs, by omega, by simp⟩
    rw [Gen.KeyValueIndexedMapWalk.forEachEntry_loop2, if_neg (by simp; omega)]; rfl
  | y :: l, n + 1, acc, hits, e, u, o, s, a, x, hj, hrel, hm, hs, hp, hl, h0, hz => by
    obtain ⟨F, hI⟩ := reach_inv (hm.reach hf)
    simp only [List.length_cons] at hl hz
    cases hs with
    | done hm' _ => simp [indexMove] at hm'
    | skip hm' hs =>
      simp only [List.cons_append, indexMove, Option.some.injEq, Prod.mk.injEq, Option.map_eq_none_iff] at hm'
      obtain ⟨hn, rfl⟩ := hm'
      have hy : y ∉ a.live := by
        intro hy
        obtain ⟨r, hr, rfl⟩ := List.mem_map.1 hy
        have := List.find?_eq_none.1 hn r hr
        simp at this
      have ef : ((y :: l).filter fun e => e ∈ a.live) = l.filter fun e => e ∈ a.live := by simp [hy]
      rw [ef] at hp ⊢
      exact script_loop2 S hf rest l (n + 1) acc hits e u o s a x hj hrel hm hs hp (by omega) h0 (by omega)
    | @step _ _ _ v Q hm' hs he hs' =>
      simp only [List.cons_append, indexMove, Option.some.injEq, Prod.mk.injEq, Option.map_eq_some_iff] at hm'
      obtain ⟨⟨r, hr, rfl⟩, rfl⟩ := hm'
      have hrm := List.mem_of_find?_eq_some hr
      have hre : r.entry = y := by simpa using List.find?_some hr
      have hy : y ∈ a.live := List.mem_map.2 ⟨r, hrm, hre⟩
      have ef : ((y :: l).filter fun e => e ∈ a.live) = y :: l.filter fun e => e ∈ a.live := by simp [hy]
      rw [ef] at hp ⊢
      obtain ⟨rfl, p0, p1, p2⟩ := hp
      obtain ⟨out, x', o', b, q1, ⟨q2, qj, s', qr, q3, q4, q5⟩, q6⟩ := play_spec
        (R := fun o (b : List Int × Abs K V) => b.1 = l ++ rest ∧ J o b.2 ∧ ∃ t, Rel o t ∧ Made fuel t b.2 ∧ Shrunk s t a b.2 ∧
          ∀ y, ((l ++ rest).find? fun e => e ∈ a.live) = some y → y ∈ b.2.live)
        (step := stepC) (fun x o b h hm => script_call S hf x o b h hm) (c (handsOut k r) x) o (l ++ rest, a) x
        ⟨rfl, hj, s, hrel, hm, shrunk_refl hI, fun y hy => by simpa using List.find?_some hy⟩ hs
      obtain ⟨F', hI'⟩ := reach_inv (q3.reach hf)
      have hc : ∀ {γ : Type} (w : Unit → JM (Beside σ (Index K V)) γ), (playing stepC c k e >>= w) ⟨o, x⟩ =
          proceed out (w () ⟨o', x'⟩) ⟨o', x'⟩ := by
        intro γ w
        unfold playing
        rw [assoc, JM.bind_ok (lift_ok (S.hand hrel (handed_row hI hr)) x), consumer_cases q1]
      have unroll : Gen.KeyValueIndexedMapWalk.forEachEntry_loop2 (playing stepC c k) (n + 1) acc hits e ⟨o, x⟩ =
          proceed out (Gen.KeyValueIndexedMapWalk.forEachEntry_loop2 (playing stepC c k) n (acc ++ [()]) (hits + 1)
            (s.nexts.get e) ⟨o', x'⟩) ⟨o', x'⟩ := by
        rw [Gen.KeyValueIndexedMapWalk.forEachEntry_loop2, if_pos (by simpa using p0),
          JM.bind_ok (lift_ok (rd_ok Index.nexts ⟨p0, by rw [S.nexts hrel]; exact p1⟩) x), S.nexts hrel]
        simp only
        rw [hc, i32_of_range (by omega)]
      cases out with
      | error z =>
        exact .inl ⟨z, o', x', b, unroll, qj, he _ _ _ q6⟩
      | ok _ =>
        obtain ⟨u', hp'⟩ : ∃ u', Path s'.nexts (s.nexts.get e) (l.filter fun e => e ∈ b.2.live) u' := by
          rw [← filter_live_trans (a' := a) (fun x hx => q4.live hx) l]
          cases hfl : l.filter fun e => e ∈ a.live with
          | nil => rw [hfl] at p2; exact ⟨u, p2⟩
          | cons y ys =>
            rw [hfl] at p2
            have hyy := p2.1
            rw [hyy] at p2 ⊢
            have hya : y ∈ a.live := by
              have : y ∈ l.filter fun e => e ∈ a.live := by rw [hfl]; simp
              simpa using (List.mem_filter.1 this).2
            exact q4.path hI hI' p2 hya (q5 y (find_head l rest hfl))
        have hnext := hs' x' b q6
        obtain ⟨b1, b2⟩ := b
        simp only at q2; subst q2
        have hfl : (l.filter fun e => e ∈ b2.live).length ≤ (l.filter fun e => e ∈ a.live).length := by
          rw [← filter_live_trans (a' := a) (fun x hx => q4.live hx) l]
          exact List.length_filter_le _ _
        rcases script_loop2 S hf rest l n (acc ++ [()]) (hits + 1) _ u' o' s' b2 x' qj qr q3 hnext hp' (by omega) (by omega) (by omega)
          with ⟨z, o2, x2, b, w1, w2, w3⟩ | ⟨acc', hits', o2, s2, x2, a2, w1, wj, wr, w2, w3, w4, w5, w6⟩
        · exact .inl ⟨z, o2, x2, b, unroll.trans w1, w2, w3⟩
        · refine .inr ⟨acc', hits', o2, s2, x2, a2, unroll.trans w1, wj, wr, w2, q4.trans w3, w4, by omega, ?_⟩
          simp only [List.length_cons]
          omega

theorem sure_dead {a : Abs K V} {x : σ} : ∀ (l : List Int), Sure (fun x a => Arg x ∧ indexMay (toOp x) a) (fun x => indexCan (toOp x)) (indexMove k) c P (l, a) x →
    (l.filter fun e => e ∈ a.live) = [] → P (.ok ()) x ([], a)
  | [], h, _ => by
    cases h with
    | done _ h => exact h
    | skip h _ => simp [indexMove] at h
    | step _ h _ _ _ => simp [indexMove] at h
  | e :: l, h, hf => by
    have he : e ∉ a.live := by
      intro he
      have : e ∈ (e :: l).filter fun e => e ∈ a.live := List.mem_filter.2 ⟨by simp, by simpa using he⟩
      rw [hf] at this; cases this
    have hf' : (l.filter fun e => e ∈ a.live) = [] := by simpa [he] using hf
    cases h with
    | done h _ => simp [indexMove] at h
    | skip hm h =>
      simp only [indexMove, Option.some.injEq, Prod.mk.injEq] at hm
      obtain ⟨-, rfl⟩ := hm
      exact sure_dead l h hf'
    | step _ hm _ _ _ =>
      simp only [indexMove, Option.some.injEq, Prod.mk.injEq, Option.map_eq_some_iff] at hm
      obtain ⟨⟨r, hr, -⟩, -⟩ := hm
      exact absurd (List.mem_map.2 ⟨r, List.mem_of_find?_eq_some hr, by simpa using List.find?_some hr⟩) he

theorem script_loop1 (S : Sim fuel k stepC toOp Arg Rel J) (hf : 2 ^ 31 ≤ fuel) (hits0 : Int) (hh0 : hits0 ≤ 2 ^ 29) (s0 : Index K V) (a0 : Abs K V)
    (h29 : s0.nexts.len ≤ 2 ^ 29 ∧ s0.heads.len ≤ 2 ^ 29) {F0 : List Int} (hI0 : Inv False s0 a0 F0) :
    ∀ (n m : Nat) (acc : List Unit) (hits : Int) (o s : Index K V) (a : Abs K V) (x : σ) (i : Int),
      J o a → Rel o s → Made fuel s a → Shrunk s0 s a0 a → Sure (fun x a => Arg x ∧ indexMay (toOp x) a) (fun x => indexCan (toOp x)) (indexMove k) c P (orderFrom s0 n i, a) x →
      0 ≤ i → i + n = s0.heads.len → n < m → 0 ≤ hits →
      hits + ((orderFrom s0 n i).filter fun e => e ∈ a.live).length ≤ hits0 →
      ∃ r x' o' b, (match r with
        | .ok _ => ∃ p, Gen.KeyValueIndexedMapWalk.forEachEntry_loop1 fuel (playing stepC c k) hits0 m acc hits i ⟨o, x⟩ = .ok p ⟨o', x'⟩
        | .error z => Gen.KeyValueIndexedMapWalk.forEachEntry_loop1 fuel (playing stepC c k) hits0 m acc hits i ⟨o, x⟩ = .err z ⟨o', x'⟩) ∧
        J o' b.2 ∧ P r x' b
  | n, 0, _, _, _, _, _, _, _, _, _, _, _, _, _, _, h, _, _ => by omega
  | 0, m + 1, acc, hits, o, s, a, x, i, hj, hr, hm, hs, hv, h0, h1, hfu, hp, hh => by
    refine ⟨.ok (), x, o, ([], a), ⟨(acc, hits), ?_⟩, hj, sure_dead _ hv (by simp [orderFrom])⟩
    have := hs.1
    have e0 := S.heads hr
    rw [Gen.KeyValueIndexedMapWalk.forEachEntry_loop1, JM.bind_ok (lift_get _), if_neg (by simp [e0]; omega)]; rfl
  | n + 1, m + 1, acc, hits, o, s, a, x, i, hj, hr, hm, hs, hv, h0, h1, hfu, hp, hh => by
    have e1 := hs.1
    have e2 := hs.2.1
    have e0 := S.heads hr
    by_cases hlt : hits < hits0
    · obtain ⟨F, hI⟩ := reach_inv (hm.reach hf)
      obtain ⟨u0, hp0, -⟩ := chain_at hI0 h0 (by omega)
      have hll : (chainOf s0 i).length ≤ s0.nexts.len := hp0.length_le
      obtain ⟨u, hpa, -⟩ := chain_at hI h0 (by omega)
      have hpa : Path s.nexts (s.heads.get i) (chainOf s i) u := hpa
      rw [hs.2.2.2 i h0 (by omega)] at hpa
      have ho : orderFrom s0 (n + 1) i = chainOf s0 i ++ orderFrom s0 n (i + 1) := rfl
      rw [ho] at hv hh
      rw [List.filter_append, List.length_append] at hh
      have unroll : ∀ (p : Res (Beside σ (Index K V)) (List Unit × Int)),
          Gen.KeyValueIndexedMapWalk.forEachEntry_loop2 (playing stepC c k) fuel acc hits (s.heads.get i) ⟨o, x⟩ = p →
          Gen.KeyValueIndexedMapWalk.forEachEntry_loop1 fuel (playing stepC c k) hits0 (m + 1) acc hits i ⟨o, x⟩ =
            match p with
            | .ok q t => Gen.KeyValueIndexedMapWalk.forEachEntry_loop1 fuel (playing stepC c k) hits0 m q.1 q.2 (i + 1) t
            | .err z t => .err z t := by
        rintro p rfl
        rw [Gen.KeyValueIndexedMapWalk.forEachEntry_loop1, JM.bind_ok (lift_get _), if_pos (by simp [e0]; omega),
          JM.bind_ok (lift_ok (rd_ok Index.heads ⟨h0, by rw [e0]; omega⟩) x), JM.bind_apply, e0]
        dsimp only
        rw [i32_of_range (x := i + 1) (by omega)]
        cases Gen.KeyValueIndexedMapWalk.forEachEntry_loop2 (playing stepC c k) fuel acc hits (s.heads.get i) ⟨o, x⟩ <;> rfl
      rcases script_loop2 S hf (orderFrom s0 n (i + 1)) (chainOf s0 i) fuel acc hits _ u o s a x hj hr hm hv hpa (by omega) hp (by omega)
        with ⟨z, o2, x2, b, w1, w2, w3⟩ | ⟨acc', hits', o2, s2, x2, a2, w1, wj, wr, w2, w3, w4, w5, w6⟩
      · exact ⟨.error z, x2, o2, b, unroll _ w1, w2, w3⟩
      · have hfl : ((orderFrom s0 n (i + 1)).filter fun e => e ∈ a2.live).length ≤
            ((orderFrom s0 n (i + 1)).filter fun e => e ∈ a.live).length := by
          rw [← filter_live_trans (a' := a) (fun x hx => w3.live hx)]
          exact List.length_filter_le _ _
        obtain ⟨r, x', s', b, g1, g2, g3⟩ := script_loop1 S hf hits0 hh0 s0 a0 h29 hI0 n m acc' hits' o2 s2 a2 x2 (i + 1) wj wr w2
          (hs.trans w3) w4 (by omega) (by omega) (by omega) (by omega) (by omega)
        refine ⟨r, x', s', b, ?_, g2, g3⟩
        rw [unroll _ w1]
        exact g1
    · refine ⟨.ok (), x, o, ([], a), ⟨(acc, hits), ?_⟩, hj, sure_dead _ hv (List.length_eq_zero_iff.1 (by omega))⟩
      rw [Gen.KeyValueIndexedMapWalk.forEachEntry_loop1, JM.bind_ok (lift_get _), if_neg (by simp [e0]; omega)]; rfl


/-- The generated walk of a class that behaves like the map. -/
theorem script_walk (S : Sim fuel k stepC toOp Arg Rel J) (hf : 2 ^ 31 ≤ fuel) {o s : Index K V} {a : Abs K V} (hj : J o a)
    (hr : Rel o s) (h : Made fuel s a) (u : σ) (hw : Sure (fun x a => Arg x ∧ indexMay (toOp x) a) (fun x => indexCan (toOp x)) (indexMove k) c P (order s, a) u) :
    ∃ r u' b o', P r u' b ∧
      Ended (Gen.KeyValueIndexedMapWalk.forEachEntry fuel (playing stepC c k) ⟨o, u⟩) r ⟨o', u'⟩ ∧ J o' b.2 := by
  obtain ⟨F, hI⟩ := reach_inv (h.reach hf)
  have hol := order_length hI
  have hlens : Lens s := Fine.lens ⟨(h.inv hf).1, a, F, hI⟩
  have hsz : s.size ≤ 2 ^ 29 := by
    have := hI.size; have := hI.count; have := hI.next_le; have := hI.next; have := hI.nlen; have := hI.cap_pos
    unfold Lens at hlens
    omega
  have es := S.size hr
  unfold Gen.KeyValueIndexedMapWalk.forEachEntry
  dsimp only
  rw [JM.bind_ok (Link.ScriptL.lift_get _)]
  by_cases hz : s.size = 0
  · have : order s = [] := List.length_eq_zero_iff.1 (by omega)
    rw [this] at hw
    exact ⟨.ok (), u, ([], a), o, sure_dead _ hw rfl, ⟨[], by rw [if_pos (by simpa [es] using hz)]; rfl⟩, hj⟩
  · rw [if_neg (by simpa [es] using hz), es]
    unfold Lens at hlens
    have hfl := List.length_filter_le (fun e => decide (e ∈ a.live)) (order s)
    obtain ⟨r, u', s', b, g1, g2, g3⟩ := script_loop1 S hf s.size (by omega) s a hlens hI s.heads.len fuel []
      0 o s a u 0 hj hr h (shrunk_refl hI) hw (by omega) (by omega) (by omega) (by omega) (by unfold order at *; omega)
    refine ⟨r, u', b, s', g3, ?_, g2⟩
    cases r with
    | ok _ => obtain ⟨p, hp⟩ := g1; exact ⟨p.1, by rw [JM.bind_ok hp]; rfl⟩
    | error z =>
      show _ = _
      exact JM.bind_err g1

theorem like_map (fuel : Nat) (k : Kind) :
    Sim fuel k (step (K := K) (V := V) fuel) id IntArg (fun o s => o = s) (Made fuel) where
  heads h := by rw [h]
  nexts h := by rw [h]
  size h := by rw [h]
  hand h he := by rw [h]; exact he
  arg h := h
  call h _ _ _ := by rw [h]; exact ⟨rfl, rfl⟩
  keep h h1 h2 := h.call _ h1 h2

theorem order_of (hf : 2 ^ 31 ≤ fuel) {s : Index K V} {a : Abs K V} (h : Made fuel s a) {l : List Int}
    (hl : res fuel .forEachEntry s = .ok (.ints l)) : l = order s := by
  obtain ⟨F, hI⟩ := reach_inv (h.reach hf)
  have : result .forEachEntry s = .ok (.ints (order s)) := by
    simp only [result, Index.step]; rw [JM.bind_ok (forEachEntry_spec hI)]; rfl
  unfold res at hl
  rw [h.eq hf .forEachEntry trivial trivial] at hl
  have e : result .forEachEntry s = .ok (.ints l) := hl
  rw [this] at e
  simpa using e.symm

end Link.Map

/-- C113, indexed map (partial as `C93_generated_removals_partial`: the calls must leave the next entry where it is and
add no key): let the walk over the ideal contents, in the order `forEachEntry` gives and with the consumer `c`, be sure to
end as `P` says.  Then the generated `forEachEntry`, `forEach` and `forEachValue` end like that, and the map has the
contents at the end. -/
theorem C113_generated_index_partial {σ K V : Type} [Inhabited K] [Inhabited V] {fuel : Nat} (hf : 2 ^ 31 ≤ fuel)
    {s : Index K V} {a : Abs K V} (h : Link.Map.Made fuel s a) (k : Kind) (l : List Int)
    (hl : Link.Map.res fuel .forEachEntry s = .ok (.ints l))
    (c : Out K V → σ → Script (Op K V) (Out K V) σ) (u : σ) (P : Except Err Unit → σ → List Int × Abs K V → Prop)
    (hw : Sure (fun o a => Link.Map.IntArg o ∧ indexMay o a) indexCan (indexMove k) c P (l, a) u) :
    ∃ r u' b s', P r u' b ∧ Ended (Link.Map.scriptWalk fuel c k ⟨s, u⟩) r ⟨s', u'⟩ ∧ Link.Map.Made fuel s' b.2 := by
  obtain rfl := Link.Map.order_of hf h hl
  rw [Link.Map.scriptWalk_eq]
  exact Link.Map.script_walk (Link.Map.like_map fuel k) hf h rfl h u hw

/-- A consumer of keys: at 25 it removes 9 and notes the entry; at 1 it asks for 9 and passes on the exception. -/
def sweeping (b : Out Int Int) (u : List Int) : Script (Op Int Int) (Out Int Int) (List Int) :=
  match b with
  | .key 25 => .call (.remove 9) fun r => match r with
    | .ok (.int e) => .done (u ++ [e])
    | _ => .fail .illegalState u
  | .key 1 => .call (.get 9) fun r => match r with
    | .error e => .fail e u
    | .ok _ => .done u
  | _ => .done u

/- `sweeping` on a map of four keys in one chain meets the hypothesis of `C113_generated_index_partial` (the removed entry
is passed over) ... -/
example : Sure (fun o a => Link.Map.IntArg o ∧ indexMay o a) indexCan (indexMove .keys) sweeping
    (fun r u b => r = .error .keyNotFound ∧ u = [1] ∧ b.2.live = [0, 2, 3])
    ([3, 2, 1, 0], (⟨[⟨0, 1, 5⟩, ⟨1, 9, 6⟩, ⟨2, 17, 7⟩, ⟨3, 25, 8⟩], [], [], 4, fun k : Int => BitVec.ofInt 32 k,
      fun a b => a == b⟩ : Abs Int Int)) [] := by
  refine .step (fun r u b => r = .ok () ∧ u = [1] ∧ b = ([2, 1, 0], (⟨[⟨0, 1, 5⟩, ⟨2, 17, 7⟩, ⟨3, 25, 8⟩], [], [1], 4,
    fun k : Int => BitVec.ofInt 32 k, fun a b => a == b⟩ : Abs Int Int))) rfl ⟨⟨trivial, trivial, ?_⟩, fun r b h => ?_⟩
    (by simp) ?_
  · intro r hr
    have : r = ⟨1, 9, 6⟩ := Option.some.inj (hr.symm.trans rfl)
    subst this; decide
  · obtain ⟨h, rfl⟩ := h
    have h : r = .ok (.int 1) := h
    subst h
    exact ⟨rfl, rfl, rfl⟩
  rintro u b ⟨-, rfl, rfl⟩
  refine .step (fun r u b => r = .ok () ∧ u = [1] ∧ b = ([1, 0], (⟨[⟨0, 1, 5⟩, ⟨2, 17, 7⟩, ⟨3, 25, 8⟩], [], [1], 4,
    fun k : Int => BitVec.ofInt 32 k, fun a b => a == b⟩ : Abs Int Int))) rfl ⟨rfl, rfl, rfl⟩ (by simp) ?_
  rintro u b ⟨-, rfl, rfl⟩
  refine .skip rfl (.step (fun r u b => r = .error .keyNotFound ∧ u = [1] ∧ b.2.live = [0, 2, 3]) rfl
    ⟨⟨trivial, trivial, trivial⟩, fun r b h => ?_⟩ (fun _ _ _ h => h) (by simp))
  obtain ⟨h, rfl⟩ := h
  have h : r = .error .keyNotFound := h
  subst h
  exact ⟨rfl, rfl, rfl⟩

/- ... and this is the run. -/
example : (match Link.Map.scriptWalk 40 sweeping .keys ⟨(Link.Map.fourKeys 40).state, []⟩ with
    | .err e t => some (e, t.ext, (Link.Map.step 40 .forEach t.obj).out)
    | _ => none) = some (.keyNotFound, [1], .ok (.keys [25, 17, 1])) := by decide +kernel

/-- C113 is false of an indexed map whose consumer removes the entry that comes next: at 25 it takes 17 out, and it is
handed 0, a key the map never had, in its place, and no other key. -/
theorem C113_generated_index_refuted :
    (match Link.Map.scriptWalk 40 (fun b (u : List (Out Int Int)) => match b with
        | .key 25 => .call (.remove 17) fun _ => .done (u ++ [b])
        | _ => .done (u ++ [b])) .keys ⟨(Link.Map.fourKeys 40).state, []⟩ with
    | .ok _ t => some (t.ext, (Link.Map.step 40 .forEach t.obj).out)
    | _ => none) = some ([.key 25, .key 0], .ok (.keys [25, 9, 1])) := by decide +kernel

end Verif

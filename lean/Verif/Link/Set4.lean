import Verif.Link.Set3
/-! `KeyIndexedSet.ftl`: constructors, histories and copies of the generated class. -/
set_option linter.unusedSectionVars false
namespace Verif.Link.SetL
open Verif Verif.Gen Index IndexSpec
variable {K V : Type} [Inhabited K] [Inhabited V] {α β γ : Type}

theorem withV_withV (s : Index K V) (v w : Arr V) : withV (withV s v) w = withV s w := rfl
theorem withV_self (s : Index K V) : withV s s.values = s := rfl

theorem initHash_gen : (KeyIndexedSet.init_BaseHash_2 : (K → BitVec 32) → (K → K → Bool) → Int → (Nat × Nat) → JM (Index K V) Unit)
    = KeyValueIndexedMap.init_BaseHash_2 := by
  funext hash eq ic lf
  unfold KeyIndexedSet.init_BaseHash_2 KeyValueIndexedMap.init_BaseHash_2
  rfl

theorem initIndex_gen : (KeyIndexedSet.init_BaseKeyIndex_2 : (K → BitVec 32) → (K → K → Bool) → Int → (Nat × Nat) → JM (Index K V) Unit)
    = KeyValueIndexedMap.init_BaseKeyIndex_2 := by
  funext hash eq ic lf
  unfold KeyIndexedSet.init_BaseKeyIndex_2 KeyValueIndexedMap.init_BaseKeyIndex_2
  rw [initHash_gen]

/-- The set's constructor succeeds when the map's does, and gives the same object but for the values. -/
theorem init2_gen (hash : K → BitVec 32) (eq : K → K → Bool) (ic : Int) (lf : Nat × Nat) (s : Index K V)
    (hz : s.modificationCount = 0) :
    match KeyIndexedSet.init2 hash eq ic lf s with
    | .ok _ t => ∃ u w, KeyValueIndexedMap.init2 hash eq ic lf s = .ok () u ∧ t = withV u w
    | .err e _ => ∃ u, KeyValueIndexedMap.init2 hash eq ic lf s = .err e u := by
  have hn := Map.init2_eq hash eq ic lf s hz
  unfold KeyIndexedSet.init2
  rw [initIndex_gen, bind_unit]
  unfold KeyValueIndexedMap.init2 at hn ⊢
  cases hr : KeyValueIndexedMap.init_BaseKeyIndex_2 hash eq ic lf s with
  | err e t => simp only; exact ⟨t, JM.bind_err hr⟩
  | ok a t =>
    simp only
    rw [JM.bind_ok hr] at hn ⊢
    rw [JM.bind_apply] at hn ⊢
    simp only [JM.get_apply] at hn ⊢
    by_cases hc : 0 ≤ t.capacity
    · have e1 : newArr t.capacity (default : V) t = .ok (Arr.create t.capacity default) t := by simp only [newArr, if_pos hc]
      rw [JM.bind_ok e1]
      exact ⟨withV t (Arr.create t.capacity default), t.values, rfl, rfl⟩
    · exfalso
      have e1 : newArr t.capacity (default : V) t = .err .negativeArraySize t := by simp only [newArr, if_neg hc]
      rw [JM.bind_err e1] at hn
      simp only [Index.new] at hn
      split at hn
      · cases hn
      · split at hn
        · cases hn
        · cases hn

theorem Inv.lens {tight : Prop} {s : Index K V} {a : Abs K V} {F : List Int} (h : Inv tight s a F) :
    s.keys.len = s.values.len := by
  have h1 := h.klen; have h2 := h.vlen
  omega

/-- One call of the set, from that of the map. -/
theorem step_of {tight : Prop} {s : Index K V} {a : Abs K V} {F : List Int} (h : Inv tight s a F) (fuel : Nat) (o : SetOp K) (v : Arr V) :
    (step fuel o (withV s v)).out = (Map.step fuel o.op s).out ∧
      ∃ w, (step fuel o (withV s v)).state = withV (Map.step fuel o.op s).state w := by
  have := step_S s v fuel o (Inv.lens h)
  cases hm : Map.step fuel o.op s with
  | ok r t => rw [hm] at this; obtain ⟨_, w, hw⟩ := this; rw [hw]; exact ⟨rfl, w, rfl⟩
  | err e t => rw [hm] at this; obtain ⟨w, hw⟩ := this; rw [hw]; exact ⟨rfl, w, rfl⟩

/-- The arguments are Java `int`s. -/
def IntArg : SetOp K → Prop
  | .removeAt e => -2 ^ 31 ≤ e ∧ e < 2 ^ 31
  | _ => True

theorem IntArg.op {o : SetOp K} (h : IntArg o) : Map.IntArg (o.op : Op K V) := by
  cases o <;> first | exact h | trivial

variable {tight : Prop}

theorem legal (fuel : Nat) (hf : 2 ^ 31 ≤ fuel) (ops : List (SetOp K)) (hi : ∀ o ∈ ops, IntArg o) :
    ∀ {s : Index K V} {v : Arr V} {a : Abs K V} {F : List Int}, Inv tight s a F → Map.Bx s →
      Legal Ok a (ops.map SetOp.op) (runM (step fuel) (withV s v) ops).1 := by
  induction ops with
  | nil => intro s v a F _ _; trivial
  | cons o os ih =>
    intro s v a F h hb hg
    have he := Map.step_eq fuel hf h hb o.op (hi o (by simp)).op hg
    obtain ⟨h1, _, F', h3⟩ := step_spec h o.op hg
    obtain ⟨e1, w, e2⟩ := step_of h fuel o v
    rw [he] at e1 e2
    rw [e1, e2]
    exact ⟨h1, ih (fun o ho => hi o (by simp [ho])) h3 (Map.step_bx o.op s hb)⟩

theorem legal_exact (fuel : Nat) (hf : 2 ^ 31 ≤ fuel) (ht : tight) (ops : List (SetOp K)) (hi : ∀ o ∈ ops, IntArg o) :
    ∀ {s : Index K V} {v : Arr V} {a : Abs K V} {F : List Int}, Inv tight s a F → Map.Bx s →
      Legal OkExact a (ops.map SetOp.op) (runM (step fuel) (withV s v) ops).1 := by
  induction ops with
  | nil => intro s v a F _ _; trivial
  | cons o os ih =>
    intro s v a F h hb hg
    have he := Map.step_eq fuel hf h hb o.op (hi o (by simp)).op hg
    obtain ⟨_, h2, F', h3⟩ := step_spec h o.op hg
    obtain ⟨e1, w, e2⟩ := step_of h fuel o v
    rw [he] at e1 e2
    rw [e1, e2]
    exact ⟨h2 ht, ih (fun o ho => hi o (by simp [ho])) h3 (Map.step_bx o.op s hb)⟩

/-- a step that stores an array -/
theorem S.modifyT {u u' : Index K V → Index K V} {f h : PUnit → JM (Index K V) β} {s : Index K V} {v : Arr V}
    (hu : u' (withV s v) = withV (u s) v)
    (h2 : S (fun _ _ => True) (f ⟨⟩) (h ⟨⟩) (u s) v) :
    S (fun _ _ => True) ((_root_.modify u : JM (Index K V) PUnit) >>= f)
      ((_root_.modify u' : JM (Index K V) PUnit) >>= h) s v := by
  intro hp
  rw [JM.bind_ok (JM.modify_apply u s), JM.bind_ok (JM.modify_apply u' _), hu]
  exact h2 trivial

macro "tt" : tactic => `(tactic| first
  | exact S.pure
  | (refine S.get ?_; simp only [withV_heads, withV_nexts, withV_keys, withV_capacity, withV_capThreshold, withV_size, withV_freeList, withV_nextUnusedEntry, withV_maxHead, withV_modificationCount, withV_hashFunc, withV_equalFunc, withV_lfNum, withV_lfDen])
  | refine S.stepL (newArr_local _ _ _) fun _ _ => ?_
  | refine S.stepL (fill_local _ _ _ _ _) fun _ _ => ?_
  | refine S.stepL (arraycopy_local _ _ _ _ _ _) fun _ _ => ?_
  | refine S.modifyT rfl ?_
  | refine S.bind (S.ite Iff.rfl ?_ ?_) fun _ _ _ _ => ?_)

theorem supersuperCopy_S (src s : Index K V) (v : Arr V) :
    S (fun _ _ => True) (KeyValueIndexedMap.supersuper_copyFrom src) (KeyIndexedSet.supersuper_copyFrom src) s v := by
  unfold KeyValueIndexedMap.supersuper_copyFrom KeyIndexedSet.supersuper_copyFrom
  repeat tt

theorem superCopy_S (src s : Index K V) (v : Arr V) :
    S (fun _ _ => True) (KeyValueIndexedMap.super_copyFrom src) (KeyIndexedSet.super_copyFrom src) s v := by
  unfold KeyValueIndexedMap.super_copyFrom KeyIndexedSet.super_copyFrom
  refine .bind (supersuperCopy_S src s v) fun _ _ _ _ => ?_
  repeat tt

/-- The calls leave everything but the values alone. -/
def ValOnly (m : JM (Index K V) α) : Prop := ∀ s a t, m s = .ok a t → ∃ w, t = withV s w

theorem ValOnly.bind {m : JM (Index K V) α} {f : α → JM (Index K V) β} (h1 : ValOnly m) (h2 : ∀ a, ValOnly (f a)) :
    ValOnly (m >>= f) := by
  intro s b t hb
  cases hm : m s with
  | err e t => rw [JM.bind_err hm] at hb; cases hb
  | ok a u =>
    rw [JM.bind_ok hm] at hb
    obtain ⟨w, rfl⟩ := h1 _ _ _ hm
    obtain ⟨w', rfl⟩ := h2 a _ _ _ hb
    exact ⟨w', rfl⟩

theorem ValOnly.pure {a : α} : ValOnly (Pure.pure a : JM (Index K V) α) := by
  intro s b t hb; cases hb; exact ⟨s.values, rfl⟩
theorem ValOnly.get : ValOnly (MonadState.get : JM (Index K V) (Index K V)) := by
  intro s b t hb; cases hb; exact ⟨s.values, rfl⟩
theorem ValOnly.ofLocal {m : JM (Index K V) α} (h : ∃ r, ∀ s, m s = ofExcept r s) : ValOnly m := by
  obtain ⟨r, hr⟩ := h
  intro s b t hb
  rw [hr] at hb
  cases r with
  | error e => cases hb
  | ok x => cases hb; exact ⟨s.values, rfl⟩
theorem ValOnly.put (w : Arr V) : ValOnly (modify (fun self : Index K V => { self with values := w }) : JM (Index K V) PUnit) := by
  intro s b t hb; cases hb; exact ⟨w, rfl⟩
theorem ValOnly.ite {c : Prop} [Decidable c] {m n : JM (Index K V) α} (h1 : ValOnly m) (h2 : ValOnly n) :
    ValOnly (if c then m else n) := by split <;> assumption

/-- The set's `copyFrom` succeeds when the map's does. -/
theorem copyFrom_gen {src s t : Index K V} {v w : Arr V} (h : KeyValueIndexedMap.copyFrom src s = .ok () t) :
    ∃ x, KeyIndexedSet.copyFrom (withV src w) (withV s v) = .ok () (withV t x) := by
  have e0 : (KeyIndexedSet.copyFrom (withV src w) : JM (Index K V) Unit) = KeyIndexedSet.super_copyFrom src := by
    unfold KeyIndexedSet.copyFrom; rw [bind_unit]; rfl
  rw [e0]
  unfold KeyValueIndexedMap.copyFrom at h
  have hS := superCopy_S src s v trivial
  cases hm : KeyValueIndexedMap.super_copyFrom src s with
  | err e u => rw [JM.bind_err hm] at h; cases h
  | ok a u =>
    rw [JM.bind_ok hm] at h
    rw [hm] at hS
    obtain ⟨_, x, hx⟩ := hS
    have : ∃ w, t = withV u w := by
      refine ValOnly.bind .get (fun s1 => ?_) _ _ _ h
      refine .bind (.ite (.bind (.ofLocal (newArr_local _ _ _)) fun _ => .bind (.put _) fun _ => .pure)
        (.bind (.ite (.bind (.ofLocal (fill_local _ _ _ _ _)) fun _ => .bind (.put _) fun _ => .pure) .pure)
          fun _ => .pure)) fun _ => ?_
      refine .bind .get fun _ => .bind (.ofLocal (arraycopy_local _ _ _ _ _ _)) fun _ => .bind (.put _) fun _ => .pure
    obtain ⟨y, rfl⟩ := this
    exact ⟨x, hx⟩

/-- The objects a program can hold that only uses the generated class, and what its calls say their
contents are: construction (the counter starts at Java's zero), public calls, and copies between
collections with the same functions. -/
inductive Made (fuel : Nat) : Index K V → Abs K V → Prop
  | new {hash : K → BitVec 32} {eq : K → K → Bool} {ic : Int} {lf : Nat × Nat} {s₀ s : Index K V} :
      s₀.modificationCount = 0 → KeyIndexedSet.init2 hash eq ic lf s₀ = .ok () s → Made fuel s (empty hash eq)
  | call {s : Index K V} {a : Abs K V} (o : SetOp K) : Made fuel s a → IntArg o → Guard o.op a →
      Made fuel (step fuel o s).state (after o.op (step fuel o s).out a)
  | copy {s src t : Index K V} {a b : Abs K V} : Made fuel s a → Made fuel src b → a.hash = b.hash →
      a.eq = b.eq → src.capacity < 2 ^ 29 → KeyIndexedSet.copyFrom src s = .ok () t → Made fuel t b

theorem Made.inv {fuel : Nat} (hf : 2 ^ 31 ≤ fuel) {s : Index K V} {a : Abs K V} (h : Made fuel s a) :
    ∃ s' w, s = withV s' w ∧ Map.Made fuel s' a := by
  induction h with
  | @new hash eq ic lf s₀ s hz he =>
    have h := init2_gen hash eq ic lf s₀ hz
    rw [he] at h
    obtain ⟨u, w, h1, h2⟩ := h
    exact ⟨u, w, h2, .new hz h1⟩
  | @call s a o hm hi hg ih =>
    obtain ⟨s', w, rfl, hm'⟩ := ih
    obtain ⟨hb, hr⟩ := hm'.inv hf
    obtain ⟨F, hF⟩ := reach_inv hr
    obtain ⟨e1, x, e2⟩ := step_of hF fuel o w
    rw [e1, e2]
    exact ⟨_, _, rfl, .call o.op hm' hi.op hg⟩
  | copy _ _ hh hq hc he ih1 ih2 =>
    obtain ⟨s', v, rfl, hm1⟩ := ih1
    obtain ⟨src', w, rfl, hm2⟩ := ih2
    obtain ⟨hbs, hrs⟩ := hm1.inv hf
    obtain ⟨hbd, hrd⟩ := hm2.inv hf
    obtain ⟨F, hF⟩ := reach_inv hrs
    obtain ⟨G, hG⟩ := reach_inv hrd
    obtain ⟨t', h1, _⟩ := Map.copyFrom_eq hF hbs hG hbd hh hq hc
    obtain ⟨x, hx⟩ := copyFrom_gen (v := v) (w := w) h1
    rw [hx] at he; injection he with _ he
    exact ⟨t', x, he.symm, .copy hm1 hm2 hh hq hc h1⟩

end Verif.Link.SetL

namespace Verif
open Verif.Index Verif.IndexSpec Verif.Link.SetL
variable {K V : Type} [Inhabited K] [Inhabited V]

/-- C27 for the code generated from KeyIndexedSet.ftl, BaseKeyIndex.ftl and BaseHash.java: after the
constructor, every result of every history is that of an ideal set. -/
theorem C27_generated_set_results_legal (fuel : Nat) (hf : 2 ^ 31 ≤ fuel) (hash : K → BitVec 32) (eq : K → K → Bool)
    (ic : Int) (lf : Nat × Nat) (s₀ s : Index K V) (hz : s₀.modificationCount = 0) (u : Unit)
    (hnew : Gen.KeyIndexedSet.init2 hash eq ic lf s₀ = .ok u s) (ops : List (SetOp K))
    (hi : ∀ o ∈ ops, Link.SetL.IntArg o) :
    Legal Ok (empty hash eq) (ops.map SetOp.op) (runM (Link.SetL.step fuel) s ops).1 := by
  have h := init2_gen hash eq ic lf s₀ hz
  rw [hnew] at h
  obtain ⟨m, w, h1, rfl⟩ := h
  have h := Link.Map.init2_eq hash eq ic lf s₀ hz
  rw [h1] at h
  exact Link.SetL.legal fuel hf ops hi (new_inv hash eq h.symm) (Link.Map.new_bx hash eq h.symm)

/-- Which capacities and load factors the generated constructor accepts. -/
theorem C27_generated_set_new (hash : K → BitVec 32) (eq : K → K → Bool) (ic : Int) (lf : Nat × Nat)
    (s₀ : Index K V) (hz : s₀.modificationCount = 0) :
    (∃ s, Gen.KeyIndexedSet.init2 hash eq ic lf s₀ = .ok () s) ↔
      (0 < ic ∧ ic ≤ 2 ^ 29 ∧ 0 < lf.1 ∧ lf.1 ≤ lf.2) := by
  rw [← C27_generated_new hash eq ic lf s₀ hz]
  have h := init2_gen hash eq ic lf s₀ hz
  cases hr : Gen.KeyIndexedSet.init2 hash eq ic lf s₀ with
  | ok u t => rw [hr] at h; obtain ⟨m, _, h1, _⟩ := h; exact ⟨fun _ => ⟨m, h1⟩, fun _ => ⟨t, rfl⟩⟩
  | err e t =>
    rw [hr] at h
    obtain ⟨m, h1⟩ := h
    refine ⟨fun ⟨s, hs⟩ => (by cases hs), fun ⟨s, hs⟩ => ?_⟩
    rw [h1] at hs; cases hs

/-- C31 for the generated set: with `capacity * loadFactor >= 1/2` the entries handed out are exactly
those of the ideal allocator. -/
theorem C31_generated_set_exact (fuel : Nat) (hf : 2 ^ 31 ≤ fuel) (hash : K → BitVec 32) (eq : K → K → Bool)
    (ic : Int) (lf : Nat × Nat) (s₀ s : Index K V) (hz : s₀.modificationCount = 0) (u : Unit)
    (hnew : Gen.KeyIndexedSet.init2 hash eq ic lf s₀ = .ok u s)
    (hlf : (lf.2 : Int) ≤ 2 * nextPowerOf2 ic * lf.1) (ops : List (SetOp K))
    (hi : ∀ o ∈ ops, Link.SetL.IntArg o) :
    Legal OkExact (empty hash eq) (ops.map SetOp.op) (runM (Link.SetL.step fuel) s ops).1 := by
  have h := init2_gen hash eq ic lf s₀ hz
  rw [hnew] at h
  obtain ⟨m, w, h1, rfl⟩ := h
  have h := Link.Map.init2_eq hash eq ic lf s₀ hz
  rw [h1] at h
  exact Link.SetL.legal_exact fuel hf hlf ops hi (new_inv hash eq h.symm) (Link.Map.new_bx hash eq h.symm)

/-- C38 for the generated set: between sets with the same functions, whatever was done with them
before, `copyFrom` from a source with less than the maximal capacity succeeds, and every history on
the result has the results for the source's contents. -/
theorem C38_generated_set_copy (fuel : Nat) (hf : 2 ^ 31 ≤ fuel) {s src : Index K V} {a b : Abs K V}
    (hs : Link.SetL.Made fuel s a) (hd : Link.SetL.Made fuel src b) (hh : a.hash = b.hash) (hq : a.eq = b.eq)
    (hcap : src.capacity < 2 ^ 29) :
    ∃ t, Gen.KeyIndexedSet.copyFrom src s = .ok () t ∧ Link.SetL.Made fuel t b ∧
      ∀ ops, (∀ o ∈ ops, Link.SetL.IntArg o) →
        Legal Ok b (ops.map SetOp.op) (runM (Link.SetL.step fuel) t ops).1 := by
  obtain ⟨s', v, rfl, hm1⟩ := hs.inv hf
  obtain ⟨src', w, rfl, hm2⟩ := hd.inv hf
  obtain ⟨hbs, hrs⟩ := hm1.inv hf
  obtain ⟨hbd, hrd⟩ := hm2.inv hf
  obtain ⟨F, hF⟩ := reach_inv hrs
  obtain ⟨G, hG⟩ := reach_inv hrd
  obtain ⟨t', h1, _, h3, h4⟩ := Link.Map.copyFrom_eq hF hbs hG hbd hh hq hcap
  obtain ⟨x, hx⟩ := copyFrom_gen (v := v) (w := w) h1
  exact ⟨_, hx, .copy hs hd hh hq hcap hx, fun ops hi => Link.SetL.legal fuel hf ops hi h3 h4⟩

/- Non-vacuity: the generated set is built, grows from capacity 1, and is copied. -/
example : (match Gen.KeyIndexedSet.init2 (fun k : Int => BitVec.ofInt 32 k) (fun a b => a == b) 1 (3, 4) rawIndex,
      Gen.KeyIndexedSet.init2 (fun k : Int => BitVec.ofInt 32 k) (fun a b => a == b) 16 (1, 2) rawIndex with
    | .ok _ src, .ok _ s =>
      let src := (runM (Link.SetL.step 40) src [SetOp.add 7, .add 15, .add 23, .remove 15]).2
      let s := (runM (Link.SetL.step 40) s [SetOp.add 1, .add 2, .add 3, .add 4, .add 5]).2
      match Gen.KeyIndexedSet.copyFrom src s with
      | .ok _ t => (runM (Link.SetL.step 40) t [SetOp.size, .containsKey 7, .lookupEntry 23, .containsKey 1, .add 9,
          .forEachEntry, .removeAt 0, .forEach]).1
      | .err e _ => [.error e]
    | _, _ => []) =
      [.ok (.int 2), .ok (.bool true), .ok (.int 2), .ok (.bool false), .ok (.int 1), .ok (.ints [1, 2, 0]),
        .ok .unit, .ok (.keys [9, 23])] := by
  decide +kernel

end Verif

import Verif.Link.Index5
/-! `KeyValueIndexedMap.ftl`: the generated `copyFrom` agrees with the model. -/
set_option linter.unusedSectionVars false
namespace Verif.Link.Map
open Verif Verif.Gen Index IndexSpec
variable {K V : Type} [Inhabited K] [Inhabited V] {β : Type}

/-- A step that makes an array and stores it. -/
theorem store {σ α γ δ : Type} {Q : γ → δ → Prop} {m : JM σ (Arr α)} {put : Arr α → σ → σ} {g : JM σ Unit}
    {f : Arr α → JM σ γ} {h : Unit → JM σ δ} {s : σ} (hm : ∃ r, ∀ s, m s = ofExcept r s)
    (hg : g s = (m >>= fun x => modify (put x)) s)
    (hk : ∀ x, m s = .ok x s → Sim Q (f x) (h ()) (put x s)) :
    Sim Q (m >>= fun x => modify (put x) >>= fun _ => f x) (g >>= h) s := by
  obtain ⟨r, hr⟩ := hm
  cases r with
  | error e =>
    have e1 : m s = .err e s := hr s
    have e2 : g s = .err e s := by rw [hg, JM.bind_err e1]
    unfold Sim; rw [JM.bind_err e1, JM.bind_err e2]; exact .inr rfl
  | ok x =>
    have e1 : m s = .ok x s := hr s
    have e2 : g s = .ok () (put x s) := by rw [hg, JM.bind_ok e1]; rfl
    unfold Sim; rw [JM.bind_ok e1, JM.bind_ok (JM.modify_apply _ _), JM.bind_ok e2]
    exact hk x e1

theorem mod_mod {σ γ : Type} (f g : σ → σ) (k : PUnit → JM σ γ) :
    ((modify f : JM σ PUnit) >>= fun _ => (modify g : JM σ PUnit) >>= k) = (modify fun s => g (f s)) >>= k := rfl
theorem mod_get_mod {σ γ : Type} (f : σ → σ) (g : σ → σ → σ) (k : PUnit → JM σ γ) :
    ((modify f : JM σ PUnit) >>= fun _ => (MonadState.get : JM σ σ) >>= fun s => (modify (g s) : JM σ PUnit) >>= k) =
      (modify fun s => g (f s) (f s)) >>= k := rfl

theorem ite_local {σ α : Type} {c : Prop} [Decidable c] {m n : JM σ α} (h1 : ∃ r, ∀ s, m s = ofExcept r s)
    (h2 : ∃ r, ∀ s, n s = ofExcept r s) : ∃ r, ∀ s, (if c then m else n) s = ofExcept r s := by
  split <;> assumption

theorem pure_local {σ α : Type} (a : α) : ∃ r, ∀ s, (pure a : JM σ α) s = ofExcept r s := ⟨.ok a, fun _ => rfl⟩

/-- What `copyFrom` does to `int` arithmetic: the array lengths fit. -/
theorem copyFrom_sim {s src : Index K V} (hn : s.nexts.len < 2 ^ 31) (hk : s.keys.len < 2 ^ 31)
    (hv : s.values.len < 2 ^ 31) (hn' : src.nexts.len < 2 ^ 31) (hk' : src.keys.len < 2 ^ 31)
    (hv' : src.values.len < 2 ^ 31) :
    Sim Eq (copyFrom src) (KeyValueIndexedMap.copyFrom src) s := by
  unfold copyFrom KeyValueIndexedMap.copyFrom KeyValueIndexedMap.super_copyFrom
    KeyValueIndexedMap.supersuper_copyFrom headsLike roomLike valuesLike
  simp only [assoc, bind_unit, decide_eq_true_eq]
  refine .get ?_
  refine store (put := fun x (t : Index K V) => { t with heads := x })
    (ite_local (newArr_local _ _ _) (pure_local _)) ?_ fun hd _ => ?_
  · split <;> rfl
  refine .right rfl ?_
  dsimp only
  rw [i32_of_range (x := (s.nexts.len : Int) - src.nexts.len) (by omega)]
  refine store (put := fun x (t : Index K V) => { t with nexts := x })
    (ite_local (newArr_local _ _ _) (fill_local _ _ _ _ _)) ?_ fun nx _ => ?_
  · split <;> rfl
  refine .right rfl ?_
  dsimp only
  refine .stepL (arraycopy_local _ _ _ _ _ _) fun hd _ => .modify rfl (.right rfl ?_)
  dsimp only
  refine .stepL (arraycopy_local _ _ _ _ _ _) fun nx _ => .modify rfl (.right rfl ?_)
  dsimp only
  refine .modify rfl ?_
  rw [mod_mod, mod_mod, mod_mod, mod_mod]
  refine .modify rfl (.right rfl ?_)
  dsimp only
  rw [i32_of_range (x := (s.keys.len : Int) - src.keys.len) (by omega)]
  refine store (put := fun x (t : Index K V) => { t with keys := x })
    (ite_local (newArr_local _ _ _) (fill_local _ _ _ _ _)) ?_ fun ks _ => ?_
  · split <;> rfl
  refine .right rfl ?_
  dsimp only
  refine .stepL (arraycopy_local _ _ _ _ _ _) fun ks _ => .modify rfl (.right rfl ?_)
  dsimp only
  rw [mod_get_mod]
  refine .modify rfl (.right rfl ?_)
  dsimp only
  rw [i32_of_range (x := (s.values.len : Int) - src.values.len) (by omega)]
  refine store (put := fun x (t : Index K V) => { t with values := x })
    (ite_local (newArr_local _ _ _) (ite_local (fill_local _ _ _ _ _) (pure_local _))) ?_ fun vs _ => ?_
  · split
    · rfl
    · split <;> rfl
  refine .right rfl ?_
  dsimp only
  refine .stepL (arraycopy_local _ _ _ _ _ _) fun vs _ => .of_eq rfl

theorem copyFrom_max {src : Index K V} (h : src.maxHead < 2 ^ 29) :
    Keeps (fun s : Index K V => s.maxHead < 2 ^ 29) (copyFrom src) := by
  unfold copyFrom headsLike roomLike valuesLike bumpMod
  refine .bind .get fun s => ?_
  refine .bind (.ofLocal (ite_local (newArr_local _ _ _) (pure_local _))) fun _ => ?_
  refine .bind (.modify fun _ h => h) fun _ => ?_
  refine .bind (.ofLocal (ite_local (newArr_local _ _ _) (fill_local _ _ _ _ _))) fun _ => ?_
  refine .bind (.modify fun _ h => h) fun _ => ?_
  refine .bind (.ofLocal (arraycopy_local _ _ _ _ _ _)) fun _ => ?_
  refine .bind (.modify fun _ h => h) fun _ => ?_
  refine .bind (.ofLocal (arraycopy_local _ _ _ _ _ _)) fun _ => ?_
  refine .bind (.modify fun _ h => h) fun _ => ?_
  refine .bind (.modify fun _ h => h) fun _ => ?_
  refine .bind (.modify fun _ _ => h) fun _ => ?_
  refine .bind (.ofLocal (ite_local (newArr_local _ _ _) (fill_local _ _ _ _ _))) fun _ => ?_
  refine .bind (.modify fun _ h => h) fun _ => ?_
  refine .bind (.ofLocal (arraycopy_local _ _ _ _ _ _)) fun _ => ?_
  refine .bind (.modify fun _ h => h) fun _ => ?_
  refine .bind (.modify fun _ h => h) fun _ => ?_
  refine .bind (.ofLocal (ite_local (newArr_local _ _ _) (ite_local (fill_local _ _ _ _ _) (pure_local _)))) fun _ => ?_
  refine .bind (.modify fun _ h => h) fun _ => ?_
  refine .bind (.ofLocal (arraycopy_local _ _ _ _ _ _)) fun _ => ?_
  exact .modify fun _ h => h

/-- One `copyFrom`, as an equation. -/
theorem copyFrom_eq {tight tight' : Prop} {s src : Index K V} {a b : Abs K V} {F G : List Int}
    (hs : Inv tight s a F) (hbs : Bx s) (hd : Inv tight' src b G) (hbd : Bx src) (hh : a.hash = b.hash)
    (hq : a.eq = b.eq) (hcap : src.capacity < 2 ^ 29) :
    ∃ t, KeyValueIndexedMap.copyFrom src s = .ok () t ∧ copyFrom src s = .ok () t ∧ Inv tight' t b G ∧ Bx t := by
  obtain ⟨t, h1, h2, _⟩ := copyFrom_spec hs hd (by rw [hs.hash, hd.hash, hh]) (by rw [hs.eq, hd.eq, hq]) hcap
  have c1 := hs.cap_pos; have c2 := hd.cap_pos
  have c3 := hs.nlen; have c4 := hs.klen; have c5 := hs.vlen
  have c6 := hd.nlen; have c7 := hd.klen; have c8 := hd.vlen
  have e := (copyFrom_sim (s := s) (src := src) (by omega) (by omega) (by omega) (by omega) (by omega)
    (by omega)).toEq (by rw [h1]; simp)
  refine ⟨t, e.trans h1, h1, h2, t.size, rfl, h2.cap_pos, h2.hlen, ?_⟩
  obtain ⟨n, hn⟩ := hbd
  obtain ⟨m, hm⟩ := hbs
  have := copyFrom_max hn.max s hm.max
  rw [h1] at this
  exact this

/-- The objects a program can hold that only uses the generated class, and what its calls say their
contents are: construction (the counter starts at Java's zero), public calls, and copies between
collections with the same functions. -/
inductive Made (fuel : Nat) : Index K V → Abs K V → Prop
  | new {hash : K → BitVec 32} {eq : K → K → Bool} {ic : Int} {lf : Nat × Nat} {s₀ s : Index K V} :
      s₀.modificationCount = 0 → KeyValueIndexedMap.init2 hash eq ic lf s₀ = .ok () s → Made fuel s (empty hash eq)
  | call {s : Index K V} {a : Abs K V} (o : Op K V) : Made fuel s a → IntArg o → Guard o a →
      Made fuel (step fuel o s).state (after o (step fuel o s).out a)
  | copy {s src t : Index K V} {a b : Abs K V} : Made fuel s a → Made fuel src b → a.hash = b.hash →
      a.eq = b.eq → src.capacity < 2 ^ 29 → KeyValueIndexedMap.copyFrom src s = .ok () t → Made fuel t b

theorem Made.inv {fuel : Nat} (hf : 2 ^ 31 ≤ fuel) {s : Index K V} {a : Abs K V} (h : Made fuel s a) :
    Bx s ∧ Reach False s a := by
  induction h with
  | @new hash eq ic lf s₀ s hz he =>
    have h := init2_eq hash eq ic lf s₀ hz
    rw [he] at h
    exact ⟨new_bx hash eq h.symm, .new h.symm fun x => x.elim⟩
  | @call s a o hm hi hg ih =>
    obtain ⟨hb, hr⟩ := ih
    obtain ⟨F, hF⟩ := reach_inv hr
    rw [step_eq fuel hf hF hb o hi hg]
    exact ⟨step_bx o s hb, hr.call o hg⟩
  | copy _ _ hh hq hc he ih1 ih2 =>
    obtain ⟨F, hF⟩ := reach_inv ih1.2
    obtain ⟨G, hG⟩ := reach_inv ih2.2
    obtain ⟨t, h1, h2, _, h4⟩ := copyFrom_eq hF ih1.1 hG ih2.1 hh hq hc
    rw [h1] at he; injection he with _ he; subst he
    exact ⟨h4, .copy ih1.2 ih2.2 hh hq hc h2⟩

end Verif.Link.Map

namespace Verif
open Verif.Index Verif.IndexSpec
variable {K V : Type} [Inhabited K] [Inhabited V]

/-- C31 for the generated class: with `capacity * loadFactor >= 1/2` the entries handed out are exactly
those of the ideal allocator. -/
theorem C31_generated_exact (fuel : Nat) (hf : 2 ^ 31 ≤ fuel) (hash : K → BitVec 32) (eq : K → K → Bool)
    (ic : Int) (lf : Nat × Nat) (s₀ s : Index K V) (hz : s₀.modificationCount = 0) (u : Unit)
    (hnew : Gen.KeyValueIndexedMap.init2 hash eq ic lf s₀ = .ok u s)
    (hlf : (lf.2 : Int) ≤ 2 * nextPowerOf2 ic * lf.1) (ops : List (Op K V))
    (hi : ∀ o ∈ ops, Link.Map.IntArg o) :
    Legal OkExact (empty hash eq) ops (runM (Link.Map.step fuel) s ops).1 := by
  have h := Link.Map.init2_eq hash eq ic lf s₀ hz
  rw [hnew] at h
  exact Link.Map.legal_exact fuel hf hlf ops hi (new_inv hash eq h.symm) (Link.Map.new_bx hash eq h.symm)

/-- C38 for the generated class: between collections with the same functions, whatever was done with
them before, `copyFrom` from a source with less than the maximal capacity succeeds, and every history
on the result has the results for the source's contents. -/
theorem C38_generated_copy (fuel : Nat) (hf : 2 ^ 31 ≤ fuel) {s src : Index K V} {a b : Abs K V}
    (hs : Link.Map.Made fuel s a) (hd : Link.Map.Made fuel src b) (hh : a.hash = b.hash) (hq : a.eq = b.eq)
    (hcap : src.capacity < 2 ^ 29) :
    ∃ t, Gen.KeyValueIndexedMap.copyFrom src s = .ok () t ∧ Link.Map.Made fuel t b ∧
      ∀ ops, (∀ o ∈ ops, Link.Map.IntArg o) → Legal Ok b ops (runM (Link.Map.step fuel) t ops).1 := by
  obtain ⟨hbs, hrs⟩ := hs.inv hf
  obtain ⟨hbd, hrd⟩ := hd.inv hf
  obtain ⟨F, hF⟩ := reach_inv hrs
  obtain ⟨G, hG⟩ := reach_inv hrd
  obtain ⟨t, h1, _, h3, h4⟩ := Link.Map.copyFrom_eq hF hbs hG hbd hh hq hcap
  exact ⟨t, h1, .copy hs hd hh hq hcap h1, fun ops hi => Link.Map.legal fuel hf ops hi h3 h4⟩

/- Non-vacuity: the generated code copies a grown map into a used one, and the copy answers. -/
example : (match Gen.KeyValueIndexedMap.init2 (fun k : Int => BitVec.ofInt 32 k) (fun a b => a == b) 1 (3, 4) rawIndex,
      Gen.KeyValueIndexedMap.init2 (fun k : Int => BitVec.ofInt 32 k) (fun a b => a == b) 16 (1, 2) rawIndex with
    | .ok _ src, .ok _ s =>
      let src := (runM (Link.Map.step 40) src [Op.put 7 70, .put 15 150, .put 23 230, .remove 15]).2
      let s := (runM (Link.Map.step 40) s [Op.put 1 1, .put 2 2, .put 3 3, .put 4 4, .put 5 5]).2
      match Gen.KeyValueIndexedMap.copyFrom src s with
      | .ok _ t => (runM (Link.Map.step 40) t [Op.size, .get 7, .get 23, .get 1, .put 9 90, .forEachEntry]).1
      | .err e _ => [.error e]
    | _, _ => []) =
      [.ok (.int 2), .ok (.val 70), .ok (.val 230), .error .keyNotFound, .ok (.int 1), .ok (.ints [1, 2, 0])] := by
  decide +kernel

end Verif

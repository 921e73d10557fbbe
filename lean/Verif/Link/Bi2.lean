import Verif.Link.Bi1
/-! The two-sided collections: calls on the set of mappings and on the halves, and the iterators. -/
set_option linter.unusedSectionVars false
namespace Verif.Link.BiL
open Verif Verif.Gen BiSpec
variable {α β γ : Type}

/-- the set of mappings -/
abbrev LIx := Index (BitVec 64) Unit

/-- The same object with other contents of the value array that the model of the set has and the class has not. -/
def wv (s : Bi) (v : Arr Unit) : Bi := { s with mappings := SetL.withV s.mappings v }

/-- From objects that differ only there, `g` returns or throws what `m` does, or `m` does not end. -/
def RI (m g : JM LIx α) (s : LIx) : Prop := ∀ v,
  match m s with
  | .ok a t => ∃ w, g (SetL.withV s v) = .ok a (SetL.withV t w)
  | .err e t => e = .diverge ∨ ∃ w, g (SetL.withV s v) = .err e (SetL.withV t w)

/-- The same for whole collections. -/
def RB (m g : JM Bi α) (s : Bi) : Prop := ∀ v,
  match m s with
  | .ok a t => ∃ w, g (wv s v) = .ok a (wv t w)
  | .err e t => e = .diverge ∨ ∃ w, g (wv s v) = .err e (wv t w)

theorem RI.of {p : Nat → Nat → Prop} {m k g : JM LIx α} {s : LIx} (h1 : Sim Eq m k s)
    (h2 : ∀ v, SetL.S p k g s v) (hp : p s.keys.len s.values.len) : RI m g s := by
  intro v
  have h2 := h2 v hp
  unfold Sim at h1
  cases hm : m s with
  | ok a t =>
    rw [hm] at h1
    obtain ⟨b, hb, rfl⟩ := h1
    rw [hb] at h2
    exact h2.2
  | err e t =>
    rw [hm] at h1
    rcases h1 with h1 | h1
    · exact .inl h1
    · rw [h1] at h2; exact .inr h2

namespace RB
variable {m g : JM Bi α} {s : Bi} {f h : α → JM Bi β}

theorem pure {a : α} : RB (Pure.pure a) (Pure.pure a) s := fun v => ⟨v, rfl⟩
theorem throw {e : Err} : RB (JM.throw e : JM Bi α) (JM.throw e) s := fun v => .inr ⟨v, rfl⟩
theorem diverge : RB (JM.throw .diverge : JM Bi α) g s := fun _ => .inl rfl

theorem bind (h1 : RB m g s) (h2 : ∀ a t, m s = .ok a t → RB (f a) (h a) t) :
    RB (m >>= f) (g >>= h) s := by
  intro v
  have h1 := h1 v
  rw [JM.bind_apply]
  cases hm : m s with
  | err e t =>
    rw [hm] at h1
    rcases h1 with h1 | ⟨w, hw⟩
    · exact .inl h1
    · exact .inr ⟨w, by rw [JM.bind_err hw]⟩
  | ok a t =>
    rw [hm] at h1
    obtain ⟨w, hw⟩ := h1
    have h2 := h2 a t hm w
    rw [JM.bind_ok hw]
    exact h2

theorem get {f h : Bi → JM Bi β} (h2 : ∀ v, RB (f s) (h (wv s v)) s) :
    RB (MonadState.get >>= f) (MonadState.get >>= h) s := fun v => h2 v v

/-- the model reads the object, the generated code does not -/
theorem getL {f : Bi → JM Bi β} {g : JM Bi β} (h2 : RB (f s) g s) : RB (MonadState.get >>= f) g s := h2

/-- the generated code reads the object, the model does not -/
theorem getR {m : JM Bi β} {h : Bi → JM Bi β} (h2 : ∀ v, RB m (h (wv s v)) s) : RB m (MonadState.get >>= h) s :=
  fun v => h2 v v

theorem modify {u u' : Bi → Bi} {f h : PUnit → JM Bi β} (hu : ∀ v, u' (wv s v) = wv (u s) v)
    (h2 : RB (f ⟨⟩) (h ⟨⟩) (u s)) :
    RB ((_root_.modify u : JM Bi PUnit) >>= f) ((_root_.modify u' : JM Bi PUnit) >>= h) s := by
  intro v
  rw [JM.bind_ok (JM.modify_apply u s), JM.bind_ok (JM.modify_apply u' _), hu]
  exact h2 v

theorem modify' {u u' : Bi → Bi} (hu : ∀ v, u' (wv s v) = wv (u s) v) :
    RB (_root_.modify u : JM Bi PUnit) (_root_.modify u' : JM Bi PUnit) s := by
  intro v
  rw [JM.modify_apply, JM.modify_apply, hu]
  exact ⟨v, rfl⟩

theorem ite {c d : Prop} [Decidable c] [Decidable d] {m n g k : JM Bi α} (hcd : c ↔ d)
    (h1 : c → RB m g s) (h2 : ¬ c → RB n k s) : RB (if c then m else n) (if d then g else k) s := by
  by_cases hc : c
  · rw [if_pos hc, if_pos (hcd.1 hc)]; exact h1 hc
  · rw [if_neg hc, if_neg (fun h => hc (hcd.2 h))]; exact h2 hc

theorem onMappings {m g : JM LIx α} (h : RI m g s.mappings) : RB (Bi.onMappings m) (Bi.onMappings g) s := by
  intro v
  have h := h v
  simp only [Bi.onMappings]
  cases hm : m s.mappings with
  | ok a t =>
    rw [hm] at h
    obtain ⟨w, hw⟩ := h
    refine ⟨w, ?_⟩
    show (match g (SetL.withV s.mappings v) with | .ok a t => _ | .err e t => _) = _
    rw [hw]; rfl
  | err e t =>
    rw [hm] at h
    rcases h with h | ⟨w, hw⟩
    · exact .inl h
    · refine .inr ⟨w, ?_⟩
      show (match g (SetL.withV s.mappings v) with | .ok a t => _ | .err e t => _) = _
      rw [hw]; rfl

theorem onSide {d : Dir} {m : JM Side α} : RB (Bi.onSide d m) (Bi.onSide d m) s := by
  intro v
  simp only [Bi.onSide]
  have e : Bi.side d (wv s v) = Bi.side d s := by cases d <;> rfl
  rw [e]
  have e2 : ∀ t, Bi.setSide d (wv s v) t = wv (Bi.setSide d s t) v := by intro t; cases d <;> rfl
  cases m (Bi.side d s) with
  | ok a t => exact ⟨v, by simp only [e2]⟩
  | err e t => exact .inr ⟨v, by simp only [e2]⟩

theorem pure_bind {g : JM Bi β} {a : α} {h : α → JM Bi β} {m : JM Bi β} (h2 : RB m (h a) s) :
    RB m (Pure.pure a >>= h) s := h2

theorem bind_pureR {m g : JM Bi α} (h : RB m g s) : RB m (g >>= Pure.pure) s := by
  have e : g >>= Pure.pure = g := by
    apply JM_ext; intro s; rw [JM.bind_apply]; cases g s <;> rfl
  rw [e]; exact h

theorem unitR {m g : JM Bi Unit} (h : RB m g s) : RB m (g >>= fun _ => Pure.pure ()) s := by
  rw [bind_unit]; exact h

end RB

/-- A returned value can be taken out of its wrapping. -/
theorem unmap {σ : Type} {m g : JM σ β} {s : σ} {f : β → γ} (hf : ∀ x y, f x = f y → x = y)
    (h : Sim Eq (m >>= fun x => pure (f x)) (g >>= fun x => pure (f x)) s) : Sim Eq m g s := by
  unfold Sim at h ⊢
  rw [JM.bind_apply, JM.bind_apply] at h
  cases hm : m s with
  | ok a t =>
    rw [hm] at h
    obtain ⟨b, hb, hab⟩ := h
    cases hg : g s with
    | ok c u =>
      rw [hg] at hb
      simp only [JM.pure_apply] at hb
      injection hb with h1 h2
      subst h2
      exact ⟨c, rfl, hf a c (by rw [hab]; exact h1.symm)⟩
    | err e u => rw [hg] at hb; cases hb
  | err e t =>
    rw [hm] at h
    rcases h with h | h
    · exact .inl h
    · cases hg : g s with
      | ok c u => rw [hg] at h; cases h
      | err e' u =>
        rw [hg] at h
        simp only at h
        injection h with h1 h2
        subst h1; subst h2
        exact .inr rfl

/-- The set of mappings is in order. -/
def Fine (s : LIx) : Prop := (∃ a F, Index.Inv True s a F) ∧ Map.Bx s

variable {s : LIx} (fuel : Nat) (hf : 2 ^ 31 ≤ fuel)
include hf

theorem fine_sim (h : Fine s) (o : Index.Op (BitVec 64) Unit) (ho : Map.IntArg o) :
    Sim Eq (Index.step o) (Map.step fuel o) s := by
  obtain ⟨⟨a, F, h⟩, hb⟩ := h
  exact Map.step_sim fuel hf h hb o ho

theorem fine_len (h : Fine s) : s.keys.len = s.values.len := by
  obtain ⟨⟨a, F, h⟩, hb⟩ := h
  exact SetL.Inv.lens h

theorem ri_add (h : Fine s) (k : BitVec 64) : RI (Index.add k) (KeyIndexedSet.add fuel k) s :=
  .of (unmap (f := Index.Out.int) (by simp) (fine_sim fuel hf h (.add k) trivial))
    (fun v => SetL.add_S s v fuel k) (fine_len fuel hf h)

theorem ri_lookup (h : Fine s) (k : BitVec 64) : RI (Index.lookupEntry k) (KeyIndexedSet.lookupEntry fuel k) s :=
  .of (p := Eq) (unmap (f := Index.Out.int) (by simp) (fine_sim fuel hf h (.lookupEntry k) trivial))
    (fun v => SetL.lookupEntry_S s v fuel k) (fine_len fuel hf h)

theorem ri_contains (h : Fine s) (k : BitVec 64) : RI (Index.containsKey k) (KeyIndexedSet.containsKey fuel k) s :=
  .of (p := Eq) (unmap (f := Index.Out.bool) (by simp) (fine_sim fuel hf h (.containsKey k) trivial))
    (fun v => SetL.containsKey_S s v fuel k) (fine_len fuel hf h)

theorem ri_removeAt (h : Fine s) {e : Int} (he : -2 ^ 31 ≤ e ∧ e < 2 ^ 31) :
    RI (Index.removeAt e) (KeyIndexedSet.removeAt fuel e) s :=
  .of (unmap (f := fun _ : Unit => Index.Out.unit) (by simp) (fine_sim fuel hf h (.removeAt e) he))
    (fun v => SetL.removeAt_S s v fuel e) (fine_len fuel hf h)

theorem ri_reserve (h : Fine s) (e : Int) : RI (Index.removeAtAndReserve e) (KeyIndexedSet.removeAtAndReserve fuel e) s :=
  .of (unmap (f := fun _ : Unit => Index.Out.unit) (by simp) (fine_sim fuel hf h (.removeAtAndReserve e) trivial))
    (fun v => SetL.removeAtAndReserve_S s v fuel e) (fine_len fuel hf h)

theorem ri_free (h : Fine s) (e : Int) : RI (Index.freeReservedEntry e) (KeyIndexedSet.freeReservedEntry e) s :=
  .of (unmap (f := fun _ : Unit => Index.Out.unit) (by simp) (fine_sim fuel hf h (.freeReservedEntry e) trivial))
    (fun v => SetL.freeReservedEntry_S s v e) (fine_len fuel hf h)

theorem ri_forEachEntry (h : Fine s) : RI Index.forEachEntry (KeyIndexedSet.forEachEntry fuel pure) s :=
  .of (p := Eq) (unmap (f := Index.Out.ints) (by simp) (fine_sim fuel hf h .forEachEntry trivial))
    (fun v => SetL.forEachEntry_S s v fuel fun _ _ _ => SetL.S.pure) (fine_len fuel hf h)

omit hf

theorem ri_keyAt (s : LIx) (e : Int) : RI (Index.getKeyAt e) (KeyIndexedSet.getKeyAt e) s := by
  refine .of (p := fun _ _ => True) (k := KeyValueIndexedMap.getKeyAt e) ?_ (fun v => SetL.getKeyAt_S s v e) trivial
  exact .rfl

theorem ri_size (s : LIx) : RI Index.getSize KeyIndexedSet.size s := by
  refine .of (p := fun _ _ => True) (k := KeyValueIndexedMap.size) ?_ (fun v => SetL.size_S s v) trivial
  exact .rfl

/-! ### walking all entries -/

theorem onMappings_bind (m : JM LIx α) (f : α → JM LIx β) :
    Bi.onMappings (m >>= f) = Bi.onMappings m >>= fun a => Bi.onMappings (f a) := by
  apply JM_ext; intro s
  simp only [Bi.onMappings, JM.bind_apply]
  cases m s.mappings with
  | ok a t => rfl
  | err e t => rfl

theorem onMappings_pure (a : α) : Bi.onMappings (pure a : JM LIx α) = pure a := rfl
theorem onMappings_throw (e : Err) : Bi.onMappings (JM.throw e : JM LIx α) = JM.throw e := rfl
theorem onMappings_rd (arr : LIx → Arr α) (i : Int) :
    Bi.onMappings (rd arr i) = rd (fun self : Bi => arr self.mappings) i := by
  apply JM_ext; intro s
  simp only [Bi.onMappings, rd]
  by_cases h : 0 ≤ i ∧ i < (arr s.mappings).len
  · simp only [if_pos h]
  · simp only [if_neg h]
theorem onMappings_ite {c : Prop} [Decidable c] (m n : JM LIx α) :
    Bi.onMappings (if c then m else n) = if c then Bi.onMappings m else Bi.onMappings n := by split <;> rfl

theorem walk2_eq : ∀ (n : Nat) (acc : List Int) (hits e : Int),
    Pairs.Set.forEachEntry_loop2 (β := Int) pure n acc hits e =
      Bi.onMappings (KeyIndexedSet.forEachEntry_loop2 pure n acc hits e)
  | 0, _, _, _ => rfl
  | n + 1, acc, hits, e => by
    unfold Pairs.Set.forEachEntry_loop2 KeyIndexedSet.forEachEntry_loop2
    simp only [onMappings_ite, onMappings_bind, onMappings_rd, onMappings_pure, walk2_eq n]

theorem walk1_eq (fuel : Nat) (N : Int) : ∀ (n : Nat) (acc : List Int) (hits head : Int),
    Pairs.Set.forEachEntry_loop1 (β := Int) fuel pure N n acc hits head =
      Bi.onMappings (KeyIndexedSet.forEachEntry_loop1 fuel pure N n acc hits head)
  | 0, _, _, _ => rfl
  | n + 1, acc, hits, head => by
    unfold Pairs.Set.forEachEntry_loop1 KeyIndexedSet.forEachEntry_loop1
    simp only [onMappings_ite, onMappings_bind, onMappings_rd, onMappings_pure, walk2_eq, walk1_eq fuel N n]
    rfl

theorem walk_eq (fuel : Nat) :
    Pairs.Set.forEachEntry (β := Int) fuel pure = Bi.onMappings (KeyIndexedSet.forEachEntry fuel pure) := by
  unfold Pairs.Set.forEachEntry KeyIndexedSet.forEachEntry
  simp only [onMappings_ite, onMappings_bind, onMappings_pure, walk1_eq]
  rfl

end Verif.Link.BiL

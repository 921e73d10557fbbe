import Verif.Link.Index6
import Verif.Props.IndexCap
import Verif.Props.IndexWalk
/-! # Properties C27 - C37, C43, C44, C102 of the generated indexed map

The same statements as in Props/Index.lean, Props/IndexMap.lean, Props/IndexWalk.lean and
Props/IndexCap.lean, about the definitions generated from the Java text: `Link.Map.step fuel o` calls the
generated method, `Link.Map.Made fuel s a` says that a program that only uses the generated class can hold
`s`.  `fuel` bounds the iterations of each generated loop; any value from 2^31 on is enough. -/
set_option linter.unusedSectionVars false
namespace Verif.Link.Map
open Verif.Index Verif.IndexSpec Verif.Gen
variable {K V : Type} [Inhabited K] [Inhabited V]

/-! ## the vocabulary, for generated calls -/

/-- What the generated call `o` on `s` returns or throws. -/
abbrev res (fuel : Nat) (o : Op K V) (s : Index K V) : Except Err (Out K V) := (step fuel o s).out

/-- Every call of the history respects `Guard` and has int arguments. -/
def Guarded (fuel : Nat) : Abs K V → Index K V → List (Op K V) → Prop
  | _, _, [] => True
  | a, s, o :: os => IntArg o ∧ Guard o a ∧ Guarded fuel (after o (res fuel o s) a) (step fuel o s).state os

/-- What the history and its results say the contents are. -/
def ideal (fuel : Nat) : Abs K V → Index K V → List (Op K V) → Abs K V
  | a, _, [] => a
  | a, s, o :: os => ideal fuel (after o (res fuel o s) a) (step fuel o s).state os

/-- The collection after the history. -/
def final (fuel : Nat) (s : Index K V) (ops : List (Op K V)) : Index K V := (runM (step fuel) s ops).2

/-- The largest number of entries in use (associations and reserved entries) during the history. -/
def peak (fuel : Nat) : Abs K V → Index K V → List (Op K V) → Int
  | a, _, [] => a.used
  | a, s, o :: os => max a.used (peak fuel (after o (res fuel o s) a) (step fuel o s).state os)

/-- The key `k'` looks the same in two collections: present or absent, same entry, same value. -/
def SameFor (fuel : Nat) (k' : K) (s t : Index K V) : Prop :=
  res fuel (.containsKey k') s = res fuel (.containsKey k') t ∧
  res fuel (.lookupEntry k') s = res fuel (.lookupEntry k') t ∧
  res fuel (.get k') s = res fuel (.get k') t

/-! ## it is the vocabulary of the model -/

variable {fuel : Nat} {s t : Index K V} {a b : Abs K V}

theorem Made.eq (hf : 2 ^ 31 ≤ fuel) (h : Made fuel s a) (o : Op K V) (hi : IntArg o) (hg : Guard o a) :
    step fuel o s = Index.step o s := by
  obtain ⟨hb, hr⟩ := h.inv hf
  obtain ⟨F, hF⟩ := reach_inv hr
  exact step_eq fuel hf hF hb o hi hg

theorem Made.reach (hf : 2 ^ 31 ≤ fuel) (h : Made fuel s a) : Reach False s a := (h.inv hf).2

theorem same_iff (hf : 2 ^ 31 ≤ fuel) (hs : Made fuel s a) (ht : Made fuel t b) (k : K) :
    SameFor fuel k s t ↔ IndexSpec.SameFor k s t := by
  unfold SameFor IndexSpec.SameFor res result
  rw [hs.eq hf (.containsKey k) trivial trivial, hs.eq hf (.lookupEntry k) trivial trivial,
    hs.eq hf (.get k) trivial trivial, ht.eq hf (.containsKey k) trivial trivial,
    ht.eq hf (.lookupEntry k) trivial trivial, ht.eq hf (.get k) trivial trivial]

theorem Made.run (hf : 2 ^ 31 ≤ fuel) (ops : List (Op K V)) : ∀ {s : Index K V} {a : Abs K V},
    Made fuel s a → Guarded fuel a s ops →
    IndexSpec.Guarded a s ops ∧ final fuel s ops = IndexSpec.final s ops ∧
      ideal fuel a s ops = IndexSpec.ideal a s ops ∧ peak fuel a s ops = IndexSpec.peak a s ops ∧
      (runM (step fuel) s ops).1 = (runM Index.step s ops).1 ∧
      Made fuel (final fuel s ops) (ideal fuel a s ops) := by
  induction ops with
  | nil => intro s a h _; exact ⟨trivial, rfl, rfl, rfl, rfl, h⟩
  | cons o os ih =>
    intro s a h ⟨hi, hg, hr⟩
    have he := h.eq hf o hi hg
    obtain ⟨h1, h2, h3, h4, h5, h6⟩ := ih (h.call o hi hg) hr
    unfold final IndexSpec.final at h2
    have h6' := h6
    rw [he] at h1 h2 h3 h4 h5
    refine ⟨⟨hg, h1⟩, ?_, ?_, ?_, ?_, h6'⟩
    · unfold final IndexSpec.final
      simp only [runM]
      rw [he]; exact h2
    · simp only [ideal, IndexSpec.ideal, res]
      rw [he]; exact h3
    · simp only [peak, IndexSpec.peak, res]
      rw [he, h4]
    · simp only [runM]
      rw [he, h5]

/-- The step after a model step is generated code's step. -/
theorem Made.next (hf : 2 ^ 31 ≤ fuel) (h : Made fuel s a) (o : Op K V) (hi : IntArg o) (hg : Guard o a)
    {x : Out K V} (he : Index.step o s = .ok x t) :
    step fuel o s = .ok x t ∧ Made fuel t (after o (.ok x) a) := by
  have h1 := h.eq hf o hi hg
  have h2 := h.call o hi hg
  rw [h1, he] at h2
  exact ⟨h1.trans he, h2⟩

/-! ## callbacks -/

section callbacks
variable {J : Index K V → Prop} {β : Type} {f g : Int → JM (Index K V) β}

theorem forEachEntry_loop2_congr (hJ : ∀ e, Keeps J (f e))
    (hfg : ∀ (e : Int) t, J t → 0 ≤ e → e < t.nexts.len → f e t = g e t) :
    ∀ (n : Nat) (acc : List β) (hits e : Int) (s : Index K V), J s →
    KeyValueIndexedMap.forEachEntry_loop2 f n acc hits e s = KeyValueIndexedMap.forEachEntry_loop2 g n acc hits e s ∧
    J (KeyValueIndexedMap.forEachEntry_loop2 f n acc hits e s).state
  | 0, _, _, _, _, hs => ⟨rfl, hs⟩
  | n + 1, acc, hits, e, s, hs => by
    unfold KeyValueIndexedMap.forEachEntry_loop2
    by_cases he : e ≥ 0
    · rw [if_pos (by simpa using he), if_pos (by simpa using he)]
      by_cases hr : e < s.nexts.len
      · rw [JM.bind_ok (rd_ok _ ⟨he, hr⟩), JM.bind_ok (rd_ok _ ⟨he, hr⟩)]
        dsimp only
        have h1 := hfg e s hs he hr
        have h2 := hJ e s hs
        cases hc : f e s with
        | ok b t =>
          rw [hc] at h1 h2
          rw [JM.bind_ok hc, JM.bind_ok h1.symm]
          exact forEachEntry_loop2_congr hJ hfg n _ _ _ t h2
        | err x t =>
          rw [hc] at h1 h2
          rw [JM.bind_err hc, JM.bind_err h1.symm]
          exact ⟨rfl, h2⟩
      · have hx : rd Index.nexts e s = .err .indexOutOfBounds s := by
          simp only [rd]; rw [if_neg (by omega)]
        rw [JM.bind_err hx, JM.bind_err hx]
        exact ⟨rfl, hs⟩
    · rw [if_neg (by simpa using he), if_neg (by simpa using he)]
      exact ⟨rfl, hs⟩

theorem forEachEntry_loop1_congr (hJ : ∀ e, Keeps J (f e))
    (hfg : ∀ (e : Int) t, J t → 0 ≤ e → e < t.nexts.len → f e t = g e t) (fuel : Nat) (N : Int) :
    ∀ (n : Nat) (acc : List β) (hits head : Int) (s : Index K V), J s →
    KeyValueIndexedMap.forEachEntry_loop1 fuel f N n acc hits head s =
      KeyValueIndexedMap.forEachEntry_loop1 fuel g N n acc hits head s
  | 0, _, _, _, _, _ => rfl
  | n + 1, acc, hits, head, s, hs => by
    unfold KeyValueIndexedMap.forEachEntry_loop1
    rw [JM.bind_ok (JM.get_apply _), JM.bind_ok (JM.get_apply _)]
    split
    · cases hr : rd Index.heads head s with
      | err x t => rw [JM.bind_err hr, JM.bind_err hr]
      | ok e t =>
        have ht : t = s := by
          have := rd_state Index.heads head s
          rw [hr] at this; exact this
        subst ht
        rw [JM.bind_ok hr, JM.bind_ok hr]
        dsimp only
        obtain ⟨h1, h2⟩ := forEachEntry_loop2_congr hJ hfg fuel acc hits e t hs
        cases hc : KeyValueIndexedMap.forEachEntry_loop2 f fuel acc hits e t with
        | ok b u =>
          rw [hc] at h1 h2
          rw [JM.bind_ok hc, JM.bind_ok h1.symm]
          exact forEachEntry_loop1_congr hJ hfg fuel N n _ _ _ u h2
        | err x u =>
          rw [hc] at h1
          rw [JM.bind_err hc, JM.bind_err h1.symm]
    · rfl

theorem forEachEntry_congr (hJ : ∀ e, Keeps J (f e))
    (hfg : ∀ (e : Int) t, J t → 0 ≤ e → e < t.nexts.len → f e t = g e t) (fuel : Nat) {s : Index K V} (hs : J s) :
    KeyValueIndexedMap.forEachEntry fuel f s = KeyValueIndexedMap.forEachEntry fuel g s := by
  unfold KeyValueIndexedMap.forEachEntry
  rw [JM.bind_ok (JM.get_apply _), JM.bind_ok (JM.get_apply _)]
  split
  · rfl
  · dsimp only
    rw [JM.bind_apply, JM.bind_apply, forEachEntry_loop1_congr hJ hfg fuel s.size fuel [] 0 0 s hs]
end callbacks

/-- The callback `e -> { if (P(e)) map.removeAt(e); }`, calling the generated `removeAt`. -/
def removingCallback (fuel : Nat) (P : Int → Bool) (e : Int) : JM (Index K V) Int := do
  JM.when (P e) (KeyValueIndexedMap.removeAt fuel e)
  pure e

/-- What every call keeps. -/
def Fine (s : Index K V) : Prop := Bx s ∧ ∃ a F, Inv False s a F

theorem Fine.lens {s : Index K V} (h : Fine s) : Lens s := by
  obtain ⟨⟨m, hb⟩, a, F, h⟩ := h
  have := h.nlen; have := h.cap_pos; have := hb.heads
  exact ⟨by omega, by omega⟩

theorem removing_keeps (P : Int → Bool) (e : Int) : Keeps (Fine (K := K) (V := V)) (IndexSpec.removingCallback P e) := by
  refine .bind (.when fun s hs => ?_) fun _ => .pure _
  obtain ⟨hb, a, F, h⟩ := hs
  have h1 := step_bx (.removeAt e) s hb
  obtain ⟨_, _, F', h2⟩ := step_spec h (.removeAt e) trivial
  have e1 : (Index.step (.removeAt e) s).state = (Index.removeAt e s).state := by
    simp only [Index.step]
    rw [JM.bind_apply]
    cases Index.removeAt e s <;> rfl
  rw [e1] at h1 h2
  exact ⟨h1, _, F', h2⟩

theorem removing_eq (hf : 2 ^ 31 ≤ fuel) (P : Int → Bool) (e : Int) (t : Index K V) (ht : Fine t) (h0 : 0 ≤ e)
    (h1 : e < t.nexts.len) : IndexSpec.removingCallback P e t = removingCallback fuel P e t := by
  obtain ⟨hb, a, F, h⟩ := ht
  have hcap := h.cap_pos
  have hn := h.nlen
  have he := step_eq fuel hf h hb (.removeAt e) ⟨by omega, by omega⟩ trivial
  simp only [step, Index.step, JM.bind_apply] at he
  unfold removingCallback IndexSpec.removingCallback
  unfold JM.when
  by_cases hP : P e = true
  · rw [if_pos hP, if_pos hP, JM.bind_apply, JM.bind_apply]
    cases h2 : Index.removeAt e t <;> cases h3 : KeyValueIndexedMap.removeAt fuel e t <;>
      rw [h2, h3] at he <;> simp_all
  · rw [if_neg hP, if_neg hP]

/-- The walk with a removing callback of the generated code is that of the model. -/
theorem removing_walk (hf : 2 ^ 31 ≤ fuel) (h : Made fuel s a) (P : Int → Bool) :
    KeyValueIndexedMap.forEachEntry fuel (removingCallback fuel P) s = forEachWith (IndexSpec.removingCallback P) s := by
  obtain ⟨hb, hr⟩ := h.inv hf
  obtain ⟨F, hF⟩ := reach_inv hr
  have hfine : Fine s := ⟨hb, a, F, hF⟩
  rw [← forEachEntry_congr (removing_keeps P) (removing_eq hf P) fuel hfine]
  obtain ⟨l, t, l', h1, h2, h3, _⟩ := C36_remove_while_visiting hr P
  have hsz : s.size ≤ 2 ^ 29 := by
    have := hF.size; have := hF.count; have := hF.next_le; have := hF.next; have := hF.nlen; have := hF.cap_pos
    omega
  exact (forEachWith_simJ (fun s hs => Fine.lens hs) (removing_keeps P) fuel hf hfine hsz).toEq (by rw [h3]; simp)

end Verif.Link.Map

namespace Verif
open Verif.Index Verif.IndexSpec
open Link.Map (Made res IntArg)
variable {K V : Type} [Inhabited K] [Inhabited V] {fuel : Nat} {s : Index K V} {a : Abs K V}

/-- C28 for the generated class. -/
theorem C28_generated_size (hf : 2 ^ 31 ≤ fuel) (h : Made fuel s a) :
    ∃ keys : List K, keys.Pairwise (fun x y => a.eq x y = false) ∧
      (∀ k, ∃ b, res fuel (.containsKey k) s = .ok (.bool b) ∧ (b = true ↔ ∃ x ∈ keys, a.eq k x = true)) ∧
      res fuel .size s = .ok (.int keys.length) ∧
      res fuel .isEmpty s = .ok (.bool (decide (keys = []))) ∧
      ∃ l, res fuel .forEach s = .ok (.keys l) ∧ l.Perm keys := by
  obtain ⟨keys, h1, h2, h3, h4, l, h5, h6⟩ := C28_size (h.reach hf)
  have up : ∀ {α : Type} {m : JM (Index K V) α} {x : α} (f : α → Out K V), (m s).out = .ok x →
      ((do return f (← m) : JM (Index K V) (Out K V)) s).out = .ok (f x) := by
    intro α m x f hx
    cases hm : m s with
    | ok y u => rw [hm] at hx; simp at hx; subst hx; rw [JM.bind_ok hm]; rfl
    | err y u => rw [hm] at hx; simp at hx
  refine ⟨keys, h1, fun k => ?_, ?_, ?_, l, ?_, h6⟩
  · obtain ⟨b, g1, g2⟩ := h2 k
    exact ⟨b, by unfold res; rw [h.eq hf (.containsKey k) trivial trivial]; exact up _ g1, g2⟩
  · unfold res; rw [h.eq hf .size trivial trivial]; exact up _ h3
  · unfold res; rw [h.eq hf .isEmpty trivial trivial]; exact up _ h4
  · unfold res; rw [h.eq hf .forEach trivial trivial]; exact up _ h5

/-- C29 for the generated class. -/
theorem C29_generated_entry_stable (hf : 2 ^ 31 ≤ fuel) (h : Made fuel s a) (k : K)
    (hk : a.eq k k = true) (e : Int) (hg0 : Guard (.add k : Op K V) a)
    (hadd : res fuel (.add k) s = .ok (.int e)) (ops : List (Op K V))
    (hg : Link.Map.Guarded fuel (after (.add k) (res fuel (.add k) s) a) (Link.Map.step fuel (.add k) s).state ops)
    (hu : ∀ o ∈ ops, Untouched a.eq k e o) :
    let t := Link.Map.final fuel (Link.Map.step fuel (.add k) s).state ops
    Link.Map.step fuel (.lookupEntry k) t = .ok (.int e) t ∧ Link.Map.step fuel (.add k) t = .ok (.int e) t := by
  intro t
  have h1 := h.eq hf (.add k) trivial hg0
  obtain ⟨r1, r2, r3, _, _, r6⟩ := (h.call (.add k) trivial hg0).run hf ops hg
  unfold res at hadd
  have r6' := r6
  rw [h1] at hadd r1 r2
  obtain ⟨g1, g2⟩ := C29_entry_stable (h.reach hf) k hk e hg0 hadd ops r1 hu
  have ht : t = IndexSpec.final (step (.add k) s).state ops := by rw [← r2, ← h1]
  rw [← ht] at g1 g2
  have hl := r6'.eq hf (.lookupEntry k) trivial trivial
  refine ⟨hl.trans (by simp only [Index.step]; rw [JM.bind_ok g1]; rfl), ?_⟩
  obtain ⟨hb, hr⟩ := r6'.inv hf
  obtain ⟨F, hF⟩ := reach_inv hr
  have hsim : Index.step (.add k) t = .ok (.int e) t := by simp only [Index.step]; rw [JM.bind_ok g2]; rfl
  exact ((Link.Map.step_sim fuel hf hF hb (.add k) trivial).toEq (by rw [show Index.step (.add k) _ = _ from hsim]; simp)).trans hsim

/-- C30 for the generated class. -/
theorem C30_generated_one_to_one (hf : 2 ^ 31 ≤ fuel) (h : Made fuel s a) :
    (∀ k e, res fuel (.lookupEntry k) s = .ok (.int e) → e ≠ -1 →
      ∃ k', res fuel (.getKeyAt e) s = .ok (.key k') ∧ a.eq k k' = true) ∧
    (∀ k1 k2 e, res fuel (.lookupEntry k1) s = .ok (.int e) → res fuel (.lookupEntry k2) s = .ok (.int e) →
      e ≠ -1 → a.eq k1 k2 = true) ∧
    (∀ l e, res fuel .forEachEntry s = .ok (.ints l) → e ∈ l →
      ∃ k, res fuel (.getKeyAt e) s = .ok (.key k) ∧ (a.eq k k = true → res fuel (.lookupEntry k) s = .ok (.int e))) ∧
    (∀ k, ∃ e, res fuel (.lookupEntry k) s = .ok (.int e) ∧ -1 ≤ e ∧
      (e = -1 ↔ res fuel (.containsKey k) s = .ok (.bool false))) := by
  have hr := h.reach hf
  obtain ⟨F, hF⟩ := reach_inv hr
  obtain ⟨c1, c2, c3, c4⟩ := C30_one_to_one hr
  have hl : ∀ k, res fuel (.lookupEntry k) s = .ok (.int (entryOf a k)) := fun k => by
    unfold res; rw [h.eq hf (.lookupEntry k) trivial trivial]; exact result_lookup hF k
  have hl' : ∀ k e, res fuel (.lookupEntry k) s = .ok (.int e) → (lookupEntry k s).out = .ok e := by
    intro k e he
    rw [hl] at he; simp at he; rw [lookup_out hF, he]
  have hk : ∀ e k, (getKeyAt e s).out = .ok k → res fuel (.getKeyAt e) s = .ok (.key k) := by
    intro e k he
    unfold res; rw [h.eq hf (.getKeyAt e) trivial trivial]
    cases hm : getKeyAt e s with
    | ok y u => rw [hm] at he; simp at he; subst he; simp only [Index.step]; rw [JM.bind_ok hm]; rfl
    | err y u => rw [hm] at he; simp at he
  refine ⟨?_, ?_, ?_, ?_⟩
  · intro k e h1 hne
    obtain ⟨k', g1, g2⟩ := c1 k e (hl' k e h1) hne
    exact ⟨k', hk e k' g1, g2⟩
  · intro k1 k2 e h1 h2 hne
    exact c2 k1 k2 e (hl' _ _ h1) (hl' _ _ h2) hne
  · intro l e h1 h2
    unfold res at h1; rw [h.eq hf .forEachEntry trivial trivial, step_entries hF] at h1
    simp at h1; subst h1
    obtain ⟨k, g1, g2⟩ := c3 _ e (by rw [forEachEntry_spec hF]; rfl) h2
    refine ⟨k, hk e k g1, fun hq => ?_⟩
    have := g2 hq
    rw [lookup_out hF] at this
    rw [hl]; simpa using this
  · intro k
    obtain ⟨e, g1, g2, g3⟩ := c4 k
    rw [lookup_out hF] at g1
    refine ⟨e, by rw [hl]; simpa using g1, g2, g3.trans ?_⟩
    unfold res
    rw [h.eq hf (.containsKey k) trivial trivial, show (Index.step (.containsKey k) s).out = _ from result_contains hF k, containsKey_out hF]
    simp

/-- C31 for the generated class: an entry just freed is the one the next new key gets. -/
theorem C31_generated_reuse (hf : 2 ^ 31 ≤ fuel) (h : Made fuel s a) (o : Op K V) (e : Int) (hg : Guard o a)
    (hi : IntArg o)
    (ho : (∃ k, o = .remove k ∧ res fuel o s = .ok (.int e) ∧ e ≠ -1) ∨
      (o = .removeAt e ∧ e ∈ a.live) ∨ o = .freeReservedEntry e)
    (k : K) (hg' : Guard (.add k : Op K V) (after o (res fuel o s) a))
    (hk : res fuel (.containsKey k) (Link.Map.step fuel o s).state = .ok (.bool false)) :
    res fuel (.add k) (Link.Map.step fuel o s).state = .ok (.int e) ∧
      ∀ v, res fuel (.put k v) (Link.Map.step fuel o s).state = .ok (.int e) := by
  have hm := h.call o hi hg
  have hc := hm.eq hf (.containsKey k) trivial trivial
  have ha := hm.eq hf (.add k) trivial hg'
  have hp := fun v => hm.eq hf (.put k v) trivial hg'
  obtain ⟨F, hF⟩ := reach_inv (hm.reach hf)
  unfold res at *
  rw [hc, show (Index.step (.containsKey k) _).out = _ from result_contains hF k] at hk
  have he := h.eq hf o hi hg
  have hkk : (containsKey k (step o s).state).out = .ok false := by
    rw [he] at hF hk
    rw [containsKey_out hF]; simpa using hk
  have h2 := C31_reuse (h.reach hf) o e hg (by rw [← he]; exact ho) k (by rw [← he]; exact hg') hkk
  rw [ha]
  refine ⟨?_, fun v => ?_⟩
  · rw [he]
    generalize (Index.step o s).state = t at h2
    simp only [Index.step]
    cases hx : add k t with
    | ok x u => rw [hx] at h2; have := h2.1; simp at this; rw [JM.bind_ok hx, this]; rfl
    | err x u => rw [hx] at h2; have := h2.1; simp at this
  · rw [hp v, he]
    generalize (Index.step o s).state = t at h2
    simp only [Index.step]
    cases hx : put k v t with
    | ok x u => have := h2.2 v; rw [hx] at this; simp at this; rw [JM.bind_ok hx, this]; rfl
    | err x u => have := h2.2 v; rw [hx] at this; simp at this

/-- C31 for the generated class: entries stay below the peak number of entries in use (plus 29). -/
theorem C31_generated_dense_partial (hf : 2 ^ 31 ≤ fuel) (hash : K → BitVec 32) (eq : K → K → Bool) (ic : Int)
    (lf : Nat × Nat) (s₀ s : Index K V) (hz : s₀.modificationCount = 0) (u : Unit)
    (hnew : Gen.KeyValueIndexedMap.init2 hash eq ic lf s₀ = .ok u s) (ops : List (Op K V))
    (hg : Link.Map.Guarded fuel (empty hash eq) s ops) (k : K) (e : Int)
    (hl : res fuel (.lookupEntry k) (Link.Map.final fuel s ops) = .ok (.int e)) :
    -1 ≤ e ∧ (e ≠ -1 → e < Link.Map.peak fuel (empty hash eq) s ops + 29) ∧
    ((lf.2 : Int) ≤ 2 * nextPowerOf2 ic * lf.1 → e ≠ -1 → e < Link.Map.peak fuel (empty hash eq) s ops) := by
  have hm : Made fuel s (empty hash eq) := .new hz hnew
  have h0 := Link.Map.init2_eq hash eq ic lf s₀ hz
  rw [hnew] at h0
  obtain ⟨r1, r2, r3, r4, _, r6⟩ := hm.run hf ops hg
  obtain ⟨F, hF⟩ := reach_inv (r6.reach hf)
  unfold res at hl
  rw [r6.eq hf (.lookupEntry k) trivial trivial, show (Index.step (.lookupEntry k) _).out = _ from result_lookup hF k] at hl
  rw [r4]
  refine C31_dense_partial hash eq h0.symm ops r1 k e ?_
  rw [← r2, lookup_out hF]; simpa using hl

/-- C32 for the generated class: `remove` of a present key. -/
theorem C32_generated_remove_present (hf : 2 ^ 31 ≤ fuel) (h : Made fuel s a) (k : K) (e : Int)
    (hl : res fuel (.lookupEntry k) s = .ok (.int e)) (he : e ≠ -1) :
    ∃ t, Link.Map.step fuel (.remove k) s = .ok (.int e) t ∧
      res fuel (.containsKey k) t = .ok (.bool false) ∧
      (∀ n, res fuel .size s = .ok (.int n) → res fuel .size t = .ok (.int (n - 1))) ∧
      (∀ k', a.eq k k' = false → Link.Map.SameFor fuel k' s t) := by
  unfold res at *
  rw [h.eq hf (.lookupEntry k) trivial trivial] at hl
  obtain ⟨t, h1, h2, h3, h4⟩ := C32_remove_present (h.reach hf) k e hl he
  obtain ⟨g1, g2⟩ := h.next hf (.remove k) trivial trivial h1
  refine ⟨t, g1, ?_, ?_, fun k' hk' => (Link.Map.same_iff hf h g2 k').2 (h4 k' hk')⟩
  · rw [g2.eq hf (.containsKey k) trivial trivial]; exact h2
  · rw [g2.eq hf .size trivial trivial, h.eq hf .size trivial trivial]; exact h3

/-- C32 for the generated class: `remove` of an absent key. -/
theorem C32_generated_remove_absent (hf : 2 ^ 31 ≤ fuel) (h : Made fuel s a) (k : K)
    (hk : res fuel (.containsKey k) s = .ok (.bool false)) :
    Link.Map.step fuel (.remove k) s = .ok (.int (-1)) s := by
  unfold res at *
  rw [h.eq hf (.containsKey k) trivial trivial] at hk
  exact (h.next hf (.remove k) trivial trivial (C32_remove_absent (h.reach hf) k hk)).1

/-- C33 for the generated class: `removeAt` of a live entry. -/
theorem C33_generated_removeAt_live (hf : 2 ^ 31 ≤ fuel) (h : Made fuel s a) (e : Int) (hi : -2 ^ 31 ≤ e ∧ e < 2 ^ 31)
    (l : List Int) (hl : res fuel .forEachEntry s = .ok (.ints l)) (he : e ∈ l) :
    ∃ t l', Link.Map.step fuel (.removeAt e) s = .ok .unit t ∧
      res fuel .forEachEntry t = .ok (.ints l') ∧ (∀ x, x ∈ l' ↔ x ∈ l ∧ x ≠ e) ∧
      (∀ n, res fuel .size s = .ok (.int n) → res fuel .size t = .ok (.int (n - 1))) ∧
      (∀ k', res fuel (.lookupEntry k') s ≠ .ok (.int e) → Link.Map.SameFor fuel k' s t) ∧
      (∀ k', res fuel (.lookupEntry k') s = .ok (.int e) →
        res fuel (.containsKey k') t = .ok (.bool false)) := by
  unfold res at *
  rw [h.eq hf .forEachEntry trivial trivial] at hl
  obtain ⟨t, l', h1, h2, h3, h4, h5, h6⟩ := C33_removeAt_live (h.reach hf) e l hl he
  obtain ⟨g1, g2⟩ := h.next hf (.removeAt e) hi trivial h1
  refine ⟨t, l', g1, ?_, h3, ?_, fun k' hk' => (Link.Map.same_iff hf h g2 k').2 (h5 k' ?_), fun k' hk' => ?_⟩
  · rw [g2.eq hf .forEachEntry trivial trivial]; exact h2
  · rw [g2.eq hf .size trivial trivial, h.eq hf .size trivial trivial]; exact h4
  · rw [h.eq hf (.lookupEntry k') trivial trivial] at hk'; exact hk'
  · rw [h.eq hf (.lookupEntry k') trivial trivial] at hk'
    rw [g2.eq hf (.containsKey k') trivial trivial]; exact h6 k' hk'

/-- C33 for the generated class: entries that are not live. -/
theorem C33_generated_removeAt_not_live (hf : 2 ^ 31 ≤ fuel) (h : Made fuel s a) (e : Int)
    (hi : -2 ^ 31 ≤ e ∧ e < 2 ^ 31) (l : List Int) (hl : res fuel .forEachEntry s = .ok (.ints l)) (he : e ∉ l) :
    (Link.Map.step fuel (.removeAt e) s).state = s ∧
    ∀ c, res fuel .capacity s = .ok (.int c) → 0 ≤ e → e < c →
      Link.Map.step fuel (.removeAt e) s = .ok .unit s := by
  unfold res at *
  rw [h.eq hf .forEachEntry trivial trivial] at hl
  rw [h.eq hf (.removeAt e) hi trivial, h.eq hf .capacity trivial trivial]
  exact ⟨C33_removeAt_outside (h.reach hf) e l hl he, fun c hc h0 h1 =>
    C33_removeAt_not_live (h.reach hf) e l hl he h0 c hc h1⟩

/-- C34 for the generated class: reserving an entry. -/
theorem C34_generated_reserve (hf : 2 ^ 31 ≤ fuel) (h : Made fuel s a) (k : K) (v : V)
    (e : Int) (hl : res fuel (.lookupEntry k) s = .ok (.int e)) (he : e ≠ -1)
    (hv : res fuel (.get k) s = .ok (.val v)) :
    ∃ t, Link.Map.step fuel (.removeAtAndReserve e) s = .ok .unit t ∧
      res fuel (.containsKey k) t = .ok (.bool false) ∧
      (∀ n, res fuel .size s = .ok (.int n) → res fuel .size t = .ok (.int (n - 1))) ∧
      (∀ k', a.eq k k' = false → Link.Map.SameFor fuel k' s t) ∧
      ∃ b, b = after (.removeAtAndReserve e) (.ok .unit) a ∧ Made fuel t b ∧ ∀ ops, Link.Map.Guarded fuel b t ops → (∀ o ∈ ops, Holding e o) →
        (∃ k0, res fuel (.getKeyAt e) (Link.Map.final fuel t ops) = .ok (.key k0) ∧ a.eq k k0 = true) ∧
        res fuel (.getValueAt e) (Link.Map.final fuel t ops) = .ok (.val v) ∧
        (∀ k', res fuel (.lookupEntry k') (Link.Map.final fuel t ops) ≠ .ok (.int e)) ∧
        (∀ k', Guard (.add k' : Op K V) (Link.Map.ideal fuel b t ops) →
          res fuel (.add k') (Link.Map.final fuel t ops) ≠ .ok (.int e) ∧
          ∀ v', res fuel (.put k' v') (Link.Map.final fuel t ops) ≠ .ok (.int e)) := by
  have hr := h.reach hf
  obtain ⟨F, hF⟩ := reach_inv hr
  unfold res at *
  rw [h.eq hf (.lookupEntry k) trivial trivial] at hl
  rw [h.eq hf (.get k) trivial trivial] at hv
  have hg : Guard (.removeAtAndReserve e : Op K V) a := by
    have hl' := hl
    rw [show (Index.step (.lookupEntry k) s).out = _ from result_lookup hF k] at hl'
    simp at hl'
    obtain ⟨r, hr', _, hre, hq⟩ := entryOf_eq hF hl' he
    have hc := hF.coherent (by intro h0; rw [h0] at hr'; simp at hr')
    exact ⟨r, hr', hre, hc.trans _ _ _ (hc.symm _ _ hq) hq⟩
  obtain ⟨t, h1, h2, h3, h4, b, h5, h6, h7⟩ := C34_reserve hr k v e hl he hv
  obtain ⟨g1, g2⟩ := h.next hf (.removeAtAndReserve e) trivial hg h1
  rw [← h5] at g2
  refine ⟨t, g1, ?_, ?_, fun k' hk' => (Link.Map.same_iff hf h g2 k').2 (h4 k' hk'), b, h5, g2, fun ops ho hh => ?_⟩
  · rw [g2.eq hf (.containsKey k) trivial trivial]; exact h2
  · rw [g2.eq hf .size trivial trivial, h.eq hf .size trivial trivial]; exact h3
  · obtain ⟨r1, r2, r3, _, _, r6⟩ := g2.run hf ops ho
    obtain ⟨⟨k0, q1, q2⟩, q3, q4, q5⟩ := h7 ops r1 hh
    rw [← r2, ← r3] at *
    refine ⟨⟨k0, ?_, q2⟩, ?_, ?_, ?_⟩
    · rw [r6.eq hf (.getKeyAt e) trivial trivial]; exact q1
    · rw [r6.eq hf (.getValueAt e) trivial trivial]; exact q3
    · intro k'
      rw [r6.eq hf (.lookupEntry k') trivial trivial]; exact q4 k'
    · intro k' hk'
      refine ⟨?_, fun v' => ?_⟩
      · rw [r6.eq hf (.add k') trivial hk']; exact (q5 k' hk').1
      · rw [r6.eq hf (.put k' v') trivial hk']; exact (q5 k' hk').2 v'

/-- C34 for the generated class: a freed entry is the one the next new key gets. -/
theorem C34_generated_freed_is_next (hf : 2 ^ 31 ≤ fuel) (h : Made fuel s a) (e : Int)
    (hheld : e ∈ a.held) (k : K)
    (hg : Guard (.add k : Op K V) (after (.freeReservedEntry e) (.ok .unit) a))
    (hk : res fuel (.containsKey k) (Link.Map.step fuel (.freeReservedEntry e) s).state = .ok (.bool false)) :
    res fuel (.freeReservedEntry e) s = .ok .unit ∧
    res fuel (.add k) (Link.Map.step fuel (.freeReservedEntry e) s).state = .ok (.int e) := by
  have h0 := h.eq hf (.freeReservedEntry e) trivial hheld
  have hm := h.call (.freeReservedEntry e) trivial hheld
  have h1 := hm.eq hf (.containsKey k) trivial trivial
  have h2 := hm.eq hf (.add k) trivial hg
  unfold res at *
  rw [h1, h0] at hk
  rw [h2, h0]
  exact C34_freed_is_next (h.reach hf) e hheld k hg hk

/-- C35 for the generated class. -/
theorem C35_generated_each_once (hf : 2 ^ 31 ≤ fuel) (h : Made fuel s a) :
    ∃ rows : List (Row K V), rows.Perm a.rows ∧ (rows.map (·.entry)).Nodup ∧
      Gen.KeyValueIndexedMap.forEachEntry fuel pure s = .ok (rows.map (·.entry)) s ∧
      Gen.KeyValueIndexedMap.forEach fuel pure s = .ok (rows.map (·.key)) s ∧
      Gen.KeyValueIndexedMap.forEachValue fuel pure s = .ok (rows.map (·.val)) s ∧
      res fuel .size s = .ok (.int rows.length) ∧
      ∀ r ∈ rows, res fuel (.getKeyAt r.entry) s = .ok (.key r.key) ∧
        res fuel (.getValueAt r.entry) s = .ok (.val r.val) := by
  obtain ⟨rows, h1, h2, h3, h4, h5, h6, h7⟩ := C35_each_once (h.reach hf)
  have down : ∀ {α : Type} {m : JM (Index K V) α} {x : α} (f : α → Out K V), (∀ x y, f x = f y → x = y) →
      (do return f (← m) : JM (Index K V) (Out K V)) s = .ok (f x) s → m s = .ok x s := by
    intro α m x f hinj hx
    cases hm : m s with
    | ok y u =>
      rw [JM.bind_ok hm] at hx
      simp only [JM.pure_apply, Res.ok.injEq] at hx
      rw [hinj _ _ hx.1, hx.2]
    | err y u => rw [JM.bind_err hm] at hx; cases hx
  unfold res
  refine ⟨rows, h1, h2, ?_, ?_, ?_, ?_, fun r hr => ?_⟩
  · have := h.eq hf .forEachEntry trivial trivial
    rw [h3] at this
    exact down _ (fun x y hxy => by injection hxy) this
  · have := h.eq hf .forEach trivial trivial
    rw [h4] at this
    exact down _ (fun x y hxy => by injection hxy) this
  · have := h.eq hf .forEachValue trivial trivial
    rw [h5] at this
    exact down _ (fun x y hxy => by injection hxy) this
  · rw [h.eq hf .size trivial trivial]; exact h6
  · rw [h.eq hf (.getKeyAt r.entry) trivial trivial, h.eq hf (.getValueAt r.entry) trivial trivial]
    exact h7 r hr

/-- C36 for the generated class: a callback that removes some of the entries it is given, with the generated
`removeAt`.  The queries after the walk are answered by the generated code too. -/
theorem C36_generated_remove_while_visiting (hf : 2 ^ 31 ≤ fuel) (h : Made fuel s a) (P : Int → Bool) :
    ∃ l t l', res fuel .forEachEntry s = .ok (.ints l) ∧ l.Nodup ∧
      Gen.KeyValueIndexedMap.forEachEntry fuel (Link.Map.removingCallback fuel P) s = .ok l t ∧
      res fuel .forEachEntry t = .ok (.ints l') ∧ l'.Nodup ∧ (∀ e, e ∈ l' ↔ e ∈ l ∧ P e = false) ∧
      ∀ k e, res fuel (.lookupEntry k) s = .ok (.int e) → e ≠ -1 →
        if P e then res fuel (.containsKey k) t = .ok (.bool false) else Link.Map.SameFor fuel k s t := by
  obtain ⟨hb, hr⟩ := h.inv hf
  obtain ⟨l, t, l', h1, h2, h3, h4, h5, h6, h7, h8⟩ := C36_remove_while_visiting hr P
  have hbt : Link.Map.Bx t := by
    have := Link.Map.forEachWith_keeps (f := IndexSpec.removingCallback P)
      (fun e => .bind (.when (Link.Map.removeAt_bx e)) fun _ => .pure _) s hb
    rw [h3] at this; exact this
  obtain ⟨F, hF⟩ := reach_inv h4
  have ht : ∀ o : Op K V, IntArg o → Guard o (a.removing P l) → Link.Map.step fuel o t = Index.step o t :=
    fun o hi hg => Link.Map.step_eq fuel hf hF hbt o hi hg
  unfold Link.Map.SameFor
  unfold res
  refine ⟨l, t, l', ?_, h2, (Link.Map.removing_walk hf h P).trans h3, ?_, h6, h7, fun k e hl he => ?_⟩
  · rw [h.eq hf .forEachEntry trivial trivial]; exact h1
  · rw [ht .forEachEntry trivial trivial]; exact h5
  · rw [h.eq hf (.lookupEntry k) trivial trivial] at hl
    have := h8 k e hl he
    rw [ht (.containsKey k) trivial trivial, ht (.lookupEntry k) trivial trivial, ht (.get k) trivial trivial,
      h.eq hf (.containsKey k) trivial trivial, h.eq hf (.lookupEntry k) trivial trivial,
      h.eq hf (.get k) trivial trivial]
    exact this

/-- C37 for the generated class. -/
theorem C37_generated_clear (hf : 2 ^ 31 ≤ fuel) (h : Made fuel s a) :
    ∃ t, Link.Map.step fuel .clear s = .ok .unit t ∧ Made fuel t (empty a.hash a.eq) ∧
      res fuel .size t = .ok (.int 0) ∧ (∀ k, res fuel (.containsKey k) t = .ok (.bool false)) ∧
      ∀ ops, (∀ o ∈ ops, IntArg o) → Legal Ok (empty a.hash a.eq) ops (runM (Link.Map.step fuel) t ops).1 := by
  obtain ⟨t, h1, h2, h3, h4, _⟩ := C37_clear (h.reach hf)
  obtain ⟨g1, g2⟩ := h.next hf .clear trivial trivial h1
  have g2' : Made fuel t (empty a.hash a.eq) := g2
  refine ⟨t, g1, g2', ?_, fun k => ?_, fun ops hi => ?_⟩
  · unfold res; rw [g2'.eq hf .size trivial trivial]; exact h3
  · unfold res; rw [g2'.eq hf (.containsKey k) trivial trivial]; exact h4 k
  · obtain ⟨hb, hr⟩ := g2'.inv hf
    obtain ⟨F, hF⟩ := reach_inv hr
    exact Link.Map.legal fuel hf ops hi hF hb

/-- C37 for the generated class: the keys and values of all entries in use are wiped, unless the collection
was empty. -/
theorem C37_generated_wiped_partial (hf : 2 ^ 31 ≤ fuel) (h : Made fuel s a)
    (hne : res fuel .size s ≠ .ok (.int 0)) :
    ∃ t, Link.Map.step fuel .clear s = .ok .unit t ∧ ∀ e, e ∈ a.live ∨ e ∈ a.held ∨ e ∈ a.free →
      res fuel (.getKeyAt e) t = .ok (.key default) ∧ res fuel (.getValueAt e) t = .ok (.val default) := by
  unfold res at *
  rw [h.eq hf .size trivial trivial] at hne
  obtain ⟨t, h1, h2⟩ := C37_wiped_partial (h.reach hf) hne
  obtain ⟨g1, g2⟩ := h.next hf .clear trivial trivial h1
  refine ⟨t, g1, fun e he => ?_⟩
  rw [g2.eq hf (.getKeyAt e) trivial trivial, g2.eq hf (.getValueAt e) trivial trivial]
  exact h2 e he

/-- C43 for the generated class: after `put(k, v)`. -/
theorem C43_generated_put_get (hf : 2 ^ 31 ≤ fuel) (h : Made fuel s a) (k : K) (v : V)
    (hk : a.eq k k = true) (e : Int) (hg0 : Guard (.put k v : Op K V) a)
    (hput : res fuel (.put k v) s = .ok (.int e)) (ops : List (Op K V))
    (hg : Link.Map.Guarded fuel (after (.put k v) (res fuel (.put k v) s) a) (Link.Map.step fuel (.put k v) s).state ops)
    (hu : ∀ o ∈ ops, Untouched a.eq k e o ∧ Unwritten a.eq k e o) :
    let t := Link.Map.final fuel (Link.Map.step fuel (.put k v) s).state ops
    res fuel (.get k) t = .ok (.val v) ∧ ∀ d, res fuel (.getOrDefault k d) t = .ok (.val v) := by
  intro t
  have h1 := h.eq hf (.put k v) trivial hg0
  obtain ⟨r1, r2, r3, _, _, r6⟩ := (h.call (.put k v) trivial hg0).run hf ops hg
  unfold res at *
  have ht : t = IndexSpec.final (step (.put k v) s).state ops := by rw [← h1]; exact r2
  rw [h1] at hput r1
  obtain ⟨g1, g2⟩ := C43_put_get (h.reach hf) k v hk e hg0 hput ops r1 hu
  rw [← ht] at g1 g2
  refine ⟨?_, fun d => ?_⟩
  · rw [r6.eq hf (.get k) trivial trivial]; exact g1
  · rw [r6.eq hf (.getOrDefault k d) trivial trivial]; exact g2 d

/-- C43 for the generated class: after `putValueAt(e, v)` on the entry of `k`. -/
theorem C43_generated_putValueAt_get (hf : 2 ^ 31 ≤ fuel) (h : Made fuel s a) (k : K)
    (v : V) (e : Int) (hl : res fuel (.lookupEntry k) s = .ok (.int e)) (he : e ≠ -1)
    (ops : List (Op K V))
    (hg : Link.Map.Guarded fuel (after (.putValueAt e v) (.ok .unit) a) (Link.Map.step fuel (.putValueAt e v) s).state ops)
    (hu : ∀ o ∈ ops, Untouched a.eq k e o ∧ Unwritten a.eq k e o) :
    res fuel (.putValueAt e v) s = .ok .unit ∧
    let t := Link.Map.final fuel (Link.Map.step fuel (.putValueAt e v) s).state ops
    res fuel (.get k) t = .ok (.val v) ∧ ∀ d, res fuel (.getOrDefault k d) t = .ok (.val v) := by
  have h1 := h.eq hf (.putValueAt e v) trivial trivial
  have hm := h.call (.putValueAt e v) trivial trivial
  have hok : (Index.step (.putValueAt e v) s).out = .ok .unit := by
    obtain ⟨F, hF⟩ := reach_inv (h.reach hf)
    unfold res at hl
    rw [h.eq hf (.lookupEntry k) trivial trivial, show (Index.step (.lookupEntry k) s).out = _ from result_lookup hF k] at hl
    simp at hl
    obtain ⟨r, hr, _, hre, _⟩ := entryOf_eq hF hl he
    exact (step_spec hF (.putValueAt e v) trivial).1 (.inl (hre ▸ mem_live hr))
  have hm' : Made fuel (Link.Map.step fuel (.putValueAt e v) s).state (after (.putValueAt e v) (.ok .unit) a) := by
    have := hm
    rw [h1, hok] at this
    rw [h1]; exact this
  obtain ⟨r1, r2, r3, _, _, r6⟩ := hm'.run hf ops hg
  unfold res at *
  rw [h.eq hf (.lookupEntry k) trivial trivial] at hl
  have ht : Link.Map.final fuel (Link.Map.step fuel (.putValueAt e v) s).state ops =
      IndexSpec.final (step (.putValueAt e v) s).state ops := by rw [← h1]; exact r2
  have r1' := r1
  rw [h1] at r1'
  obtain ⟨g0, g1, g2⟩ := C43_putValueAt_get (h.reach hf) k v e hl he ops r1' hu
  rw [← ht] at g1 g2
  refine ⟨by rw [h1]; exact g0, ?_, fun d => ?_⟩
  · rw [r6.eq hf (.get k) trivial trivial]; exact g1
  · rw [r6.eq hf (.getOrDefault k d) trivial trivial]; exact g2 d

/-- C43 for the generated class: what `get` and `getOrDefault` return for absent and present keys. -/
theorem C43_generated_absent (hf : 2 ^ 31 ≤ fuel) (h : Made fuel s a) (k : K) (d : V) :
    (res fuel (.containsKey k) s = .ok (.bool false) ∧ res fuel (.get k) s = .error .keyNotFound ∧
      res fuel (.getOrDefault k d) s = .ok (.val d)) ∨
    ∃ v, res fuel (.containsKey k) s = .ok (.bool true) ∧ res fuel (.get k) s = .ok (.val v) ∧
      res fuel (.getOrDefault k d) s = .ok (.val v) := by
  unfold res
  rw [h.eq hf (.containsKey k) trivial trivial, h.eq hf (.get k) trivial trivial,
    h.eq hf (.getOrDefault k d) trivial trivial]
  exact C43_absent (h.reach hf) k d

/-- C44 for the generated class: `add` of an absent key. -/
theorem C44_generated_add_absent (hf : 2 ^ 31 ≤ fuel) (h : Made fuel s a) (k : K)
    (hk : a.eq k k = true) (hg : Guard (.add k : Op K V) a)
    (habs : res fuel (.containsKey k) s = .ok (.bool false)) :
    ∃ e t, Link.Map.step fuel (.add k) s = .ok (.int e) t ∧ res fuel (.get k) t = .ok (.val default) ∧
      res fuel (.getValueAt e) t = .ok (.val default) ∧
      ∀ k', a.eq k k' = false → Link.Map.SameFor fuel k' s t := by
  unfold res at *
  rw [h.eq hf (.containsKey k) trivial trivial] at habs
  obtain ⟨e, t, h1, h2, h3, h4⟩ := C44_add_absent (h.reach hf) k hk hg habs
  obtain ⟨g1, g2⟩ := h.next hf (.add k) trivial hg h1
  refine ⟨e, t, g1, ?_, ?_, fun k' hk' => (Link.Map.same_iff hf h g2 k').2 (h4 k' hk')⟩
  · rw [g2.eq hf (.get k) trivial trivial]; exact h2
  · rw [g2.eq hf (.getValueAt e) trivial trivial]; exact h3

/-- C44 for the generated class: `add` of a present key changes nothing at all. -/
theorem C44_generated_add_present (hf : 2 ^ 31 ≤ fuel) (h : Made fuel s a) (k : K)
    (e : Int) (hl : res fuel (.lookupEntry k) s = .ok (.int e)) (he : e ≠ -1) :
    Link.Map.step fuel (.add k) s = .ok (.int e) s := by
  obtain ⟨hb, hr⟩ := h.inv hf
  obtain ⟨F, hF⟩ := reach_inv hr
  unfold res at hl
  rw [h.eq hf (.lookupEntry k) trivial trivial] at hl
  have := C44_add_present hr k e hl he
  exact ((Link.Map.step_sim fuel hf hF hb (.add k) trivial).toEq (by rw [this]; simp)).trans this

/-- C102 for the generated class. -/
theorem C102_generated_capacity (hf : 2 ^ 31 ≤ fuel) (hash : K → BitVec 32) (eq : K → K → Bool) (ic : Int)
    (lf : Nat × Nat) (s₀ s : Index K V) (hz : s₀.modificationCount = 0) (u : Unit)
    (hnew : Gen.KeyValueIndexedMap.init2 hash eq ic lf s₀ = .ok u s) (ops : List (Op K V))
    (hg : Link.Map.Guarded fuel (empty hash eq) s ops) :
    ∃ c, res fuel .capacity (Link.Map.final fuel s ops) = .ok (.int c) ∧ nextPowerOf2 ic ≤ c ∧
      (c = nextPowerOf2 ic ∨ c * lf.1 < 2 * (Link.Map.peak fuel (empty hash eq) s ops + 29) * lf.2) ∧
      ((lf.2 : Int) ≤ 2 * nextPowerOf2 ic * lf.1 →
        c = nextPowerOf2 ic ∨ c * lf.1 < 2 * Link.Map.peak fuel (empty hash eq) s ops * lf.2) := by
  have hm : Made fuel s (empty hash eq) := .new hz hnew
  have h0 := Link.Map.init2_eq hash eq ic lf s₀ hz
  rw [hnew] at h0
  obtain ⟨r1, r2, r3, r4, _, r6⟩ := hm.run hf ops hg
  unfold res
  rw [r6.eq hf .capacity trivial trivial, r2, r4]
  exact C102_capacity hash eq h0.symm ops r1

/-- C102 for the generated class: a call never makes the capacity smaller, and at most doubles it. -/
theorem C102_generated_never_shrinks (hf : 2 ^ 31 ≤ fuel) (h : Made fuel s a) (o : Op K V) (hi : IntArg o)
    (hg : Guard o a) :
    ∃ c c', res fuel .capacity s = .ok (.int c) ∧ res fuel .capacity (Link.Map.step fuel o s).state = .ok (.int c') ∧
      c ≤ c' ∧ c' ≤ 2 * c := by
  unfold res
  rw [(h.call o hi hg).eq hf .capacity trivial trivial, h.eq hf .capacity trivial trivial, h.eq hf o hi hg]
  exact C102_never_shrinks (h.reach hf) o hg

/- Non-vacuity: the generated code, with growth, a reserved entry, a removing callback, and `clear`. -/
example : (match Gen.KeyValueIndexedMap.init2 (fun k : Int => BitVec.ofInt 32 k) (fun a b => a == b) 2 (1, 1) rawIndex with
    | .ok _ s =>
      let ops : List (Op Int Int) := [.put 1 11, .put 9 99, .put 2 22, .removeAtAndReserve 0, .put 17 5, .put 25 6]
      let s := Link.Map.final 40 s ops
      let w := Gen.KeyValueIndexedMap.forEachEntry 40 (Link.Map.removingCallback 40 fun e => e % 2 == 1) s
      (match w with | .ok l _ => l | .err _ _ => [], (runM (Link.Map.step 40) w.state [Op.forEachEntry, .size, .containsKey 9, .get 25,
        .getValueAt 0, .capacity, .clear, .size, .getValueAt 0, .add 3]).1)
    | .err _ _ => ([], [])) =
      ([4, 1, 3, 2], [.ok (.ints [4, 2]), .ok (.int 2), .ok (.bool false), .ok (.val 6), .ok (.val 11), .ok (.int 8),
        .ok .unit, .ok (.int 0), .ok (.val 0), .ok (.int 0)]) := by
  decide +kernel

end Verif

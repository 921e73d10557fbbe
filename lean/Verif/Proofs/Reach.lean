import Verif.Spec.IndexReach
import Verif.Proofs.Index8
import Verif.Proofs.Cursor
/-! Reachable collections satisfy the invariant; what one call does to one key. -/
set_option linter.unusedSectionVars false
namespace Verif
namespace Index
open IndexSpec
variable {K V : Type} [Inhabited K] [Inhabited V]
variable {tight : Prop} {s : Index K V} {a : Abs K V} {F : List Int}

theorem Inv.weaken {tight' : Prop} (h : Inv tight s a F) (ht : tight' → tight) : Inv tight' s a F :=
  { h with tight := fun x => h.tight (ht x) }

theorem mayRemove_removing (P : Int → Bool) :
    MayRemove tight (removingCallback P : Int → JM (Index K V) Int) (Iterating.dropIf P) id := by
  intro s a F e h he
  by_cases hP : P e = true
  · obtain ⟨s', h1, h2, _, h4⟩ := removeAt_live h he
    refine ⟨s', _, ?_, by rw [Iterating.dropIf, if_pos hP]; exact h2, h4, ?_⟩
    · unfold removingCallback
      rw [JM.when_pos hP, JM.bind_ok h1]; rfl
    · intro x hx
      rw [Iterating.dropIf, if_pos hP] at hx
      have hx' : x ∈ (a.drop e).live := hx
      rw [live_drop] at hx'
      exact (List.mem_filter.1 hx').1
  · refine ⟨s, F, ?_, by rw [Iterating.dropIf, if_neg hP]; exact h, Pres.refl _ _, ?_⟩
    · unfold removingCallback
      rw [JM.when_neg hP, JM.bind_ok (JM.pure_apply _ _)]; rfl
    · intro x hx
      rw [Iterating.dropIf, if_neg hP] at hx; exact hx

theorem keep_dropIf (P : Int → Bool) : ∀ (a : Abs K V) e x, x ∈ a.live → x ≠ e →
    x ∈ (Iterating.dropIf P a e).live := by
  intro a e x hx hne
  by_cases hP : P e = true
  · rw [Iterating.dropIf, if_pos hP]
    show x ∈ (a.drop e).live
    rw [live_drop]
    exact List.mem_filter.2 ⟨hx, by simpa using hne⟩
  · rw [Iterating.dropIf, if_neg hP]; exact hx

theorem forEach_removing (P : Int → Bool) (h : Inv tight s a F) :
    ∃ s' F', forEachWith (removingCallback P) s = .ok (order s) s' ∧
      Inv tight s' (a.removing P (order s)) F' := by
  obtain ⟨s', F', h1, h2⟩ := forEach_remove (mayRemove_removing (tight := tight) P) (keep_dropIf P) h
  refine ⟨s', F', by simpa using h1, ?_⟩
  rw [Iterating.foldl_dropIf_order P h] at h2
  exact h2

theorem iterate_removing (P : Int → Bool) (h : Inv tight s a F) (it : Iter) {fuel : Nat}
    (hf : s.size < fuel) :
    ∃ t F', (do Iterating.reset; Iterating.drive P fuel) ⟨s, it⟩ = .ok (order s) t ∧
      Iterating.Done 0 t ∧ Inv tight t.map (a.removing P (order s)) F' := by
  obtain ⟨it', h1, h2⟩ := Iterating.reset_start (K := K) (V := V) ⟨s, it⟩
  have hl : (order s).length < fuel := by have := order_length h; omega
  obtain ⟨t, F', h3, h4, h5⟩ := Iterating.drive_start P (s := ⟨s, it'⟩) h h2 hl
  refine ⟨t, F', by rw [JM.bind_ok h1]; exact h3, h4, ?_⟩
  rw [Iterating.foldl_dropIf_order P h] at h5
  exact h5

theorem reach_inv {exact : Prop} {s : Index K V} {a : Abs K V} (h : Reach exact s a) :
    ∃ F, Inv exact s a F := by
  induction h with
  | new h ht => exact ⟨[], (new_inv _ _ h).weaken ht⟩
  | call o _ hg ih =>
    obtain ⟨F, hF⟩ := ih
    exact (step_spec hF o hg).2.2
  | copy _ _ hh hq hc he ih1 ih2 =>
    obtain ⟨F, hF⟩ := ih1
    obtain ⟨G, hG⟩ := ih2
    obtain ⟨s', h1, h2, _⟩ := copyFrom_spec hF hG (by rw [hF.hash, hG.hash, hh])
      (by rw [hF.eq, hG.eq, hq]) hc
    rw [h1] at he
    simp at he; subst he
    exact ⟨G, h2⟩
  | @forEachRemoving _ _ _ _ P _ _ he ih =>
    obtain ⟨F, hF⟩ := ih
    obtain ⟨s', F', h1, h2⟩ := forEach_removing P hF
    rw [h1] at he
    simp at he
    obtain ⟨rfl, rfl⟩ := he
    exact ⟨F', h2⟩
  | @iterate _ _ _ _ it P _ _ _ hf he ih =>
    obtain ⟨F, hF⟩ := ih
    obtain ⟨t, F', h1, _, h2⟩ := iterate_removing P hF it hf
    rw [h1] at he
    simp at he
    obtain ⟨rfl, rfl⟩ := he
    exact ⟨F', h2⟩
  | @iterating _ s a l it ops hlen _ he ih =>
    obtain ⟨F, hF⟩ := ih
    have : l = order s := by
      simp only [step] at he
      rw [JM.bind_ok (forEachEntry_spec hF)] at he
      simpa using he.symm
    subst this
    obtain ⟨it', h1, h2⟩ := Iterating.cinv_reset hF it
    rw [h1]
    exact (Iterating.cursor_run ops 0 _ _ h2 (by omega) (by omega)).2.1

theorem guarded_reach {exact : Prop} (ops : List (Op K V)) : ∀ {s : Index K V} {a : Abs K V},
    Reach exact s a → Guarded a s ops → Reach exact (final s ops) (ideal a s ops) := by
  induction ops with
  | nil => intro s a h _; exact h
  | cons o os ih => intro s a h hg; exact ih (h.call o hg.1) hg.2

/-! ### Keys -/

theorem find_some {k : K} {r : Row K V} (hf : a.find k = some r) : r ∈ a.rows ∧ a.eq k r.key = true :=
  ⟨List.mem_of_find?_eq_some hf, List.find?_some (p := fun r : Row K V => a.eq k r.key) hf⟩

theorem find_none {k : K} : a.find k = none ↔ ∀ r ∈ a.rows, a.eq k r.key = false := by
  unfold Abs.find
  rw [List.find?_eq_none]
  simp

theorem row_unique (h : Inv tight s a F) {k : K} {r r' : Row K V} (hr : r ∈ a.rows)
    (hr' : r' ∈ a.rows) (hq : a.eq k r.key = true) (hq' : a.eq k r'.key = true) : r = r' := by
  have hc := h.coherent (by intro h0; rw [h0] at hr; simp at hr)
  have key : ∀ l : List (Row K V), l.Pairwise (fun r r' => a.eq r.key r'.key = false) →
      r ∈ l → r' ∈ l → r = r' := by
    intro l hp
    induction hp with
    | nil => simp
    | @cons x l hx _ ih =>
      intro h1 h2
      rcases List.mem_cons.1 h1 with e1 | m1 <;> rcases List.mem_cons.1 h2 with e2 | m2
      · rw [e1, e2]
      · subst e1
        have := hx r' m2
        have := hc.trans _ _ _ (hc.symm _ _ hq) hq'
        simp_all
      · subst e2
        have := hx r m1
        have := hc.trans _ _ _ (hc.symm _ _ hq') hq
        simp_all
      · exact ih m1 m2
  exact key _ h.distinct hr hr'

theorem find_of_mem (h : Inv tight s a F) {k : K} {r : Row K V} (hr : r ∈ a.rows)
    (hq : a.eq k r.key = true) : a.find k = some r := by
  cases hf : a.find k with
  | none => have := find_none.1 hf r hr; simp_all
  | some r' =>
    have h1 := find_some hf
    rw [row_unique h hr h1.1 hq h1.2]

theorem entry_unique (h : Inv tight s a F) {r r' : Row K V} (hr : r ∈ a.rows) (hr' : r' ∈ a.rows)
    (he : r.entry = r'.entry) : r = r' := by
  have hn := h.live_nodup
  have key : ∀ l : List (Row K V), (l.map (·.entry)).Nodup → r ∈ l → r' ∈ l → r = r' := by
    intro l
    induction l with
    | nil => simp
    | cons x l ih =>
      intro hn h1 h2
      simp only [List.map_cons, List.nodup_cons, List.mem_map, not_exists, not_and] at hn
      rcases List.mem_cons.1 h1 with e1 | m1 <;> rcases List.mem_cons.1 h2 with e2 | m2
      · rw [e1, e2]
      · subst e1; exact absurd he.symm (hn.1 r' m2)
      · subst e2; exact absurd he (hn.1 r m1)
      · exact ih hn.2 m1 m2
  exact key _ hn hr hr'

theorem lookup_out (h : Inv tight s a F) (k : K) : (lookupEntry k s).out = .ok (entryOf a k) := by
  rw [lookupEntry_spec h]; rfl

theorem entryOf_some (h : Inv tight s a F) {k : K} {r : Row K V} (hf : a.find k = some r) :
    entryOf a k = r.entry := (entryOf_nonneg h hf).2.1

theorem entryOf_eq (h : Inv tight s a F) {k : K} {e : Int} (he : entryOf a k = e) (hne : e ≠ -1) :
    ∃ r ∈ a.rows, a.find k = some r ∧ r.entry = e ∧ a.eq k r.key = true := by
  cases hf : a.find k with
  | none => exact absurd ((entryOf_eq_neg h k).2 hf) (by omega)
  | some r => exact ⟨r, (find_some hf).1, rfl, by rw [← entryOf_some h hf, he], (find_some hf).2⟩

theorem mem_setVal {e : Int} {v : V} {l : List (Row K V)} {r : Row K V} (hr : r ∈ l) :
    (if r.entry = e then { r with val := v } else r) ∈ Abs.setVal e v l :=
  List.mem_map.2 ⟨r, hr, rfl⟩

theorem of_mem_setVal {e : Int} {v : V} {l : List (Row K V)} {r' : Row K V}
    (hr : r' ∈ Abs.setVal e v l) : ∃ r ∈ l, r' = if r.entry = e then { r with val := v } else r := by
  obtain ⟨r, h1, h2⟩ := List.mem_map.1 hr
  exact ⟨r, h1, h2.symm⟩

theorem setVal_key (r : Row K V) (e : Int) (v : V) :
    (if r.entry = e then { r with val := v } else r).key = r.key ∧
    (if r.entry = e then { r with val := v } else r).entry = r.entry := by split <;> simp

theorem add_out (h : Inv tight s a F) {k : K} (hf : a.find k = none)
    (hg : Guard (.add k : Op K V) a) :
    ∃ e, (step (.add k) s).out = .ok (.int e) ∧ Fresh a e := by
  have := (step_spec h (.add k) hg).1
  simp only [Ok, hf] at this
  exact this

theorem put_out (h : Inv tight s a F) {k : K} {v : V} (hf : a.find k = none)
    (hg : Guard (.put k v : Op K V) a) :
    ∃ e, (step (.put k v) s).out = .ok (.int e) ∧ Fresh a e := by
  have := (step_spec h (.put k v) hg).1
  simp only [Ok, hf] at this
  exact this

/-- One call: who is a member afterwards. -/
theorem present_after (h : Inv tight s a F) (o : Op K V) (hg : Guard o a) (hp : Plain o) (k : K) :
    (∃ r ∈ (after o (step o s).out a).rows, a.eq k r.key = true) ↔
      Adds a.eq k o ∨ ((∃ r ∈ a.rows, a.eq k r.key = true) ∧ ¬ Drops a.eq k s o) := by
  have addLike : ∀ (k' : K) (v : V) e, Coherent a.hash a.eq →
      ((∃ r ∈ (a.insert e k' v).rows, a.eq k r.key = true) ↔
        a.eq k k' = true ∨ ∃ r ∈ a.rows, a.eq k r.key = true) := by
    intro k' v e _
    simp [Abs.insert]
  have present : ∀ k' r, Coherent a.hash a.eq → a.find k' = some r → a.eq k k' = true →
      ∃ r ∈ a.rows, a.eq k r.key = true := fun k' r hc hf hq =>
    ⟨r, (find_some hf).1, hc.trans _ _ _ hq (find_some hf).2⟩
  have dropLike : ∀ e, (∀ r ∈ a.rows, a.eq k r.key = true → (r.entry = e ↔ Drops a.eq k s o)) →
      ((∃ r ∈ (a.drop e).rows, a.eq k r.key = true) ↔
        (∃ r ∈ a.rows, a.eq k r.key = true) ∧ ¬ Drops a.eq k s o) := by
    intro e he
    constructor
    · rintro ⟨r, h1, h2⟩
      obtain ⟨h1, h3⟩ := mem_drop.1 h1
      exact ⟨⟨r, h1, h2⟩, fun hd => h3 ((he r h1 h2).2 hd)⟩
    · rintro ⟨⟨r, h1, h2⟩, h3⟩
      exact ⟨r, mem_drop.2 ⟨h1, fun hd => h3 ((he r h1 h2).1 hd)⟩, h2⟩
  have entryDrop : ∀ e, ∀ r ∈ a.rows, a.eq k r.key = true →
      (r.entry = e ↔ (lookupEntry k s).out = .ok e) := by
    intro e r h1 h2
    rw [lookup_out h, entryOf_some h (find_of_mem h h1 h2)]
    simp
  cases o with
  | add k' =>
    cases hf : a.find k' with
    | none =>
      obtain ⟨e, h1, _⟩ := add_out h hf hg
      simp only [after, hf, h1, Adds, Drops]
      rw [addLike _ _ _ hg.1]; simp
    | some r =>
      simp only [after, hf, Adds, Drops]
      have := present k' r hg.1 hf
      constructor
      · intro hh; exact .inr ⟨hh, by simp⟩
      · rintro (hh | ⟨hh, _⟩)
        · exact this hh
        · exact hh
  | put k' v =>
    cases hf : a.find k' with
    | none =>
      obtain ⟨e, h1, _⟩ := put_out (v := v) h hf hg
      simp only [after, hf, h1, Adds, Drops]
      rw [addLike _ _ _ hg.1]; simp
    | some r =>
      simp only [after, hf, Adds, Drops]
      have := present k' r hg.1 hf
      constructor
      · rintro ⟨r', h1, h2⟩
        obtain ⟨r0, h3, rfl⟩ := of_mem_setVal h1
        rw [(setVal_key _ _ _).1] at h2
        exact .inr ⟨⟨r0, h3, h2⟩, by simp⟩
      · intro hh
        obtain ⟨r0, h1, h2⟩ : ∃ r ∈ a.rows, a.eq k r.key = true := by
          rcases hh with hh | ⟨hh, _⟩
          · exact this hh
          · exact hh
        exact ⟨_, mem_setVal h1, by rw [(setVal_key _ _ _).1]; exact h2⟩
  | remove k' =>
    simp only [Adds, false_or]
    cases hf : a.find k' with
    | none =>
      simp only [after, hf, Drops]
      constructor
      · rintro ⟨r, h1, h2⟩
        have hc := h.coherent (by intro h0; rw [h0] at h1; simp at h1)
        refine ⟨⟨r, h1, h2⟩, fun hq => ?_⟩
        have := find_none.1 hf r h1
        have := hc.trans _ _ _ (hc.symm _ _ hq) h2
        simp_all
      · exact fun hh => hh.1
    | some r =>
      simp only [after, hf]
      apply dropLike
      intro r' h1 h2
      have hc := h.coherent (by intro h0; rw [h0] at h1; simp at h1)
      obtain ⟨h3, h4⟩ := find_some hf
      constructor
      · intro he
        rw [entry_unique h h1 h3 he] at h2
        exact hc.trans _ _ _ h2 (hc.symm _ _ h4)
      · intro hq
        rw [row_unique h h1 h3 (hc.trans _ _ _ (hc.symm _ _ hq) h2) h4]
  | removeAt e =>
    simp only [Adds, false_or]
    by_cases he : e ∈ a.live
    · simp only [after, if_pos he]
      exact dropLike e (entryDrop e)
    · simp only [after, if_neg he]
      constructor
      · rintro ⟨r, h1, h2⟩
        refine ⟨⟨r, h1, h2⟩, fun hd => he ?_⟩
        rw [← (entryDrop e r h1 h2).2 hd]
        exact mem_live h1
      · exact fun hh => hh.1
  | removeAtAndReserve e =>
    simp only [Adds, false_or, after]
    exact dropLike e (entryDrop e)
  | putValueAt e v =>
    simp only [Adds, Drops, after, false_or]
    constructor
    · rintro ⟨r', h1, h2⟩
      obtain ⟨r0, h3, rfl⟩ := of_mem_setVal h1
      rw [(setVal_key _ _ _).1] at h2
      exact ⟨⟨r0, h3, h2⟩, by simp⟩
    · rintro ⟨⟨r0, h1, h2⟩, _⟩
      exact ⟨_, mem_setVal h1, by rw [(setVal_key _ _ _).1]; exact h2⟩
  | clear => simp [Adds, Drops, after]
  | setHashMethod _ => exact absurd hp (by simp [Plain])
  | setEqMethod _ => exact absurd hp (by simp [Plain])
  | _ => simp [Adds, Drops, after]

theorem after_eq {o : Op K V} (hp : Plain o) (out : Except Err (Out K V)) (a : Abs K V) :
    (after o out a).eq = a.eq ∧ (after o out a).hash = a.hash := by
  cases o with
  | setHashMethod _ => exact absurd hp (by simp [Plain])
  | setEqMethod _ => exact absurd hp (by simp [Plain])
  | add k => simp only [after]; split <;> simp [Abs.insert]
  | put k v => simp only [after]; split <;> simp [Abs.insert]
  | remove k => simp only [after]; split <;> simp [Abs.drop]
  | removeAt e => simp only [after]; split <;> simp [Abs.drop]
  | _ => simp [after, Abs.drop]

/-- One call: an association that it does not touch stays. -/
theorem kept (h : Inv tight s a F) {o : Op K V} (hg : Guard o a) {k : K} {r : Row K V}
    (hr : r ∈ a.rows) (hq : a.eq k r.key = true) (hu : Untouched a.eq k r.entry o) :
    ∃ r' ∈ (after o (step o s).out a).rows, r'.entry = r.entry ∧ r'.key = r.key ∧
      (Unwritten a.eq k r.entry o → r'.val = r.val) ∧
      (after o (step o s).out a).eq = a.eq := by
  have hne : a.rows ≠ [] := by intro h0; rw [h0] at hr; simp at hr
  have hc := h.coherent hne
  cases o with
  | add k' =>
    cases hf : a.find k' with
    | none =>
      obtain ⟨e, h1, _⟩ := add_out h hf hg
      simp only [after, hf, h1]
      exact ⟨r, by simp [Abs.insert, hr], rfl, rfl, fun _ => rfl, rfl⟩
    | some r' => simp only [after, hf]; exact ⟨r, hr, rfl, rfl, fun _ => rfl, trivial⟩
  | put k' v =>
    cases hf : a.find k' with
    | none =>
      obtain ⟨e, h1, _⟩ := put_out (v := v) h hf hg
      simp only [after, hf, h1]
      exact ⟨r, by simp [Abs.insert, hr], rfl, rfl, fun _ => rfl, rfl⟩
    | some r' =>
      simp only [after, hf]
      refine ⟨_, mem_setVal hr, (setVal_key _ _ _).2, (setVal_key _ _ _).1, ?_, trivial⟩
      intro hw
      have h3 := find_some hf
      rw [if_neg]
      intro he
      have := entry_unique h hr h3.1 he
      subst this
      have : a.eq k k' = true := hc.trans _ _ _ hq (hc.symm _ _ h3.2)
      simp_all [Unwritten]
  | remove k' =>
    simp only [Untouched] at hu
    cases hf : a.find k' with
    | none => simp only [after, hf]; exact ⟨r, hr, rfl, rfl, fun _ => rfl, trivial⟩
    | some r' =>
      simp only [after, hf]
      have h3 := find_some hf
      refine ⟨r, mem_drop.2 ⟨hr, fun he => ?_⟩, rfl, rfl, fun _ => rfl, rfl⟩
      have := entry_unique h hr h3.1 he
      subst this
      have : a.eq k k' = true := hc.trans _ _ _ hq (hc.symm _ _ h3.2)
      simp_all
  | removeAt e =>
    simp only [Untouched] at hu
    by_cases he : e ∈ a.live
    · simp only [after, if_pos he]
      exact ⟨r, mem_drop.2 ⟨hr, fun he => hu he.symm⟩, rfl, rfl, fun _ => rfl, rfl⟩
    · simp only [after, if_neg he]; exact ⟨r, hr, rfl, rfl, fun _ => rfl, by simp⟩
  | removeAtAndReserve e =>
    simp only [Untouched] at hu
    simp only [after]
    exact ⟨r, mem_drop.2 ⟨hr, fun he => hu he.symm⟩, rfl, rfl, fun _ => rfl, rfl⟩
  | putValueAt e v =>
    simp only [after]
    refine ⟨_, mem_setVal hr, (setVal_key _ _ _).2, (setVal_key _ _ _).1, ?_, by simp⟩
    intro hw
    rw [if_neg (fun he => hw he.symm)]
  | clear => exact absurd hu (by simp [Untouched])
  | setHashMethod _ => simp only [after, if_neg hne]; exact ⟨r, hr, rfl, rfl, fun _ => rfl, by simp⟩
  | setEqMethod _ => simp only [after, if_neg hne]; exact ⟨r, hr, rfl, rfl, fun _ => rfl, by simp⟩
  | _ => exact ⟨r, hr, rfl, rfl, fun _ => rfl, rfl⟩

/-- The same for a history. -/
theorem kept_history (ops : List (Op K V)) : ∀ {s : Index K V} {a : Abs K V} {F : List Int} {k : K}
    {r : Row K V}, Inv tight s a F → Guarded a s ops → r ∈ a.rows → a.eq k r.key = true →
    (∀ o ∈ ops, Untouched a.eq k r.entry o) →
    ∃ r' ∈ (ideal a s ops).rows, r'.entry = r.entry ∧ r'.key = r.key ∧
      ((∀ o ∈ ops, Unwritten a.eq k r.entry o) → r'.val = r.val) ∧ (ideal a s ops).eq = a.eq := by
  induction ops with
  | nil => intro s a F k r _ _ hr _ _; exact ⟨r, hr, rfl, rfl, fun _ => rfl, rfl⟩
  | cons o os ih =>
    intro s a F k r h hg hr hq hu
    obtain ⟨r1, h1, h2, h3, h4, h5⟩ := kept h hg.1 hr hq (hu o (by simp))
    obtain ⟨F', hF'⟩ := (step_spec h o hg.1).2.2
    obtain ⟨r2, g1, g2, g3, g4, g5⟩ := ih (k := k) hF' hg.2 h1 (by rw [h5, h3]; exact hq)
      (by rw [h5, h2]; exact fun o ho => hu o (by simp [ho]))
    refine ⟨r2, g1, by rw [g2, h2], by rw [g3, h3], ?_, by rw [← h5]; exact g5⟩
    intro hw
    rw [g4 (by rw [h5, h2]; exact fun o ho => hw o (by simp [ho])), h4 (hw o (by simp))]

/-! ### Reserved entries -/

theorem held_after {o : Op K V} {r : Row K V}
    (hr : r ∈ a.reserved) (hu : Holding r.entry o) :
    r ∈ (after o (step o s).out a).reserved := by
  cases o with
  | add k => simp only [after]; split <;> exact hr
  | put k v => simp only [after]; split <;> exact hr
  | remove k => simp only [after]; split <;> exact hr
  | removeAt e => simp only [after]; split <;> exact hr
  | removeAtAndReserve e => simp only [after]; exact List.mem_append_right _ hr
  | freeReservedEntry e =>
    simp only [after]
    exact List.mem_filter.2 ⟨hr, by simpa [Holding] using fun he : r.entry = e => hu he.symm⟩
  | putValueAt e v =>
    simp only [after]
    have := mem_setVal (e := e) (v := v) hr
    rw [if_neg (fun he => hu he.symm)] at this
    exact this
  | clear => exact absurd hu (by simp [Holding])
  | setHashMethod _ => simp only [after]; split <;> exact hr
  | setEqMethod _ => simp only [after]; split <;> exact hr
  | _ => exact hr

theorem held_history (ops : List (Op K V)) : ∀ {s : Index K V} {a : Abs K V} {F : List Int}
    {r : Row K V}, Inv tight s a F → Guarded a s ops → r ∈ a.reserved →
    (∀ o ∈ ops, Holding r.entry o) → r ∈ (ideal a s ops).reserved := by
  induction ops with
  | nil => intro s a F r _ _ hr _; exact hr
  | cons o os ih =>
    intro s a F r h hg hr hu
    obtain ⟨F', hF'⟩ := (step_spec h o hg.1).2.2
    exact ih hF' hg.2 (held_after hr (hu o (by simp))) (fun o ho => hu o (by simp [ho]))

end Index
end Verif

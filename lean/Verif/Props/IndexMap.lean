import Verif.Props.Index
/-! # Properties C32 - C34, C43, C44: removal, reserved entries and values -/
set_option linter.unusedSectionVars false
namespace Verif
open Index IndexSpec
variable {K V : Type} [Inhabited K] [Inhabited V]

section helpers
variable {tight tight' : Prop} {s t : Index K V} {a b : Abs K V} {F G : List Int}

theorem find_congr (ht : Inv tight' t b G) {k : K} (he : a.eq = b.eq)
    (hr : ∀ r, a.eq k r.key = true → (r ∈ a.rows ↔ r ∈ b.rows)) : a.find k = b.find k := by
  cases hf : a.find k with
  | some r =>
    have h1 := find_some hf
    exact (find_of_mem ht ((hr r h1.2).1 h1.1) (by rw [← he]; exact h1.2)).symm
  | none =>
    symm
    rw [find_none]
    intro r hr'
    rw [← he]
    cases hq : a.eq k r.key with
    | false => rfl
    | true =>
      have := find_none.1 hf r ((hr r hq).2 hr')
      simp_all

theorem same_of_find (hs : Inv tight s a F) (ht : Inv tight' t b G) {k : K}
    (hf : a.find k = b.find k) : SameFor k s t := by
  have h1 := (step_spec hs (.containsKey k) trivial).1
  have h2 := (step_spec ht (.containsKey k) trivial).1
  have h3 := (step_spec hs (.lookupEntry k) trivial).1
  have h4 := (step_spec ht (.lookupEntry k) trivial).1
  have h5 := (step_spec hs (.get k) trivial).1
  have h6 := (step_spec ht (.get k) trivial).1
  simp only [Ok] at h1 h2 h3 h4 h5 h6
  unfold SameFor result
  refine ⟨by rw [h1, h2, hf], ?_, ?_⟩
  · cases hc : b.find k with
    | none => simp only [hc] at h4; rw [hf, hc] at h3; rw [h3, h4]
    | some r => simp only [hc] at h4; rw [hf, hc] at h3; rw [h3, h4]
  · cases hc : b.find k with
    | none => simp only [hc] at h6; rw [hf, hc] at h5; rw [h5, h6]
    | some r => simp only [hc] at h6; rw [hf, hc] at h5; rw [h5, h6]

theorem result_contains (h : Inv tight s a F) (k : K) :
    result (.containsKey k) s = .ok (.bool (a.find k).isSome) := (step_spec h (.containsKey k) trivial).1

theorem result_lookup (h : Inv tight s a F) (k : K) :
    result (.lookupEntry k) s = .ok (.int (entryOf a k)) := by
  unfold result
  simp only [step]
  rw [JM.bind_ok (lookupEntry_spec h k)]; rfl

theorem result_size (h : Inv tight s a F) : result .size s = .ok (.int a.rows.length) :=
  (step_spec h .size trivial).1

theorem result_get (h : Inv tight s a F) {k : K} {r : Row K V} (hf : a.find k = some r) :
    result (.get k) s = .ok (.val r.val) := by
  have := (step_spec h (.get k) trivial).1
  simp only [Ok, hf] at this
  exact this

theorem drop_same (hs : Inv tight s a F) {b : Abs K V} (ht : Inv tight' t b G) {e : Int}
    (hb : b.rows = (a.drop e).rows) (hq : b.eq = a.eq) {k' : K}
    (hk : ∀ r ∈ a.rows, a.eq k' r.key = true → r.entry ≠ e) : SameFor k' s t := by
  apply same_of_find hs ht
  apply find_congr ht hq.symm
  intro r hr
  rw [hb, mem_drop]
  exact ⟨fun h => ⟨h, hk r h hr⟩, fun h => h.1⟩
end helpers

/-- C32: `remove(k)` of a present key returns the entry it had; afterwards `k` is absent, there is one
association less, and every key not equal to `k` is as before. -/
theorem C32_remove_present {exact : Prop} {s : Index K V} {a : Abs K V} (h : Reach exact s a) (k : K)
    (e : Int) (hl : result (.lookupEntry k) s = .ok (.int e)) (he : e ≠ -1) :
    ∃ t, step (.remove k) s = .ok (.int e) t ∧
      result (.containsKey k) t = .ok (.bool false) ∧
      (∀ n, result .size s = .ok (.int n) → result .size t = .ok (.int (n - 1))) ∧
      (∀ k', a.eq k k' = false → SameFor k' s t) := by
  obtain ⟨F, hF⟩ := reach_inv h
  rw [result_lookup hF] at hl
  simp at hl
  obtain ⟨r, hr, hf, hre, hq⟩ := entryOf_eq hF hl he
  have hc := hF.coherent (by intro h0; rw [h0] at hr; simp at hr)
  obtain ⟨t, F', g1, g2, _⟩ := removeKey_present hF hf true
  simp only [if_true] at g2
  refine ⟨t, ?_, ?_, ?_, ?_⟩
  · simp only [step]; unfold remove; rw [JM.bind_ok g1, hre]; rfl
  · rw [result_contains g2]
    have : Abs.find { a.drop r.entry with free := r.entry :: a.free } k = none := by
      rw [find_none]
      intro r' hr'
      obtain ⟨h1, h2⟩ := mem_drop.1 hr'
      cases hq' : a.eq k r'.key with
      | false => exact hq'
      | true => exact absurd (by rw [row_unique hF h1 hr hq' hq]) h2
    rw [this]; rfl
  · intro n hn
    rw [result_size hF] at hn
    rw [result_size g2]
    have := length_drop hF (mem_live hr)
    simp at hn
    simp only [Except.ok.injEq, Out.int.injEq]
    rw [← hn]; exact this
  · intro k' hk'
    refine drop_same hF g2 rfl rfl ?_
    intro r' h1 h2 h3
    have := entry_unique hF h1 hr h3
    subst this
    have := hc.trans _ _ _ hq (hc.symm _ _ h2)
    simp_all

/-- C32: `remove(k)` of an absent key returns -1 and changes nothing at all. -/
theorem C32_remove_absent {exact : Prop} {s : Index K V} {a : Abs K V} (h : Reach exact s a) (k : K)
    (hk : result (.containsKey k) s = .ok (.bool false)) :
    step (.remove k) s = .ok (.int (-1)) s := by
  obtain ⟨F, hF⟩ := reach_inv h
  rw [result_contains hF] at hk
  have hf : a.find k = none := by simpa using hk
  simp only [step]; unfold remove; rw [JM.bind_ok (removeKey_absent hF hf true)]; rfl

/- Non-vacuity: one of two colliding keys is removed, then removed again. -/
example : ∃ s, exampleNew 2 3 4 = .ok s ∧
    (runM step s [Op.put 1 11, .put 9 99, .remove 1, .remove 1, .get 9, .containsKey 1]).1 =
    [.ok (.int 0), .ok (.int 1), .ok (.int 0), .ok (.int (-1)), .ok (.val 99), .ok (.bool false)] :=
  ⟨_, rfl, by decide +kernel⟩

/-- C33: `removeAt(e)` of a live entry (one that `forEachEntry` presents) removes exactly that
association: `e` is no longer presented, all other entries are, there is one association less, and
every key not found at `e` is as before. -/
theorem C33_removeAt_live {exact : Prop} {s : Index K V} {a : Abs K V} (h : Reach exact s a) (e : Int)
    (l : List Int) (hl : result .forEachEntry s = .ok (.ints l)) (he : e ∈ l) :
    ∃ t l', step (.removeAt e) s = .ok .unit t ∧
      result .forEachEntry t = .ok (.ints l') ∧ (∀ x, x ∈ l' ↔ x ∈ l ∧ x ≠ e) ∧
      (∀ n, result .size s = .ok (.int n) → result .size t = .ok (.int (n - 1))) ∧
      (∀ k', result (.lookupEntry k') s ≠ .ok (.int e) → SameFor k' s t) ∧
      (∀ k', result (.lookupEntry k') s = .ok (.int e) →
        result (.containsKey k') t = .ok (.bool false)) := by
  obtain ⟨F, hF⟩ := reach_inv h
  obtain ⟨l0, q1, q2⟩ := (step_spec hF .forEachEntry trivial).1
  rw [show result .forEachEntry s = _ from q1] at hl
  simp at hl
  subst hl
  have hm : e ∈ a.live := q2.mem_iff.1 he
  obtain ⟨t, g1, g2, _⟩ := removeAt_live hF hm
  obtain ⟨l', p1, p2⟩ := (step_spec g2 .forEachEntry trivial).1
  refine ⟨t, l', by simp only [step]; rw [JM.bind_ok g1]; rfl, p1, ?_, ?_, ?_, ?_⟩
  · intro x
    rw [p2.mem_iff, q2.mem_iff]
    show x ∈ (a.drop e).live ↔ _
    rw [live_drop]; simp
  · intro n hn
    rw [result_size hF] at hn
    rw [result_size g2]
    have := length_drop hF hm
    simp at hn
    simp only [Except.ok.injEq, Out.int.injEq]
    rw [← hn]; exact this
  · intro k' hk'
    refine drop_same hF g2 rfl rfl ?_
    intro r h1 h2 h3
    rw [result_lookup hF, entryOf_some hF (find_of_mem hF h1 h2)] at hk'
    exact hk' (by rw [h3])
  · intro k' hk'
    rw [result_lookup hF] at hk'
    simp at hk'
    have hr := (hF.mem_range e).1 (.inl hm)
    obtain ⟨r, hr, _, h3, h4⟩ := entryOf_eq hF hk' (by omega)
    rw [result_contains g2]
    have : Abs.find { a.drop e with free := e :: a.free } k' = none := by
      rw [find_none]
      intro r' hr'
      obtain ⟨h1, h2⟩ := mem_drop.1 hr'
      cases hq' : a.eq k' r'.key with
      | false => exact hq'
      | true => exact absurd (by rw [row_unique hF h1 hr hq' h4, h3]) h2
    rw [this]; rfl

/-- C33: `removeAt(e)` for an entry below `capacity()` that is not live changes nothing. -/
theorem C33_removeAt_not_live {exact : Prop} {s : Index K V} {a : Abs K V} (h : Reach exact s a)
    (e : Int) (l : List Int) (hl : result .forEachEntry s = .ok (.ints l)) (he : e ∉ l) (h0 : 0 ≤ e)
    (c : Int) (hc : result .capacity s = .ok (.int c)) (h1 : e < c) :
    step (.removeAt e) s = .ok .unit s := by
  obtain ⟨F, hF⟩ := reach_inv h
  obtain ⟨l0, q1, q2⟩ := (step_spec hF .forEachEntry trivial).1
  rw [show result .forEachEntry s = _ from q1] at hl
  simp at hl
  subst hl
  have hcap : c = s.capacity := by
    have : result .capacity s = .ok (.int s.capacity) := rfl
    rw [this] at hc; simpa using hc.symm
  have := hF.nlen
  simp only [step]
  rw [JM.bind_ok (removeAt_inside hF (fun hh => he (q2.mem_iff.2 hh)) h0 (by omega))]; rfl

/-- C33: outside the bounds nothing changes either (the call may throw). -/
theorem C33_removeAt_outside {exact : Prop} {s : Index K V} {a : Abs K V} (h : Reach exact s a)
    (e : Int) (l : List Int) (hl : result .forEachEntry s = .ok (.ints l)) (he : e ∉ l) :
    (step (.removeAt e) s).state = s := by
  obtain ⟨F, hF⟩ := reach_inv h
  obtain ⟨l0, q1, q2⟩ := (step_spec hF .forEachEntry trivial).1
  rw [show result .forEachEntry s = _ from q1] at hl
  simp at hl
  subst hl
  simp only [step]
  rcases removeAt_other hF (fun hh => he (q2.mem_iff.2 hh)) with h1 | h1
  · rw [JM.bind_ok h1]; rfl
  · rw [JM.bind_err h1]; rfl

/- Non-vacuity: removing a live entry, a free one, a never used one and one out of bounds. -/
example : ∃ s, exampleNew 2 3 4 = .ok s ∧
    (runM step s [Op.put 1 11, .put 9 99, .removeAt 0, .removeAt 0, .removeAt 3, .removeAt 7,
      .forEachEntry, .get 9]).1 =
    [.ok (.int 0), .ok (.int 1), .ok .unit, .ok .unit, .ok .unit, .error .indexOutOfBounds,
      .ok (.ints [1]), .ok (.val 99)] :=
  ⟨_, rfl, by decide +kernel⟩

/-! ## C34 reserved entries -/

/-- C34: reserving the entry `e` at which a key `k` with value `v` is found, then any history that
does not free `e`, clear, or write its value: the key is absent right after the call, `getKeyAt(e)`
and `getValueAt(e)` still give the old key and value, and no key - old or new - has entry `e`. -/
theorem C34_reserve {exact : Prop} {s : Index K V} {a : Abs K V} (h : Reach exact s a) (k : K) (v : V)
    (e : Int) (hl : result (.lookupEntry k) s = .ok (.int e)) (he : e ≠ -1)
    (hv : result (.get k) s = .ok (.val v)) :
    ∃ t, step (.removeAtAndReserve e) s = .ok .unit t ∧
      result (.containsKey k) t = .ok (.bool false) ∧
      (∀ n, result .size s = .ok (.int n) → result .size t = .ok (.int (n - 1))) ∧
      (∀ k', a.eq k k' = false → SameFor k' s t) ∧
      ∃ b, b = after (.removeAtAndReserve e) (.ok .unit) a ∧ Reach exact t b ∧
        ∀ ops, Guarded b t ops → (∀ o ∈ ops, Holding e o) →
        (∃ k0, result (.getKeyAt e) (final t ops) = .ok (.key k0) ∧ a.eq k k0 = true) ∧
        result (.getValueAt e) (final t ops) = .ok (.val v) ∧
        (∀ k', result (.lookupEntry k') (final t ops) ≠ .ok (.int e)) ∧
        (∀ k', Guard (.add k' : Op K V) (ideal b t ops) →
          result (.add k') (final t ops) ≠ .ok (.int e) ∧
          ∀ v', result (.put k' v') (final t ops) ≠ .ok (.int e)) := by
  obtain ⟨F, hF⟩ := reach_inv h
  rw [result_lookup hF] at hl
  simp at hl
  obtain ⟨r, hr, hf, hre, hq⟩ := entryOf_eq hF hl he
  have hc := hF.coherent (by intro h0; rw [h0] at hr; simp at hr)
  rw [result_get hF hf] at hv
  simp at hv
  have hg : Guard (.removeAtAndReserve e : Op K V) a := ⟨r, hr, hre, hc.trans _ _ _ (hc.symm _ _ hq) hq⟩
  obtain ⟨t, F', g1, g2, _⟩ := reserve_ok hF hg
  have hst : step (.removeAtAndReserve e) s = .ok .unit t := by
    simp only [step]; rw [JM.bind_ok g1]; rfl
  have hRt := h.call _ hg
  rw [hst] at hRt
  simp only [Res.state_ok] at hRt
  refine ⟨t, hst, ?_, ?_, ?_, _, rfl, hRt, ?_⟩
  · rw [result_contains g2]
    have : Abs.find { a.drop e with
        reserved := (a.rows.filter fun r => r.entry = e) ++ a.reserved } k = none := by
      rw [find_none]
      intro r' hr'
      obtain ⟨h1, h2⟩ := mem_drop.1 hr'
      cases hq' : a.eq k r'.key with
      | false => exact hq'
      | true => exact absurd (by rw [row_unique hF h1 hr hq' hq, hre]) h2
    rw [this]; rfl
  · intro n hn
    rw [result_size hF] at hn
    rw [result_size g2]
    have := length_drop hF (mem_live hr)
    simp at hn
    simp only [Except.ok.injEq, Out.int.injEq]
    rw [← hn, ← hre]; exact this
  · intro k' hk'
    refine drop_same hF g2 rfl rfl ?_
    intro r' h1 h2 h3
    have := entry_unique hF h1 hr (by rw [h3, hre])
    subst this
    have := hc.trans _ _ _ hq (hc.symm _ _ h2)
    simp_all
  · intro ops hops hu
    have hmem : r ∈ (after (.removeAtAndReserve e) (Res.ok (Out.unit : Out K V) t).out a).reserved := by
      simp only [after]
      exact List.mem_append_left _ (List.mem_filter.2 ⟨hr, by simpa using hre⟩)
    have hkeep := held_history ops g2 hops hmem (by rw [hre]; exact hu)
    obtain ⟨G, hG⟩ := reach_inv (guarded_reach ops hRt hops)
    have hheld : e ∈ (ideal (after (.removeAtAndReserve e) (Res.ok (Out.unit : Out K V) t).out a) t
        ops).held := List.mem_map.2 ⟨r, hkeep, hre⟩
    have hnl : e ∉ (ideal (after (.removeAtAndReserve e) (Res.ok (Out.unit : Out K V) t).out a) t
        ops).live := fun hh => hG.live_held hh hheld
    refine ⟨⟨r.key, (step_spec hG (.getKeyAt e) trivial).1 r (.inr hkeep) hre, hq⟩, ?_, ?_, ?_⟩
    · rw [← hv]
      exact (step_spec hG (.getValueAt e) trivial).1 r (.inr hkeep) hre
    · intro k' hk'
      rw [result_lookup hG] at hk'
      simp at hk'
      obtain ⟨r', hr', _, h3, _⟩ := entryOf_eq hG hk' he
      exact hnl (List.mem_map.2 ⟨r', hr', h3⟩)
    · intro k' hgk
      have key : ∀ o : Op K V, (o = .add k' ∨ ∃ v', o = .put k' v') →
          result o (final t ops) ≠ .ok (.int e) := by
        intro o ho hres
        have hgo : Guard o (ideal (after (.removeAtAndReserve e)
            (Res.ok (Out.unit : Out K V) t).out a) t ops) := by
          rcases ho with rfl | ⟨_, rfl⟩ <;> exact hgk
        have hok := (step_spec hG o hgo).1
        unfold result at hres
        rw [hres] at hok
        cases hfk : (ideal (after (.removeAtAndReserve e)
            (Res.ok (Out.unit : Out K V) t).out a) t ops).find k' with
        | some r' =>
          have hm := (find_some hfk).1
          have : e = r'.entry := by
            rcases ho with rfl | ⟨_, rfl⟩ <;> (simp only [Ok, hfk] at hok; simpa using hok)
          exact hnl (List.mem_map.2 ⟨r', hm, this.symm⟩)
        | none =>
          have : ∃ e', Except.ok (Out.int e : Out K V) = Except.ok (ε := Err) (.int e') ∧ Fresh
              (ideal (after (.removeAtAndReserve e) (Res.ok (Out.unit : Out K V) t).out a) t ops) e' := by
            rcases ho with rfl | ⟨_, rfl⟩ <;> (simp only [Ok, hfk] at hok; exact hok)
          obtain ⟨e', h1, h2⟩ := this
          simp at h1
          subst h1
          exact h2.2.2 hheld
      exact ⟨key _ (.inl rfl), fun v' => key _ (.inr ⟨v', rfl⟩)⟩

/-- C34: once `freeReservedEntry(e)` was called, the next new key gets `e`
(`C31_reuse` for this call). -/
theorem C34_freed_is_next {exact : Prop} {s : Index K V} {a : Abs K V} (h : Reach exact s a) (e : Int)
    (hheld : e ∈ a.held) (k : K)
    (hg : Guard (.add k : Op K V) (after (.freeReservedEntry e) (.ok .unit) a))
    (hk : result (.containsKey k) (step (.freeReservedEntry e) s).state = .ok (.bool false)) :
    result (.freeReservedEntry e) s = .ok .unit ∧
    result (.add k) (step (.freeReservedEntry e) s).state = .ok (.int e) := by
  have hok : result (.freeReservedEntry e) s = .ok .unit := by
    obtain ⟨F, hF⟩ := reach_inv h
    exact (step_spec hF (.freeReservedEntry e) hheld).1
  refine ⟨hok, ?_⟩
  have hk' : (containsKey k (step (.freeReservedEntry e) s).state).out = .ok false := by
    obtain ⟨F, hF⟩ := reach_inv (h.call (.freeReservedEntry e) hheld)
    rw [result_contains hF] at hk
    rw [containsKey_out hF]
    simpa using hk
  have hg' : Guard (.add k : Op K V)
      (after (.freeReservedEntry e) (step (.freeReservedEntry e) s).out a) := hg
  have h1 := (C31_reuse h (.freeReservedEntry e) e hheld (.inr (.inr rfl)) k hg' hk').1
  unfold result
  generalize (step (.freeReservedEntry e) s).state = t at h1
  simp only [step]
  cases hc : add k t with
  | ok x u => rw [hc] at h1; simp at h1; rw [JM.bind_ok hc, h1]; rfl
  | err x u => rw [hc] at h1; simp at h1

/- Non-vacuity: entry 0 of key 1 is reserved, survives growth, and is handed out after it was freed. -/
example : ∃ s, exampleNew 2 1 1 = .ok s ∧
    (runM step s [Op.put 1 11, .put 9 99, .removeAtAndReserve 0, .containsKey 1, .put 17 1, .put 25 2,
      .put 1 3, .getKeyAt 0, .getValueAt 0, .freeReservedEntry 0, .add 33]).1 =
    [.ok (.int 0), .ok (.int 1), .ok .unit, .ok (.bool false), .ok (.int 2), .ok (.int 3),
      .ok (.int 4), .ok (.key 1), .ok (.val 11), .ok .unit, .ok (.int 0)] ∧
    ∀ o ∈ [Op.put 17 1, .put 25 2, .put 1 3], Holding (K := Int) (V := Int) 0 o :=
  ⟨_, rfl, by decide +kernel, by simp [Holding]⟩

/-- A key type whose only key is not equal to itself (like NaN). -/
def nanNew : Except Err (Index Int Int) := Index.new (fun _ => 0) (fun _ _ => false) 2 3 4

/-- C34 needs a key that is equal to itself: with a NaN-like key, `removeAtAndReserve(e)` of a live
entry does nothing, the key stays and nothing is reserved. -/
theorem C34_nan_refuted : Coherent (fun _ : Int => 0#32) (fun _ _ => false) ∧
    ∃ s, nanNew = .ok s ∧
    (runM step s [Op.add 7, .removeAtAndReserve 0, .size, .forEachEntry]).1 =
    [.ok (.int 0), .ok .unit, .ok (.int 1), .ok (.ints [0])] :=
  ⟨⟨by simp, by simp, by simp⟩, _, rfl, by decide +kernel⟩

/-! ## C43, C44 values -/

/-- C43: after `put(k, v)` and every further history that neither removes `k` nor sets its value,
`get(k)` and `getOrDefault(k, d)` return `v`. -/
theorem C43_put_get {exact : Prop} {s : Index K V} {a : Abs K V} (h : Reach exact s a) (k : K) (v : V)
    (hk : a.eq k k = true) (e : Int) (hg0 : Guard (.put k v : Op K V) a)
    (hput : result (.put k v) s = .ok (.int e)) (ops : List (Op K V))
    (hg : Guarded (after (.put k v) (result (.put k v) s) a) (step (.put k v) s).state ops)
    (hu : ∀ o ∈ ops, Untouched a.eq k e o ∧ Unwritten a.eq k e o) :
    let t := final (step (.put k v) s).state ops
    result (.get k) t = .ok (.val v) ∧ ∀ d, result (.getOrDefault k d) t = .ok (.val v) := by
  intro t
  obtain ⟨F, hF⟩ := reach_inv h
  obtain ⟨h1, _, F', hF'⟩ := step_spec hF (.put k v) hg0
  have hrow : ∃ r ∈ (after (.put k v) (step (.put k v) s).out a).rows, r.entry = e ∧ r.val = v ∧
      a.eq k r.key = true ∧ (after (.put k v) (step (.put k v) s).out a).eq = a.eq := by
    simp only [Ok] at h1
    unfold result at hput
    cases hf : a.find k with
    | some r =>
      simp only [hf, hput] at h1
      simp only [after, hf]
      have he : r.entry = e := by simpa using h1.symm
      have hm := mem_setVal (e := r.entry) (v := v) (find_some hf).1
      rw [if_pos rfl] at hm
      exact ⟨_, hm, he, rfl, (find_some hf).2, trivial⟩
    | none =>
      simp only [after, hf, hput]
      exact ⟨⟨e, k, v⟩, by simp [Abs.insert], rfl, rfl, hk, rfl⟩
  obtain ⟨r, g1, g2, gv, g3, g4⟩ := hrow
  obtain ⟨r', q1, q2, q3, q4, q5⟩ := kept_history ops (k := k) hF' hg g1 (by rw [g4]; exact g3)
    (by rw [g4, g2]; exact fun o ho => (hu o ho).1)
  have qv := q4 (by rw [g4, g2]; exact fun o ho => (hu o ho).2)
  obtain ⟨G, hG⟩ := reach_inv (guarded_reach ops (h.call (.put k v) hg0) hg)
  have hq : (ideal (after (.put k v) (step (.put k v) s).out a) (step (.put k v) s).state ops).eq k
      r'.key = true := by rw [q5, g4, q3]; exact g3
  have hf := find_of_mem hG q1 hq
  refine ⟨?_, fun d => ?_⟩
  · have := result_get hG hf
    rw [qv, gv] at this; exact this
  · have := (step_spec hG (.getOrDefault k d) trivial).1
    simp only [Ok, hf, qv, gv] at this
    exact this

/-- C43: the same after `putValueAt(e, v)` on the entry of `k`. -/
theorem C43_putValueAt_get {exact : Prop} {s : Index K V} {a : Abs K V} (h : Reach exact s a) (k : K)
    (v : V) (e : Int) (hl : result (.lookupEntry k) s = .ok (.int e)) (he : e ≠ -1)
    (ops : List (Op K V))
    (hg : Guarded (after (.putValueAt e v) (.ok .unit) a) (step (.putValueAt e v) s).state ops)
    (hu : ∀ o ∈ ops, Untouched a.eq k e o ∧ Unwritten a.eq k e o) :
    result (.putValueAt e v) s = .ok .unit ∧
    let t := final (step (.putValueAt e v) s).state ops
    result (.get k) t = .ok (.val v) ∧ ∀ d, result (.getOrDefault k d) t = .ok (.val v) := by
  obtain ⟨F, hF⟩ := reach_inv h
  rw [result_lookup hF] at hl
  simp at hl
  obtain ⟨r, hr, hf, hre, hq⟩ := entryOf_eq hF hl he
  obtain ⟨h1, _, F', hF'⟩ := step_spec hF (.putValueAt e v) trivial
  have h2 := h1 (.inl (hre ▸ mem_live hr))
  refine ⟨h2, ?_⟩
  rw [h2] at hF'
  have hm := mem_setVal (e := e) (v := v) hr
  rw [if_pos hre] at hm
  have hm' : ({ r with val := v } : Row K V) ∈
      (after (.putValueAt e v) (.ok (Out.unit : Out K V)) a).rows := hm
  obtain ⟨r', q1, q2, q3, q4, q5⟩ := kept_history ops (k := k) hF' hg hm' (by exact hq)
    (by rw [show ({ r with val := v } : Row K V).entry = e from hre]; exact fun o ho => (hu o ho).1)
  have qv := q4 (by
    rw [show ({ r with val := v } : Row K V).entry = e from hre]; exact fun o ho => (hu o ho).2)
  have hR := h.call (.putValueAt e v) trivial
  rw [h2] at hR
  obtain ⟨G, hG⟩ := reach_inv (guarded_reach ops hR hg)
  have hq' : (ideal (after (.putValueAt e v) (.ok (Out.unit : Out K V)) a)
      (step (.putValueAt e v) s).state ops).eq k r'.key = true := by rw [q5, q3]; exact hq
  have hf := find_of_mem hG q1 hq'
  refine ⟨?_, fun d => ?_⟩
  · have := result_get hG hf
    rw [qv] at this; exact this
  · have := (step_spec hG (.getOrDefault k d) trivial).1
    simp only [Ok, hf, qv] at this
    exact this

/-- C43: `get(k)` throws KeyNotFoundException exactly when `k` is absent and `getOrDefault(k, d)`
then returns `d`; for a present key both return its value. -/
theorem C43_absent {exact : Prop} {s : Index K V} {a : Abs K V} (h : Reach exact s a) (k : K) (d : V) :
    (result (.containsKey k) s = .ok (.bool false) ∧ result (.get k) s = .error .keyNotFound ∧
      result (.getOrDefault k d) s = .ok (.val d)) ∨
    ∃ v, result (.containsKey k) s = .ok (.bool true) ∧ result (.get k) s = .ok (.val v) ∧
      result (.getOrDefault k d) s = .ok (.val v) := by
  obtain ⟨F, hF⟩ := reach_inv h
  have h1 := (step_spec hF (.containsKey k) trivial).1
  have h2 := (step_spec hF (.get k) trivial).1
  have h3 := (step_spec hF (.getOrDefault k d) trivial).1
  cases hf : a.find k with
  | none =>
    simp only [Ok, hf] at h1 h2 h3
    exact .inl ⟨h1, h2, h3⟩
  | some r =>
    simp only [Ok, hf] at h1 h2 h3
    exact .inr ⟨r.val, h1, h2, h3⟩

/- Non-vacuity: a value survives growth and other changes. -/
example : ∃ s, exampleNew 2 1 1 = .ok s ∧
    (runM step s [Op.put 1 11, .put 9 99, .put 17 1, .remove 9, .put 25 2, .get 1, .put 1 12, .get 1,
      .putValueAt 0 13, .getOrDefault 1 0, .get 9, .getOrDefault 9 5]).1 =
    [.ok (.int 0), .ok (.int 1), .ok (.int 2), .ok (.int 1), .ok (.int 1), .ok (.val 11),
      .ok (.int 0), .ok (.val 12), .ok .unit, .ok (.val 13), .error .keyNotFound, .ok (.val 5)] ∧
    ∀ o ∈ [Op.put 9 99, .put 17 1, .remove 9, .put 25 2],
      Untouched (K := Int) (V := Int) (fun a b => a == b) 1 0 o ∧
      Unwritten (K := Int) (V := Int) (fun a b => a == b) 1 0 o :=
  ⟨_, rfl, by decide +kernel, by simp [Untouched, Unwritten]⟩

/-- C44: `add(k)` of an absent key gives it the default value, whatever entry it gets, and leaves all
other keys alone. -/
theorem C44_add_absent {exact : Prop} {s : Index K V} {a : Abs K V} (h : Reach exact s a) (k : K)
    (hk : a.eq k k = true) (hg : Guard (.add k : Op K V) a)
    (habs : result (.containsKey k) s = .ok (.bool false)) :
    ∃ e t, step (.add k) s = .ok (.int e) t ∧ result (.get k) t = .ok (.val default) ∧
      result (.getValueAt e) t = .ok (.val default) ∧
      ∀ k', a.eq k k' = false → SameFor k' s t := by
  obtain ⟨F, hF⟩ := reach_inv h
  rw [result_contains hF] at habs
  have hf : a.find k = none := by simpa using habs
  obtain ⟨e, t, F', h1, h2, _⟩ := add_absent hF hf hg.1 hg.2
  have hm : (⟨e, k, default⟩ : Row K V) ∈ (a.insert e k default).rows := by simp [Abs.insert]
  refine ⟨e, t, by simp only [step]; rw [JM.bind_ok h1]; rfl, ?_, ?_, ?_⟩
  · exact result_get h2 (find_of_mem h2 hm hk)
  · exact (step_spec h2 (.getValueAt e) trivial).1 _ (.inl hm) rfl
  · intro k' hk'
    apply same_of_find hF h2
    apply find_congr (a := a) h2 rfl
    intro r hr
    simp only [Abs.insert, List.mem_cons]
    constructor
    · exact .inr
    · rintro (rfl | h3)
      · have := hg.1.symm _ _ hr
        simp_all
      · exact h3

/-- C44: `add(k)` of a present key changes nothing at all and returns its entry. -/
theorem C44_add_present {exact : Prop} {s : Index K V} {a : Abs K V} (h : Reach exact s a) (k : K)
    (e : Int) (hl : result (.lookupEntry k) s = .ok (.int e)) (he : e ≠ -1) :
    step (.add k) s = .ok (.int e) s := by
  obtain ⟨F, hF⟩ := reach_inv h
  rw [result_lookup hF] at hl
  simp at hl
  obtain ⟨r, hr, hf, hre, hq⟩ := entryOf_eq hF hl he
  simp only [step]
  rw [JM.bind_ok (add_present hF hf), hre]; rfl

/- Non-vacuity: entry 0 had value 11 before; the new key does not inherit it. -/
example : ∃ s, exampleNew 2 1 1 = .ok s ∧
    (runM step s [Op.put 1 11, .remove 1, .add 2, .get 2, .put 2 22, .add 2, .get 2]).1 =
    [.ok (.int 0), .ok (.int 0), .ok (.int 0), .ok (.val 0), .ok (.int 0), .ok (.int 0), .ok (.val 22)] :=
  ⟨_, rfl, by decide +kernel⟩

end Verif

import Verif.Proofs.IndexEff2
set_option linter.unusedSectionVars false
/-! The questions asked, part 3: `add`, and one call. -/
namespace Verif.IndexEffProof
open Verif.Index Verif.IndexEff Verif.IndexEffSpec Verif.IndexSpec
variable {σ K V α β : Type} [Inhabited K] [Inhabited V]
variable {tight : Prop} {s : Index K V} {a : Abs K V} {F : List Int}
variable {eff : Effects σ K}

theorem contains_out (h : Inv tight s a F) (k : K) :
    (Index.step (.containsKey k) s).out = .ok (.bool (a.find k).isSome) := (step_spec h (.containsKey k) trivial).1

theorem alloc_same {s1 : Index K V} {e : Int} (hal : allocateNewEntry s = .ok e s1) :
    s1 = { s with freeList := s1.freeList, nextUnusedEntry := s1.nextUnusedEntry } := by
  unfold allocateNewEntry at hal
  rw [JM.bind_ok (JM.get_apply _)] at hal
  split at hal
  · obtain ⟨x, t, h1, hal⟩ := jm_bind_inv hal
    have : t = s := by
      unfold rd at h1; simp only at h1
      split at h1 <;> simp at h1
      exact h1.2.symm
    subst this
    simp only [JM.bind_apply, JM.modify_apply, JM.pure_apply, Res.ok.injEq] at hal
    rw [← hal.2]
  · simp only [JM.bind_apply, JM.modify_apply, JM.pure_apply, Res.ok.injEq] at hal
    rw [← hal.2]

theorem enter_entry {k : K} {hd e e' : Int} {t t' : Index K V} (h : enter k hd e t = .ok e' t') : e' = e := by
  unfold enter at h
  obtain ⟨_, _, _, h⟩ := jm_bind_inv h
  obtain ⟨_, _, _, h⟩ := jm_bind_inv h
  obtain ⟨_, _, _, h⟩ := jm_bind_inv h
  obtain ⟨_, _, _, h⟩ := jm_bind_inv h
  obtain ⟨_, _, _, h⟩ := jm_bind_inv h
  simp only [JM.pure_apply, Res.ok.injEq] at h
  exact h.1.symm

/-- What `add` asks while the collection grows. -/
def growing (s : Index K V) (k : K) (e : Int) : List (Ask K) :=
  if s.capThreshold ≤ e then (keysOf s).map .hash ++ [.hash k] else []

theorem baseAdd_first (hE : Honest eff) (h : Inv tight s a F) (k : K)
    (hb : a.rows.length + a.reserved.length + 29 < 2 ^ 29) (hc : Coherent a.hash a.eq) :
    ∃ e t, Index.baseAdd k s = .ok e t ∧
      First eff s.hashFunc s.equalFunc (IndexEff.baseAdd eff k) (Index.baseAdd k s) s (search s k)
        (if a.find k = none then growing s k e else []) := by
  cases hf : a.find k with
  | some rw' =>
    obtain ⟨h1, h2, h3, h4⟩ := entryOf_nonneg h hf
    refine ⟨_, _, baseAdd_present h hf, ?_⟩
    rw [if_neg (by simp), ← List.append_nil (search s k)]
    refine search_first hE h k ?_
    rw [h2, if_pos h3]
    exact done (m := pure rw'.entry) (baseAdd_present h hf).symm
  | none =>
    obtain ⟨e, t, F', hba, -⟩ := baseAdd_absent h hf hc hb
    have hent : entryOf a k = -1 := by unfold entryOf; rw [hf]
    obtain ⟨e1, s1, s2, F2, hal, hre, hR, hmem, hex, hh1, hh2, hsz, hmd⟩ := alloc_spec h hb
    have hs1 := alloc_same hal
    have hth : s1.capThreshold = s.capThreshold := by rw [hs1]
    obtain ⟨l, t', hp, hfe⟩ := chain_find h k
    have hch : Index.computeHead k s = .ok (headOf s.hashFunc s.heads.len k) s := rfl
    have hstart : Index.baseAdd k s = (do
        let head ← if e1 ≥ s1.capThreshold then do
            Index.rehash
            Index.computeHead k
          else pure (headOf s.hashFunc s.heads.len k)
        enter k head e1 : JM (Index K V) Int) s1 := by
      unfold Index.baseAdd
      rw [JM.bind_ok hch, JM.bind_ok (rd_ok _ (h.hd_range k)), JM.bind_ok (JM.get_apply _),
        JM.bind_ok (lookupLoop_spec k s (klen_eq h) _ _ l t' hp (by have := hp.length_le; omega)), hfe,
        hent, if_neg (by decide), JM.bind_ok hal, JM.bind_ok (JM.get_apply _)]
      rfl
    refine ⟨e, t, hba, ?_⟩
    rw [if_pos rfl]
    rw [← List.append_nil (search s k)]
    refine search_first hE h k ?_
    rw [hent, if_neg (by decide)]
    refine .now (.step hal (.step (JM.get_apply _) ?_))
    rcases hre with ⟨g1, rfl⟩ | ⟨g1, g2⟩
    · rw [if_neg (by omega)] at hstart ⊢
      have hres : Index.baseAdd k s = enter k (headOf s.hashFunc s.heads.len k) e1 s2 := hstart
      have : e = e1 := enter_entry (hres.symm.trans hba)
      unfold growing
      rw [if_neg (by omega)]
      exact .done hres.symm
    · rw [if_pos g1] at hstart ⊢
      have hc2 : Index.computeHead k s2 = .ok (headOf s2.hashFunc s2.heads.len k) s2 := rfl
      have hres : Index.baseAdd k s = enter k (headOf s2.hashFunc s2.heads.len k) e1 s2 := by
        rw [hstart, JM.bind_ok g2, JM.bind_ok hc2]
      have he : e = e1 := enter_entry (hres.symm.trans hba)
      unfold growing
      rw [if_pos (by omega), keysOf_eq h]
      obtain ⟨c, hcap, hc29⟩ := h.cap
      have hsh : s2.hashFunc = s.hashFunc := by rw [hR.hash, h.hash]
      have ho : orderFrom s1 (min (s1.maxHead + 1) s1.heads.len).toNat 0 = order s := by
        have e1 : ∀ (n : Nat) (i : Int), orderFrom s1 n i = orderFrom s n i := by
          intro n
          induction n with
          | zero => intro i; rfl
          | succ n ih => intro i; rw [orderFrom, orderFrom, ih, hs1]
        rw [e1]
        have hm := h.maxHead
        have hmm : s1.maxHead = s.maxHead := by rw [hs1]
        rw [hmm, hh1]
        refine order_short h (by omega) ?_
        intro x hx
        have := hm.2 x hx
        have := (h.hd_range (s.keys.get x)).2
        have h3 : hdAt s x < s.heads.len := this
        omega
      have hk1 : s1.keys = s.keys := by rw [hs1]
      rw [← ho, ← hk1]
      refine rehash_asks hE (k := c) (by rw [hs1]; exact hcap) hc29 (by rw [hs1]; exact h.lf) (by rw [hs1]; exact h.nlen)
        (by rw [hs1]; exact h.klen) hh2 ?_ (by rw [hs1]; exact h.maxHead.1) g2 ?_
      · intro i i0 i1
        rw [hs1]
        rw [hs1] at i1
        obtain ⟨t, hp, -⟩ := chain_at h i0 i1
        exact ⟨t, hp⟩
      · intro hsf
        refine .head hE hsf k ?_
        rw [← hsf]
        exact .done hres.symm

theorem add_first (hE : Honest eff) (h : Inv tight s a F) (k : K)
    (hb : a.rows.length + a.reserved.length + 29 < 2 ^ 29) (hc : Coherent a.hash a.eq) :
    ∃ e t, Index.baseAdd k s = .ok e t ∧
      First eff s.hashFunc s.equalFunc (IndexEff.add eff k) (Index.add k s) s (search s k)
        (if a.find k = none then growing s k e else []) := by
  obtain ⟨e, t, h1, h2⟩ := baseAdd_first hE h k hb hc
  refine ⟨e, t, h1, ?_⟩
  refine .read (JM.get_apply _) ?_
  refine First.bind (g := fun entry => (do
      let s' ← get
      JM.when (s.size ≠ s'.size) do wrValues entry default
      pure entry)) h2 (fun x => ?_) ?_
  · rw [lift_bind]
    congr 1
    funext s'
    rw [lift_bind]
    rfl
  · unfold Index.add
    rw [JM.bind_ok (JM.get_apply _)]

theorem add_entry {k : K} {e e' : Int} {t t' : Index K V} (h : Index.baseAdd k s = .ok e t)
    (h' : Index.add k s = .ok e' t') : e' = e := by
  unfold Index.add at h'
  rw [JM.bind_ok (JM.get_apply _), JM.bind_ok h, JM.bind_ok (JM.get_apply _)] at h'
  obtain ⟨_, _, _, h'⟩ := jm_bind_inv h'
  simp only [JM.pure_apply, Res.ok.injEq] at h'
  exact h'.1.symm

theorem put_entry {k : K} {v : V} {e e' : Int} {t t' : Index K V} (h : Index.baseAdd k s = .ok e t)
    (h' : Index.put k v s = .ok e' t') : e' = e := by
  unfold Index.put at h'
  obtain ⟨x, u, h1, h'⟩ := jm_bind_inv h'
  obtain ⟨_, _, _, h'⟩ := jm_bind_inv h'
  simp only [JM.pure_apply, Res.ok.injEq] at h'
  rw [← h'.1]
  exact add_entry h h1

theorem int_inv {m : JM (Index K V) Int} {e : Int} (h : ((m >>= fun x => pure (Out.int x)) s).out = .ok (.int e : Out K V)) :
    ∃ t, m s = .ok e t := by
  rw [JM.bind_apply] at h
  cases hm : m s with
  | ok x t =>
    rw [hm] at h
    simp only [JM.pure_apply, Res.out_ok, Except.ok.injEq, Out.int.injEq] at h
    exact ⟨t, by rw [h]⟩
  | err x t => rw [hm] at h; simp at h

open Classical in
theorem grows_eq (h : Inv tight s a F) (k : K) {m : JM (Index K V) Int} {e : Int}
    (hm : ∀ e' t, m s = .ok e' t → e' = e)
    (hok : a.find k = none → ∃ e', ((m >>= fun x => pure (Out.int x)) s).out = .ok (.int e' : Out K V)) :
    (if Grows s k ((m >>= fun x => pure (Out.int x)) s).out then (keysOf s).map Ask.hash ++ [.hash k] else []) =
      if a.find k = none then growing s k e else [] := by
  unfold Grows growing
  rw [contains_out h]
  cases hf : a.find k with
  | some r => rw [if_neg (by simp), if_neg (by simp)]
  | none =>
    obtain ⟨e', he'⟩ := hok hf
    obtain ⟨t, ht⟩ := int_inv he'
    have := hm e' t ht
    subst this
    rw [he', if_pos rfl]
    congr 1
    simp

theorem ret {m' : JM (IndexObs σ K V) α} {m : JM (Index K V) α} {h : K → BitVec 32} {q : K → K → Bool}
    {Q Q' : List (Ask K)} (g : α → β) (hm : First eff h q m' (m s) s Q Q') :
    First eff h q (m' >>= fun x => pure (g x)) ((m >>= fun x => pure (g x)) s) s Q Q' :=
  hm.bind (g := fun x => pure (g x)) (fun _ => rfl) rfl

theorem step_first (hE : Honest eff) (h : Inv tight s a F) (o : Op K V) (hg : Guard o a) :
    First eff s.hashFunc s.equalFunc (IndexEff.step eff o) (Index.step o s) s (asked s o) (askedGrowing s o) := by
  have free : ∀ m : JM (Index K V) (Out K V), First eff s.hashFunc s.equalFunc (lift m) (m s) s [] [] := fun m => done rfl
  have nil : ∀ k, search s k = search s k ++ [] := fun k => (List.append_nil _).symm
  cases o with
  | add k =>
    obtain ⟨e, t, h1, h2⟩ := add_first hE h k hg.2 hg.1
    have hq : askedGrowing s (.add k) = if a.find k = none then growing s k e else [] := by
      refine grows_eq h k (m := Index.add k) (fun _ _ => add_entry h1) fun hf => ?_
      have := (step_spec h (.add k) hg).1
      simp only [Ok, hf] at this
      obtain ⟨e', he', -⟩ := this
      exact ⟨e', he'⟩
    rw [hq]
    exact ret (m := Index.add k) _ h2
  | put k v =>
    obtain ⟨e, t, h1, h2⟩ := add_first hE h k hg.2 hg.1
    have hq : askedGrowing s (.put k v) = if a.find k = none then growing s k e else [] := by
      refine grows_eq h k (m := Index.put k v) (fun _ _ => put_entry h1) fun hf => ?_
      have := (step_spec h (.put k v) hg).1
      simp only [Ok, hf] at this
      obtain ⟨e', he', -⟩ := this
      exact ⟨e', he'⟩
    rw [hq]
    refine ret (m := Index.put k v) _ ?_
    refine h2.bind (g := fun entry => (do wrValues entry v; pure entry)) (fun x => ?_) ?_
    · rw [lift_bind]; rfl
    · rfl
  | lookupEntry k =>
    refine ret (m := Index.lookupEntry k) _ ?_
    have := lookupEntry_first (r := .ok (entryOf a k) s) (f := pure) (Q := []) (Q' := []) hE h k
      (done (m := pure (entryOf a k)) rfl)
    rw [lookupEntry_spec h k]
    show First _ _ _ _ _ _ (search s k) []
    rw [nil]
    have e : IndexEff.lookupEntry (V := V) eff k >>= pure = IndexEff.lookupEntry eff k := by
      show JM.mk _ = _
      cases hm : IndexEff.lookupEntry (V := V) eff k with
      | mk run =>
        congr 1
        funext u
        simp only
        cases run u <;> rfl
    rw [e] at this
    exact this
  | containsKey k =>
    refine ret (m := Index.containsKey k) _ ?_
    show First _ _ _ _ _ _ (search s k) []
    rw [nil]
    refine lookupEntry_first hE h k (done (m := pure (decide (entryOf a k ≠ -1))) ?_)
    unfold Index.containsKey
    rw [JM.bind_ok (lookupEntry_spec h k)]
  | get k =>
    refine ret (m := Index.getValue k) _ ?_
    show First _ _ _ _ _ _ (search s k) []
    rw [nil]
    refine lookupEntry_first hE h k ?_
    have hr : Index.getValue k s = (if entryOf a k = -1 then JM.throw .keyNotFound else rd Index.values (entryOf a k) :
        JM (Index K V) V) s := by
      unfold Index.getValue
      rw [JM.bind_ok (lookupEntry_spec h k)]
    rw [hr]
    split
    · exact done (m := JM.throw .keyNotFound) rfl
    · exact done rfl
  | getOrDefault k d =>
    refine ret (m := Index.getOrDefault k d) _ ?_
    show First _ _ _ _ _ _ (search s k) []
    rw [nil]
    refine lookupEntry_first hE h k ?_
    have hr : Index.getOrDefault k d s = (if entryOf a k = -1 then pure d else rd Index.values (entryOf a k) :
        JM (Index K V) V) s := by
      unfold Index.getOrDefault
      rw [JM.bind_ok (lookupEntry_spec h k)]
    rw [hr]
    split
    · exact done (m := pure d) rfl
    · exact done rfl
  | remove k => exact ret (m := Index.removeKey k true) _ (removeKey_first hE h k true)
  | removeAtAndReserve e =>
    obtain ⟨r, hr, he, -⟩ := hg
    have hrange := h.live_range (mem_live hr)
    have hk := klen_eq h
    rw [he] at hrange
    refine ret (m := Index.removeAtAndReserve e) _ ?_
    refine .read (rd_ok _ ⟨hrange.1, by omega⟩) ?_
    refine (removeKey_first hE h (s.keys.get e) false).bind (g := fun _ => pure ()) (fun _ => rfl) ?_
    unfold Index.removeAtAndReserve
    rw [JM.bind_ok (rd_ok _ ⟨hrange.1, by omega⟩)]
  | size => exact free (Index.step .size)
  | isEmpty => exact free (Index.step .isEmpty)
  | capacity => exact free (Index.step .capacity)
  | _ => exact free (Index.step _)

end Verif.IndexEffProof

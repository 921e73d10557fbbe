import Verif.Link.Set4
import Verif.Gen.EntryIterator
import Verif.Props.IteratorUse
/-! The iterator of `BaseHash.java` (`IteratorImpl`), for the map: the generated code agrees with the model. -/
set_option linter.unusedSectionVars false
namespace Verif.Link.Map
open Verif Verif.Gen Index IndexSpec Iterating
variable {K V : Type} [Inhabited K] [Inhabited V] {α β : Type}

/-! ## the iterator's methods -/

theorem onMap_rd (arr : Index K V → Arr α) (i : Int) :
    (onMap (rd arr i) : JM (Iterating K V) α) = rd (fun s => arr s.map) i := by
  apply JM_ext; intro s
  unfold onMap rd
  simp only
  by_cases h : 0 ≤ i ∧ i < (arr s.map).len
  · simp only [if_pos h]
  · simp only [if_neg h]

theorem onMap_wr (arr : Index K V → Arr α) (put : Index K V → Arr α → Index K V) (i : Int) (v : α) :
    (onMap (wr arr put i v) : JM (Iterating K V) Unit) =
      wr (fun s => arr s.map) (fun s a => { s with map := put s.map a }) i v := by
  apply JM_ext; intro s
  unfold onMap wr
  simp only
  by_cases h : 0 ≤ i ∧ i < (arr s.map).len
  · simp only [if_pos h]
  · simp only [if_neg h]

theorem onMap_modify (f : Index K V → Index K V) :
    (onMap (modify f) : JM (Iterating K V) PUnit) = modify fun s => { s with map := f s.map } := rfl

theorem nextHeadLoop_sim : ∀ (n fuel : Nat) (s : Iterating K V), n ≤ fuel →
    Sim Eq (nextHeadLoop n) (EntryIterator.KeyValueIndexedMap.nextHead_loop1 fuel) s
  | 0, _, _, _ => .diverge
  | n + 1, 0, _, h => by omega
  | n + 1, fuel + 1, s, h => by
    unfold nextHeadLoop EntryIterator.KeyValueIndexedMap.nextHead_loop1
    refine .get (.ite (by simp) (fun _ => ?_) fun _ => .pure rfl)
    rw [onMap_rd]
    refine .stepS (rd_state _ _ _) fun e _ => ?_
    refine .modify rfl (.right rfl (.ite (by simp) (fun _ => ?_) fun _ => ?_))
    · refine .modify rfl (.right rfl ?_)
      rw [onMap_rd]
      refine .stepS (rd_state _ _ _) fun n _ => ?_
      exact .of_eq rfl
    · exact .modify rfl (nextHeadLoop_sim n fuel _ (by omega))

theorem nextHead_sim (fuel : Nat) (s : Iterating K V) (hf : s.map.heads.len + 1 ≤ fuel) :
    Sim Eq nextHead (EntryIterator.KeyValueIndexedMap.nextHead fuel) s := by
  unfold nextHead EntryIterator.KeyValueIndexedMap.nextHead
  refine .right rfl ?_
  rw [mod_mod]
  refine .modify rfl (.left rfl ?_)
  refine .bind_eq (nextHeadLoop_sim _ _ _ hf) fun _ t _ => .of_eq rfl

theorem initialise_sim (fuel : Nat) (s : Iterating K V) (hf : s.map.heads.len + 1 ≤ fuel) :
    Sim Eq initIter (EntryIterator.KeyValueIndexedMap.initialise fuel) s := by
  unfold initIter EntryIterator.KeyValueIndexedMap.initialise
  exact .bind_eq (nextHead_sim fuel s hf) fun _ t _ => .of_eq rfl

theorem next_sim (fuel : Nat) (s : Iterating K V) (hf : s.map.heads.len + 1 ≤ fuel) :
    Sim Eq Iterating.next (EntryIterator.KeyValueIndexedMap.next fuel) s := by
  unfold Iterating.next EntryIterator.KeyValueIndexedMap.next
  refine .get ?_
  by_cases h1 : s.map.modificationCount ≠ s.it.internalModCount
  · rw [if_pos h1, if_pos (by simpa using h1)]; exact .inr rfl
  rw [if_neg h1]
  refine .right (b := ()) (by rw [if_neg (by simpa using h1)]; rfl) (.right rfl ?_)
  refine .ite (by simp) (fun h2 => ?_) fun h2 => .ite (by simp) (fun h3 => ?_) fun h3 => ?_
  · exact .bind_eq (initialise_sim fuel s hf) fun _ t _ => .of_eq rfl
  · unfold setIt
    rw [mod_mod]
    by_cases h4 : s.it.isRemoved = true
    · refine .right (b := ()) (by rw [if_neg (by simp [h4])]; rfl) (.right rfl (.modify (by simp [h4]) (.get ?_)))
      rw [onMap_rd]
      exact .stepS (rd_state _ _ _) fun e _ => .of_eq rfl
    · refine .of_eq ?_
      simp only [onMap_rd]
      rw [JM.bind_ok (a := ()) (s' := { s with it.prev := s.it.entry }) (by rw [if_pos (by simp [h4])]; rfl),
        JM.bind_ok (JM.get_apply _), JM.bind_ok (JM.modify_apply _ _), JM.bind_ok (JM.get_apply _),
        JM.bind_ok (JM.modify_apply _ _), JM.bind_ok (JM.get_apply _)]
      simp only [h4, Bool.false_eq_true, if_false]
      rw [JM.bind_apply, JM.bind_apply]
      cases hr : rd (fun s : Iterating K V => s.map.nexts) s.it.next _ <;> rfl
  · exact .bind_eq (nextHead_sim fuel s hf) fun _ t _ => .of_eq rfl

theorem setIt_map {f : Iter → Iter} {s t : Iterating K V} {u : Unit} (h : setIt f s = .ok u t) : t.map = s.map := by
  cases h; rfl

/-- walking does not change the collection -/
def Walks (m : JM (Iterating K V) α) : Prop := ∀ s, (m s).state.map = s.map

theorem Walks.bind {m : JM (Iterating K V) α} {f : α → JM (Iterating K V) β} (h1 : Walks m) (h2 : ∀ a, Walks (f a)) :
    Walks (m >>= f) := by
  intro s
  have := h1 s
  rw [JM.bind_apply]
  cases hm : m s with
  | ok a t => rw [hm] at this; exact (h2 a t).trans this
  | err e t => rw [hm] at this; exact this
theorem Walks.pure (a : α) : Walks (Pure.pure a : JM (Iterating K V) α) := fun _ => rfl
theorem Walks.throw (e : Err) : Walks (JM.throw e : JM (Iterating K V) α) := fun _ => rfl
theorem Walks.get : Walks (MonadState.get : JM (Iterating K V) (Iterating K V)) := fun _ => rfl
theorem Walks.setIt (f : Iter → Iter) : Walks (Iterating.setIt f : JM (Iterating K V) Unit) := fun _ => rfl
theorem Walks.rd (arr : Index K V → Arr α) (i : Int) : Walks (onMap (rd arr i) : JM (Iterating K V) α) := by
  intro s; rw [onMap_rd, rd_state]
theorem Walks.ite {c : Prop} [Decidable c] {m n : JM (Iterating K V) α} (h1 : Walks m) (h2 : Walks n) :
    Walks (if c then m else n) := by split <;> assumption

theorem nextHeadLoop_walks : ∀ n : Nat, Walks (nextHeadLoop n : JM (Iterating K V) Unit)
  | 0 => .throw _
  | n + 1 => by
    unfold nextHeadLoop
    exact .bind .get fun _ => .ite (.bind (.rd _ _) fun _ => .bind (.setIt _) fun _ => .ite
      (.bind (.setIt _) fun _ => .bind (.rd _ _) fun _ => .setIt _)
      (.bind (.setIt _) fun _ => nextHeadLoop_walks n)) (.pure _)

theorem nextHead_walks : Walks (nextHead : JM (Iterating K V) Unit) :=
  .bind (.setIt _) fun _ => .bind .get fun _ => .bind (nextHeadLoop_walks _) fun _ => .setIt _
theorem initIter_walks : Walks (initIter : JM (Iterating K V) Unit) := .bind nextHead_walks fun _ => .setIt _
theorem next_walks : Walks (Iterating.next : JM (Iterating K V) Bool) := by
  unfold Iterating.next
  exact .bind .get fun _ => .ite (.throw _) (.ite (.bind initIter_walks fun _ => .bind .get fun _ => .pure _)
    (.ite (.bind (.setIt _) fun _ => .bind (.setIt _) fun _ => .bind .get fun _ => .bind (.rd _ _) fun _ =>
      .bind (.setIt _) fun _ => .pure _) (.bind nextHead_walks fun _ => .bind .get fun _ => .pure _)))

/-- the end of `remove` -/
theorem removeEnd_sim (entry : Int) {s : Iterating K V} (he : s.it.entry = entry)
    (hn : -2 ^ 31 ≤ s.map.size - 1 ∧ s.map.size - 1 < 2 ^ 31) :
    Sim Eq (do
        onMap (modify fun t => { t with freeList := entry, size := t.size - 1 })
        onMap (Index.removeValue entry)
        setIt fun it => { it with isRemoved := true, internalModCount := i32 (it.internalModCount + 1) }
        onMap Index.bumpMod) (do
        let s8 ← get
        let v9 := s8.it.entry
        modify fun self => { self with map.freeList := v9 }
        let s10 ← get
        let v11 := i32 (s10.map.size - 1)
        modify fun self => { self with map.size := v11 }
        let s12 ← get
        EntryIterator.KeyValueIndexedMap.removeValue s12.it.entry
        modify fun self => { self with it.isRemoved := true }
        let s13 ← get
        let v14 := i32 (s13.it.internalModCount + 1)
        modify fun self => { self with it.internalModCount := v14 }
        let s15 ← get
        let v16 := i32 (s15.map.modificationCount + 1)
        modify fun self => { self with map.modificationCount := v16 }
        pure ()) s := by
  subst he
  refine .right rfl ?_
  rw [mod_get_mod, onMap_modify]
  dsimp only
  refine .modify (by rw [i32_of_range hn]) (.right rfl ?_)
  unfold Index.removeValue Index.wrValues EntryIterator.KeyValueIndexedMap.removeValue
  rw [onMap_wr, bind_unit]
  exact .step fun _ t _ => .of_eq rfl

theorem wr_post {σ : Type} {arr : σ → Arr α} {put : σ → Arr α → σ} {i : Int} {v : α} {s t : σ} {u : Unit}
    (h : wr arr put i v s = .ok u t) : t = put s ((arr s).set i v) := by
  unfold wr at h
  simp only at h
  split at h
  · cases h; rfl
  · cases h

theorem remove_sim' (fuel : Nat) (s : Iterating K V) (hf : s.map.heads.len + 1 ≤ fuel)
    (hn : -2 ^ 31 ≤ s.map.size - 1 ∧ s.map.size - 1 < 2 ^ 31) :
    Sim Eq Iterating.remove (EntryIterator.KeyValueIndexedMap.remove0 fuel) s := by
  unfold Iterating.remove EntryIterator.KeyValueIndexedMap.remove0
  refine .get ?_
  by_cases h1 : s.map.modificationCount ≠ s.it.internalModCount
  · rw [if_pos h1, if_pos (by simpa using h1)]; exact .inr rfl
  rw [if_neg h1]
  refine .right (b := ()) (by rw [if_neg (by simpa using h1)]; rfl) (.right rfl ?_)
  by_cases h2 : s.it.isRemoved = true
  · rw [if_pos h2, if_pos h2]; exact .inr rfl
  rw [if_neg h2]
  refine .right (b := ()) (by rw [if_neg h2]; rfl) (.right rfl ?_)
  have h3 : Sim Eq (JM.when (s.it.initialized = false) initIter) (if (!s.it.initialized) = true then do
      EntryIterator.KeyValueIndexedMap.initialise fuel
      pure ()
    else pure ()) s :=
    .ite (by simp) (fun _ => (initialise_sim fuel s hf).unit_right) fun _ => .rfl
  refine .bind_eq h3 fun _ u hu => ?_
  have hm : u.map = s.map := by
    have : Walks (JM.when (s.it.initialized = false) (initIter : JM (Iterating K V) Unit)) :=
      .ite initIter_walks (.pure _)
    have := this s
    rw [hu] at this; exact this
  unfold unlinkCurrent
  refine .get ?_
  dsimp only
  rw [onMap_rd]
  refine .stepS (rd_state _ _ _) fun n _ => .modify rfl (.right rfl ?_)
  dsimp only
  unfold unlink wrHeads wrNexts
  by_cases h4 : u.it.prev < 0
  · rw [if_pos h4, if_pos (by simpa using h4), onMap_wr, onMap_wr, bind_unit]
    refine .step fun _ t ht => .right rfl ?_
    obtain rfl := wr_post ht
    dsimp only
    refine .step fun _ t ht => ?_
    obtain rfl := wr_post ht
    exact removeEnd_sim _ rfl (by dsimp only; rw [hm]; exact hn)
  · rw [if_neg h4, if_neg (by simpa using h4), onMap_wr, onMap_wr, bind_unit]
    refine .step fun _ t ht => .right rfl ?_
    obtain rfl := wr_post ht
    dsimp only
    refine .step fun _ t ht => ?_
    obtain rfl := wr_post ht
    exact removeEnd_sim _ rfl (by dsimp only; rw [hm]; exact hn)

theorem reset_eq : (EntryIterator.KeyValueIndexedMap.reset : JM (Iterating K V) Unit) = Iterating.reset := rfl

/-- `iterator(it)` resets the iterator, `iterator()` makes a new one and resets that. -/
theorem iterator_eq : (EntryIterator.KeyValueIndexedMap.iterator1 (some ()) : JM (Iterating K V) (Option Unit)) =
      (Iterating.reset >>= fun _ => pure (some ())) ∧
    (EntryIterator.KeyValueIndexedMap.iterator0 : JM (Iterating K V) (Option Unit)) =
      (Iterating.reset >>= fun _ => pure (some ())) := ⟨rfl, rfl⟩

/-! ## a program that uses a map and an iterator -/

/-- One call of the generated code. -/
def useStep (fuel : Nat) : UseOp K V → JM (Iterating K V) (Out K V)
  | .call o => onMap (step fuel o)
  | .next => do
    let more ← EntryIterator.KeyValueIndexedMap.next fuel
    if more then do return .int (← EntryIterator.KeyValueIndexedMap.currentEntry) else return .bool false
  | .remove => do EntryIterator.KeyValueIndexedMap.remove0 fuel; return .unit
  | .iterator => do let _ ← EntryIterator.KeyValueIndexedMap.iterator0; return .unit

/-- The arguments are Java `int`s. -/
def UseInt : UseOp K V → Prop
  | .call o => IntArg o
  | _ => True

theorem onMap_keeps {J : Index K V → Prop} {m : JM (Index K V) α} (h : Keeps J m) :
    Keeps (fun s : Iterating K V => J s.map) (onMap m) := by
  intro s hs
  rw [(onMap_res m s).2]; exact h _ hs

theorem walks_keeps {J : Index K V → Prop} {m : JM (Iterating K V) α} (h : Walks m) :
    Keeps (fun s : Iterating K V => J s.map) m := by
  intro s hs
  show J (m s).state.map
  rw [h s]; exact hs

theorem remove_bx' : Keeps (fun s : Iterating K V => Bx s.map) Iterating.remove := by
  unfold Iterating.remove unlinkCurrent
  refine .bind .get fun _ => .ite (.throw _) (.ite (.throw _) (.bind (.when (walks_keeps initIter_walks)) fun _ => ?_))
  refine .bind .get fun _ => .bind (onMap_keeps (.rd _)) fun _ => .bind (walks_keeps (.setIt _)) fun _ => ?_
  refine .bind (onMap_keeps (.of fun _ => unlink_keeps _ _ _ _)) fun _ => ?_
  refine .bind (onMap_keeps (.of fun _ => wrNexts_keeps _ _ _)) fun _ => ?_
  refine .bind (onMap_keeps ?_) fun _ => ?_
  · exact fun _ ⟨_, h⟩ => ⟨_, rfl, h.cap, h.heads, h.max⟩
  refine .bind (onMap_keeps (.of fun _ => wrValues_keeps _ _ _)) fun _ => ?_
  exact .bind (walks_keeps (.setIt _)) fun _ => onMap_keeps (.of fun _ => bump_keeps _)

theorem useStep_bx (o : UseOp K V) : Keeps (fun s : Iterating K V => Bx s.map) (Iterating.useStep o) := by
  cases o with
  | call o => exact onMap_keeps (step_bx o)
  | next => exact .bind (walks_keeps next_walks) fun _ => .ite (.bind (fun _ h => h) fun _ => .pure _) (.pure _)
  | remove => exact .bind remove_bx' fun _ => .pure _
  | iterator => exact .bind (walks_keeps (.bind .get fun _ => .setIt _)) fun _ => .pure _

variable {tight : Prop}

/-- One call: the generated code and the model agree. -/
theorem useStep_eq (fuel : Nat) (hf : 2 ^ 31 ≤ fuel) {n : Int} (hn : n ≤ 1073741824) (h0 : 0 ≤ n)
    {s : Iterating K V} {u : Use K V} (h : UInv tight n s u) (hb : Bx s.map) (o : UseOp K V) (hi : UseInt o)
    (hg : UseGuard o u) : useStep fuel o s = Iterating.useStep o s := by
  have hok := (use_step hn s u o h h0 hg).1
  obtain ⟨⟨F, hF⟩, -⟩ := h
  have hs := hF.hlen
  have hz := hF.size
  cases o with
  | call o =>
    have := step_eq fuel hf hF hb o hi hg
    show onMap (step fuel o) s = onMap (Index.step o) s
    unfold onMap
    simp only [this]
  | iterator => rfl
  | next =>
    have e : EntryIterator.KeyValueIndexedMap.next fuel s = Iterating.next s := by
      apply (next_sim fuel s (by omega)).toEq
      intro hd
      have hx : (Iterating.useStep .next s).out = .error .diverge := by
        unfold Iterating.useStep
        rw [JM.bind_apply]
        cases hr : Iterating.next s with
        | ok a t => rw [hr] at hd; simp at hd
        | err e t => rw [hr] at hd; simpa using hd
      rw [hx] at hok
      unfold UseOk at hok
      simp only at hok
      split at hok <;> simp at hok
    show (EntryIterator.KeyValueIndexedMap.next fuel >>= _) s = (Iterating.next >>= _) s
    rw [JM.bind_apply, JM.bind_apply, e]
    rfl
  | remove =>
    have e : EntryIterator.KeyValueIndexedMap.remove0 fuel s = Iterating.remove s := by
      apply (remove_sim' fuel s (by omega) ?_).toEq
      · intro hd
        have hx : (Iterating.useStep .remove s).out = .error .diverge := by
          unfold Iterating.useStep
          rw [JM.bind_apply]
          cases hr : Iterating.remove s with
          | ok a t => rw [hr] at hd; simp at hd
          | err e t => rw [hr] at hd; simpa using hd
        rw [hx] at hok
        unfold UseOk at hok
        simp only at hok
        split at hok
        · simp at hok
        · cases hc : u.cursor.pos <;> cases hc' : u.cursor.todo <;> simp [Cursor.step, hc, hc', Except.map] at hok
      · have h3 := hF.perm.length_eq
        simp only [List.length_append, List.length_map, List.length_range] at h3
        have := hF.next_le
        have := hF.cap_pos
        have := hF.next0
        have := hF.next
        have h9 : u.cursor.map.live.length = u.cursor.map.rows.length := by simp [Abs.live]
        omega
    show (EntryIterator.KeyValueIndexedMap.remove0 fuel >>= _) s = (Iterating.remove >>= _) s
    rw [JM.bind_apply, JM.bind_apply, e]

theorem listed_eq (fuel : Nat) (hf : 2 ^ 31 ≤ fuel) {s : Iterating K V} {a : Abs K V} {F : List Int}
    (hF : Index.Inv tight s.map a F) (hb : Bx s.map) :
    listed (useStep fuel (.call .forEachEntry) s).out = entriesOf s.map := by
  have e : (useStep fuel (.call .forEachEntry) s).out = (Index.step .forEachEntry s.map).out := by
    have := step_eq fuel hf hF hb .forEachEntry trivial trivial
    show (onMap (step fuel .forEachEntry) s).out = _
    rw [(onMap_res _ s).1, this]
  rw [e]; rfl

theorem use_legal (fuel : Nat) (hf : 2 ^ 31 ≤ fuel) : ∀ (ops : List (UseOp K V)) (n : Int) (s : Iterating K V)
    (u : Use K V), UInv tight n s u → Bx s.map → (∀ o ∈ ops, UseInt o) → 0 ≤ n → n + ops.length ≤ 1073741824 →
    UseLegalBy id (useStep fuel) (.call .forEachEntry) u s ops
  | [], _, _, _, _, _, _, _, _ => trivial
  | o :: ops, n, s, u, h, hb, hi, h0, hn => by
    intro hg
    simp only [List.length_cons] at hn
    have he := useStep_eq fuel hf (by omega) h0 h hb o (hi o (by simp)) hg
    obtain ⟨h1, h2⟩ := use_step (by omega) s u o h h0 hg
    obtain ⟨⟨F, hF⟩, -⟩ := h
    rw [listed_eq fuel hf hF hb, he]
    exact ⟨h1, use_legal fuel hf ops (n + 1) _ _ h2 (useStep_bx o s hb) (fun o ho => hi o (by simp [ho])) (by omega)
      (by omega)⟩

/-! ## the iterator alone -/

/-- `next()` with `currentEntry()`, or `remove()`, of the generated code. -/
def itStep (fuel : Nat) : ItOp → JM (Iterating K V) (Option Int)
  | .next => do
    let more ← EntryIterator.KeyValueIndexedMap.next fuel
    if more then do return some (← EntryIterator.KeyValueIndexedMap.currentEntry) else pure none
  | .remove => do EntryIterator.KeyValueIndexedMap.remove0 fuel; pure none

theorem out_bind {m : JM (Iterating K V) α} {f : α → JM (Iterating K V) β} {s : Iterating K V} {e : Err}
    (h : (m s).out = .error e) : ((m >>= f) s).out = .error e := by
  rw [JM.bind_apply]
  cases hm : m s with
  | ok a t => rw [hm] at h; simp at h
  | err e t => rw [hm] at h; simpa using h

theorem itStep_eq (fuel : Nat) (hf : 2 ^ 31 ≤ fuel) {b : Int} (h0 : 0 ≤ b) (hb : b ≤ 1073741824) {s : Iterating K V}
    {c : Cursor K V} (h : CInv tight b s c) (o : ItOp) : itStep fuel o s = Iterating.itStep o s := by
  have hok := (cursor_step h0 hb s c o h).1
  obtain ⟨⟨F, hF⟩, -⟩ := h
  have hs := hF.hlen
  have hz := hF.size
  have hl : (c.map.rows.length : Int) ≤ 536870912 := by
    have h3 := hF.perm.length_eq
    simp only [List.length_append, List.length_map, List.length_range] at h3
    have := hF.next_le
    have := hF.cap_pos
    have := hF.next0
    have := hF.next
    have h9 : c.map.live.length = c.map.rows.length := by simp [Abs.live]
    omega
  have hne : (Iterating.itStep o s).out ≠ .error .diverge := by
    rw [hok]
    cases o <;> cases hc : c.pos <;> cases hc' : c.todo <;> simp [Cursor.step, hc, hc']
  cases o with
  | next =>
    have e := (next_sim fuel s (by omega)).toEq (fun hd => hne (out_bind hd))
    show (EntryIterator.KeyValueIndexedMap.next fuel >>= _) s = (Iterating.next >>= _) s
    rw [JM.bind_apply, JM.bind_apply, e]; rfl
  | remove =>
    have e := (remove_sim' fuel s (by omega) (by omega)).toEq (fun hd => hne (out_bind hd))
    show (EntryIterator.KeyValueIndexedMap.remove0 fuel >>= _) s = (Iterating.remove >>= _) s
    rw [JM.bind_apply, JM.bind_apply, e]

theorem itRun_eq (fuel : Nat) (hf : 2 ^ 31 ≤ fuel) : ∀ (ops : List ItOp) (b : Int) (s : Iterating K V) (c : Cursor K V),
    CInv tight b s c → 0 ≤ b → b + ops.length ≤ 1073741824 →
    runM (itStep fuel) s ops = runM Iterating.itStep s ops
  | [], _, _, _, _, _, _ => rfl
  | o :: os, b, s, c, h, h0, hb => by
    simp only [List.length_cons] at hb
    have e := itStep_eq fuel hf h0 (by omega) h o
    have h2 := (cursor_step h0 (by omega) s c o h).2
    have := itRun_eq fuel hf os (b + 1) _ _ h2 (by omega) (by omega)
    simp only [runM, e, this]

theorem itRun_bx : ∀ (ops : List ItOp) (s : Iterating K V), Bx s.map → Bx (runM Iterating.itStep s ops).2.map := by
  intro ops
  induction ops with
  | nil => intro s hs; exact hs
  | cons o os ih =>
    intro s hs
    refine ih _ ?_
    cases o with
    | next =>
      exact Keeps.bind (walks_keeps next_walks)
        (fun _ => .ite (.bind (fun _ h => h) fun _ => .pure _) (.pure _)) s hs
    | remove => exact Keeps.bind remove_bx' (fun _ => .pure _) s hs

end Verif.Link.Map

namespace Verif
open Index IndexSpec Iterating Link.Map Gen.EntryIterator
variable {K V : Type} [Inhabited K] [Inhabited V]

/-- C94 for the code generated from BaseHash.java (`IteratorImpl`), BaseKeyIndex.ftl and KeyValueIndexedMap.ftl: on
every map that a program using the generated class can hold, every program of at most 2^30 calls on the map and on
an iterator of it has the results of the ideal cursor (see `C94_iterator_use`). -/
theorem C94_generated_iterator_use (fuel : Nat) (hf : 2 ^ 31 ≤ fuel) {s : Index K V} {a : Abs K V}
    (h : Link.Map.Made fuel s a) (it : Iter) (ops : List (UseOp K V)) (hi : ∀ o ∈ ops, Link.Map.UseInt o)
    (hlen : ops.length ≤ 2 ^ 30) :
    UseLegalBy id (Link.Map.useStep fuel) (.call .forEachEntry) ⟨⟨.start, [], a⟩, .void⟩ ⟨s, it⟩ ops := by
  obtain ⟨hb, hr⟩ := h.inv hf
  obtain ⟨F, hF⟩ := reach_inv hr
  exact Link.Map.use_legal fuel hf ops 0 _ _ ⟨⟨F, hF⟩, trivial⟩ hb hi (by omega) (by
    have e : (2 : Nat) ^ 30 = 1073741824 := by decide
    omega)

/-- C39 for the generated code: `next()` of a new iterator goes through the entries that `forEachEntry` lists, each
entry of the map once, then returns false. -/
theorem C39_generated_iterates (fuel : Nat) (hf : 2 ^ 31 ≤ fuel) {s : Index K V} {a : Abs K V}
    (h : Link.Map.Made fuel s a) (it : Iter) :
    ∃ l t, (Link.Map.step fuel .forEachEntry s).out = .ok (.ints l) ∧ l.Nodup ∧ (∀ e, e ∈ l ↔ e ∈ a.live) ∧
      KeyValueIndexedMap.iterator0 ⟨s, it⟩ = .ok (some ()) t ∧
      ∀ n : Nat, n ≤ 2 ^ 30 → (runM (Link.Map.itStep fuel) t (List.replicate n .next)).1 =
          (List.range n).map (fun i => .ok l[i]?) ∧
        (runM (Link.Map.itStep fuel) t (List.replicate n .next)).2.map = s := by
  have e : (2 : Nat) ^ 30 = 1073741824 := by decide
  obtain ⟨hb, hr⟩ := h.inv hf
  obtain ⟨F, hF⟩ := reach_inv hr
  obtain ⟨it', h1, h2⟩ := cinv_reset hF it
  obtain ⟨l, t, g1, g2, g3, g4, g5⟩ := C39_iterates hr it
  rw [h1] at g4
  injection g4 with _ g4
  subst g4
  refine ⟨l, ⟨s, it'⟩, ?_, g2, g3, ?_, fun n hn => ?_⟩
  · rw [Link.Map.step_eq fuel hf hF hb .forEachEntry trivial trivial]; exact g1
  · rw [Link.Map.iterator_eq.2, JM.bind_ok h1]; rfl
  · rw [Link.Map.itRun_eq fuel hf _ 0 _ _ h2 (by omega) (by simp only [List.length_replicate]; omega)]
    exact g5 n hn

/-- C40 for the generated code: the calls of an iterator, `next()` and `remove()` in any order, have the results of
the ideal cursor over what `forEachEntry` lists, and the map left has the cursor's contents. -/
theorem C40_generated_protocol (fuel : Nat) (hf : 2 ^ 31 ≤ fuel) {s : Index K V} {a : Abs K V}
    (h : Link.Map.Made fuel s a) (it : Iter) (ops : List ItOp) (hlen : ops.length ≤ 2 ^ 30) :
    ∃ l t, (Link.Map.step fuel .forEachEntry s).out = .ok (.ints l) ∧
      KeyValueIndexedMap.iterator0 ⟨s, it⟩ = .ok (some ()) t ∧
      (runM (Link.Map.itStep fuel) t ops).1 = (runS Cursor.step ⟨.start, l, a⟩ ops).1 ∧
      ∀ ops', (∀ o ∈ ops', Link.Map.IntArg o) → Legal Ok (runS Cursor.step ⟨.start, l, a⟩ ops).2.map ops'
        (runM (Link.Map.step fuel) (runM (Link.Map.itStep fuel) t ops).2.map ops').1 := by
  have e : (2 : Nat) ^ 30 = 1073741824 := by decide
  obtain ⟨hb, hr⟩ := h.inv hf
  obtain ⟨F, hF⟩ := reach_inv hr
  obtain ⟨it', h1, h2⟩ := cinv_reset hF it
  obtain ⟨h3, ⟨G, h4⟩, _⟩ := cursor_run ops 0 _ _ h2 (by omega) (by omega)
  refine ⟨order s, ⟨s, it'⟩, ?_, ?_, ?_, ?_⟩
  · rw [Link.Map.step_eq fuel hf hF hb .forEachEntry trivial trivial, step_entries hF]; rfl
  · rw [Link.Map.iterator_eq.2, JM.bind_ok h1]; rfl
  · rw [Link.Map.itRun_eq fuel hf _ 0 _ _ h2 (by omega) (by omega)]; exact h3
  · intro ops' hi
    rw [Link.Map.itRun_eq fuel hf _ 0 _ _ h2 (by omega) (by omega)]
    refine Link.Map.legal fuel hf ops' hi h4 ?_
    exact Link.Map.itRun_bx ops _ hb

end Verif

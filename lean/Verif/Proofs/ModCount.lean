import Verif.Spec.IndexReach
/-! How the modification count moves: needed for fail-fast iteration. -/
set_option linter.unusedSectionVars false
namespace Verif
namespace Index
open IndexSpec
variable {K V : Type} [Inhabited K] [Inhabited V] {α β : Type}

/-- Going from `s` to `t` the count moved by at most `n` (modulo 2^32), and it did move if the size
changed. -/
def Moved (n : Int) (s t : Index K V) : Prop :=
  ∃ d, 0 ≤ d ∧ d ≤ n ∧ (t.modificationCount - s.modificationCount - d) % 4294967296 = 0 ∧
    (t.size ≠ s.size → 1 ≤ d)

/-- The method moves the count by at most `n`, and moves it if it changes the size. -/
def Counts (n : Int) (m : JM (Index K V) α) : Prop := ∀ s, Moved n s (m s).state

theorem Moved.refl (s : Index K V) : Moved 0 s s := ⟨0, by omega, by omega, by simp, by simp⟩

theorem Moved.mono {n m : Int} {s t : Index K V} (h : Moved n s t) (hn : n ≤ m) : Moved m s t := by
  obtain ⟨d, h1, h2, h3⟩ := h
  exact ⟨d, h1, by omega, h3⟩

theorem Moved.trans {n m : Int} {s t u : Index K V} (h : Moved n s t) (g : Moved m t u) :
    Moved (n + m) s u := by
  obtain ⟨d, h1, h2, h3, h4⟩ := h
  obtain ⟨e, g1, g2, g3, g4⟩ := g
  refine ⟨d + e, by omega, by omega, by omega, fun hne => ?_⟩
  by_cases ht : t.size = s.size
  · have := g4 (by rw [ht]; exact hne); omega
  · have := h4 ht; omega

theorem Moved.same {s t : Index K V} (h1 : t.modificationCount = s.modificationCount)
    (h2 : t.size = s.size) : Moved 0 s t := ⟨0, by omega, by omega, by rw [h1]; simp, by simp [h2]⟩

namespace Counts
variable {n m : Int}
theorem mono {x : JM (Index K V) α} (h : Counts n x) (hn : n ≤ m) : Counts m x := fun s => (h s).mono hn
theorem pure (a : α) : Counts 0 (Pure.pure a : JM (Index K V) α) := fun s => Moved.refl s
theorem throw (e : Err) : Counts 0 (JM.throw e : JM (Index K V) α) := fun s => Moved.refl s
theorem get : Counts 0 (MonadState.get : JM (Index K V) _) := fun s => Moved.refl s
theorem bind {x : JM (Index K V) α} {f : α → JM (Index K V) β} (h1 : Counts n x)
    (h2 : ∀ a, Counts m (f a)) (hm : 0 ≤ m) : Counts (n + m) (x >>= f) := by
  intro s
  have h := h1 s
  rw [JM.bind_apply]
  split
  · rename_i a s' heq
    rw [heq] at h
    exact h.trans (h2 a s')
  · rename_i e s' heq
    rw [heq] at h
    exact h.mono (by omega)
/-- `bind` when the first part is silent -/
theorem bind0 {x : JM (Index K V) α} {f : α → JM (Index K V) β} (h1 : Counts 0 x)
    (h2 : ∀ a, Counts m (f a)) (hm : 0 ≤ m) : Counts m (x >>= f) := by
  have := bind h1 h2 hm
  simpa using this
theorem map {x : JM (Index K V) α} (h : Counts n x) (f : α → β) :
    Counts n (do return f (← x)) := by
  have := bind h (fun a => pure (f a)) (by omega)
  simpa using this
theorem modify {f : Index K V → Index K V}
    (h : ∀ s, (f s).modificationCount = s.modificationCount ∧ (f s).size = s.size) :
    Counts 0 (_root_.modify f : JM (Index K V) PUnit) := fun s => Moved.same (h s).1 (h s).2
theorem rd (arr : Index K V → Arr α) (i : Int) : Counts 0 (Verif.rd arr i) := by
  intro s
  unfold Verif.rd
  simp only
  split <;> exact Moved.refl s
theorem rdA (arr : Arr α) (i : Int) : Counts 0 (Verif.rdA arr i : JM (Index K V) α) := by
  intro s
  unfold Verif.rdA
  simp only
  split <;> exact Moved.refl s
theorem wr {arr : Index K V → Arr α} {set : Index K V → Arr α → Index K V} (i : Int) (v : α)
    (h : ∀ s x, (set s x).modificationCount = s.modificationCount ∧ (set s x).size = s.size) :
    Counts 0 (Verif.wr arr set i v) := by
  intro s
  unfold Verif.wr
  simp only
  split
  · exact Moved.same (h _ _).1 (h _ _).2
  · exact Moved.refl s
theorem ite {c : Prop} [Decidable c] {x y : JM (Index K V) α} (h1 : Counts n x) (h2 : Counts n y) :
    Counts n (if c then x else y) := by split <;> assumption
theorem when {c : Prop} [Decidable c] {x : JM (Index K V) Unit} (h : Counts n x) (hn : 0 ≤ n) :
    Counts n (JM.when c x) := ite h ((pure ()).mono hn)

theorem newArr (n : Int) (d : α) : Counts 0 (Verif.newArr n d : JM (Index K V) _) := by
  intro s
  unfold Verif.newArr
  simp only
  split <;> exact Moved.refl s
theorem fill (x : Arr α) (v : α) (i n : Int) : Counts 0 (Verif.fill x v i n : JM (Index K V) _) := by
  intro s
  unfold Verif.fill
  simp only
  split
  · exact Moved.refl s
  · split <;> exact Moved.refl s
theorem ensureSize (x : Arr α) (n : Int) (d : α) : Counts 0 (Verif.ensureSize x n d : JM (Index K V) _) := by
  unfold Verif.ensureSize
  apply ite
  · apply bind0 _ _ (by omega)
    · intro s
      unfold grow
      simp only
      split <;> exact Moved.refl s
    · intro a s
      unfold copyOf
      simp only
      split <;> exact Moved.refl s
  · exact pure _
theorem calculateNewCapacity (c t : Int) :
    Counts 0 (Verif.calculateNewCapacity c t : JM (Index K V) _) := by
  intro s
  unfold Verif.calculateNewCapacity
  split
  · split <;> exact Moved.refl s
  · dsimp only
    split <;> exact Moved.refl s
theorem computeHead (k : K) : Counts 0 (Index.computeHead k : JM (Index K V) _) :=
  fun s => Moved.refl s
theorem calcNewCapacity : Counts 0 (Index.calcNewCapacity : JM (Index K V) _) := by
  unfold Index.calcNewCapacity
  refine bind0 get (fun s => bind0 (calculateNewCapacity _ _) (fun c => ite ?_ ?_) (by omega)) (by omega)
  · exact modify fun s => ⟨rfl, rfl⟩
  · exact modify fun s => ⟨rfl, rfl⟩
theorem wrHeads (i v : Int) : Counts 0 (Index.wrHeads i v : JM (Index K V) _) := wr i v fun _ _ => ⟨rfl, rfl⟩
theorem wrNexts (i v : Int) : Counts 0 (Index.wrNexts i v : JM (Index K V) _) := wr i v fun _ _ => ⟨rfl, rfl⟩
theorem wrKeys (i : Int) (v : K) : Counts 0 (Index.wrKeys i v : JM (Index K V) _) := wr i v fun _ _ => ⟨rfl, rfl⟩
theorem wrValues (i : Int) (v : V) : Counts 0 (Index.wrValues i v : JM (Index K V) _) := wr i v fun _ _ => ⟨rfl, rfl⟩
theorem updateMaxHead (h : Int) : Counts 0 (Index.updateMaxHead h : JM (Index K V) _) :=
  modify fun _ => ⟨rfl, rfl⟩
theorem bumpMod : Counts 1 (Index.bumpMod : JM (Index K V) _) := by
  intro s
  refine ⟨1, by omega, by omega, ?_, fun _ => by omega⟩
  show (i32 (s.modificationCount + 1) - s.modificationCount - 1) % 4294967296 = 0
  unfold i32; omega
/-- a change of the size followed by the count -/
theorem resized {f : Index K V → Index K V}
    (h : ∀ s, (f s).modificationCount = s.modificationCount) (g : Unit → JM (Index K V) α)
    (hg : Counts 0 (g ())) : Counts 1 (do _root_.modify f; Index.bumpMod; g ()) := by
  intro s
  have h1 := hg { f s with modificationCount := i32 ((f s).modificationCount + 1) }
  obtain ⟨d, h2, h3, h4, _⟩ := h1
  refine ⟨1, by omega, by omega, ?_, fun _ => by omega⟩
  show ((g () { f s with modificationCount := i32 ((f s).modificationCount + 1) }).state.modificationCount
    - s.modificationCount - 1) % 4294967296 = 0
  generalize (g () { f s with modificationCount := i32 ((f s).modificationCount + 1) }).state.modificationCount
    = x at h4 ⊢
  have e := h s
  simp only [e] at h4
  unfold i32 at h4
  omega
/-- the same at the end of a method -/
theorem resizedEnd {f : Index K V → Index K V}
    (h : ∀ s, (f s).modificationCount = s.modificationCount) :
    Counts 1 (do _root_.modify f; Index.bumpMod : JM (Index K V) Unit) :=
  resized h (fun _ => Pure.pure ()) (pure ())
theorem lookupLoop (k : K) : ∀ (fuel : Nat) (e : Int), Counts 0 (Index.lookupLoop k fuel e : JM (Index K V) _)
  | 0, e => throw _
  | fuel + 1, e => by
    unfold Index.lookupLoop
    refine ite (bind0 (rd _ _) (fun k => bind0 get (fun s => ite (pure _) ?_) (by omega)) (by omega)) (pure _)
    exact bind0 (rd _ _) (fun n => lookupLoop _ fuel n) (by omega)
theorem lookupEntry (k : K) : Counts 0 (Index.lookupEntry k : JM (Index K V) _) := by
  unfold Index.lookupEntry
  exact bind0 (computeHead k) (fun h => bind0 (rd _ _) (fun e => bind0 get (fun s => lookupLoop _ _ _)
    (by omega)) (by omega)) (by omega)
theorem walk {f : Int → JM (Index K V) β} (hf : ∀ e, Counts 0 (f e)) :
    ∀ (fuel : Nat) (e : Int), Counts 0 (Index.walk f fuel e)
  | 0, e => throw _
  | fuel + 1, e => by
    unfold Index.walk
    exact ite (bind0 (rd _ _) (fun n => bind0 (hf e) (fun b => bind0 (walk hf fuel n) (fun bs => pure _)
      (by omega)) (by omega)) (by omega)) (pure _)
theorem scan {f : Int → JM (Index K V) β} (hf : ∀ e, Counts 0 (f e)) (hits : Int) :
    ∀ (fuel : Nat) (e i : Int), Counts 0 (Index.scan f hits fuel e i)
  | 0, e, i => throw _
  | fuel + 1, e, i => by
    unfold Index.scan
    exact bind0 get (fun s => ite (bind0 (rd _ _) (fun n => bind0 (walk hf _ _) (fun bs =>
      bind0 (scan hf hits fuel _ _) (fun r => pure _) (by omega)) (by omega)) (by omega)) (pure _)) (by omega)
theorem forEachWith {f : Int → JM (Index K V) β} (hf : ∀ e, Counts 0 (f e)) :
    Counts 0 (Index.forEachWith f) := by
  unfold Index.forEachWith
  exact bind0 get (fun s => ite (pure _) (scan hf _ _ _ _)) (by omega)
theorem freeReservedEntry (e : Int) : Counts 0 (Index.freeReservedEntry e : JM (Index K V) _) := by
  unfold Index.freeReservedEntry
  refine bind0 get (fun s => bind0 (wrNexts _ _) (fun _ => bind0 (modify fun _ => ⟨rfl, rfl⟩) (fun _ =>
    bind0 (wrKeys _ _) (fun _ => ?_) (by omega)) (by omega)) (by omega)) (by omega)
  exact wrValues _ _
theorem getHeadLoop : ∀ (fuel : Nat) (e : Int), Counts 0 (Index.getHeadLoop fuel e : JM (Index K V) _)
  | 0, e => throw _
  | fuel + 1, e => by
    unfold Index.getHeadLoop
    exact ite (bind0 (rd _ _) (fun n => getHeadLoop fuel n) (by omega)) (pure _)
theorem findEntryLoop (x : Int) : ∀ (fuel : Nat) (p e : Int),
    Counts 0 (Index.findEntryLoop x fuel p e : JM (Index K V) _)
  | 0, p, e => throw _
  | fuel + 1, p, e => by
    unfold Index.findEntryLoop
    exact ite (ite (pure _) (bind0 (rd _ _) (fun n => findEntryLoop x fuel _ n) (by omega))) (pure _)
theorem findKeyLoop (k : K) : ∀ (fuel : Nat) (p e : Int),
    Counts 0 (Index.findKeyLoop k fuel p e : JM (Index K V) _)
  | 0, p, e => throw _
  | fuel + 1, p, e => by
    unfold Index.findKeyLoop
    exact ite (bind0 (rd _ _) (fun k => bind0 get (fun s => ite (pure _)
      (bind0 (rd _ _) (fun n => findKeyLoop _ fuel _ n) (by omega))) (by omega)) (by omega)) (pure _)
theorem unlink (h p n : Int) : Counts 0 (Index.unlink h p n : JM (Index K V) _) := by
  unfold Index.unlink
  exact ite (wrHeads _ _) (wrNexts _ _)
theorem removeAt (e : Int) : Counts 1 (Index.removeAt e : JM (Index K V) _) := by
  unfold Index.removeAt
  refine bind0 get (fun s => bind0 (getHeadLoop _ _) (fun h => bind0 (rd _ _) (fun e' =>
    bind0 (findEntryLoop _ _ _ _) (fun f => ?_) (by omega)) (by omega)) (by omega)) (by omega)
  split
  · exact (pure _).mono (by omega)
  · exact bind0 (rd _ _) (fun n => bind0 (unlink _ _ _) (fun _ => bind0 (freeReservedEntry _) (fun _ =>
      resizedEnd (f := fun t => { t with size := t.size - 1 }) (fun _ => rfl)) (by omega)) (by omega)) (by omega)
theorem removeKey (k : K) (b : Bool) : Counts 1 (Index.removeKey k b : JM (Index K V) _) := by
  unfold Index.removeKey
  refine bind0 (computeHead _) (fun h => bind0 (rd _ _) (fun e => ite ((pure _).mono (by omega))
    (bind0 get (fun s => bind0 (findKeyLoop _ _ _ _) (fun f => ?_) (by omega)) (by omega))) (by omega)) (by omega)
  split
  · exact (pure _).mono (by omega)
  · refine bind0 (rd _ _) (fun n => bind0 (unlink _ _ _) (fun _ => ?_) (by omega)) (by omega)
    have last : ∀ x : Int, Counts 1 (do
        _root_.modify fun t => { t with size := t.size - 1 }
        Index.bumpMod
        Pure.pure x : JM (Index K V) Int) := fun x =>
      resized (f := fun t => { t with size := t.size - 1 }) (fun _ => rfl) (fun _ => Pure.pure x) (pure x)
    exact ite (bind0 (freeReservedEntry _) (fun _ => last _) (by omega))
      (bind0 (wrNexts _ _) (fun _ => last _) (by omega))
theorem allocateNewEntry : Counts 0 (Index.allocateNewEntry : JM (Index K V) _) := by
  unfold Index.allocateNewEntry
  refine bind0 get (fun s => ite (bind0 (rd _ _) (fun n => bind0 ?_ (fun _ => pure _) (by omega)) (by omega))
    (bind0 ?_ (fun _ => pure _) (by omega)))
    (by omega)
  · exact modify fun _ => ⟨rfl, rfl⟩
  · exact modify fun _ => ⟨rfl, rfl⟩
theorem register (h e : Int) : Counts 0 (registerNewEntryForHead h e : JM (Index K V) _) := by
  unfold registerNewEntryForHead
  refine bind0 (rd _ _) (fun x => ?_) (by omega)
  exact ite (bind0 (wrNexts _ _) (fun _ => wrHeads _ _) (by omega))
    (bind0 (wrNexts _ _) (fun _ => wrHeads _ _) (by omega))
theorem rehashChain (n : Arr Int) (ks : Arr K) : ∀ (fuel : Nat) (e : Int),
    Counts 0 (Index.rehashChain n ks fuel e : JM (Index K V) _)
  | 0, e => throw _
  | fuel + 1, e => by
    unfold Index.rehashChain
    exact ite (bind0 (rdA _ _) (fun k => bind0 (computeHead _) (fun h => bind0 (register _ _) (fun _ =>
      bind0 (updateMaxHead _) (fun _ => bind0 (rdA _ _) (fun m => rehashChain n ks fuel m) (by omega))
      (by omega)) (by omega)) (by omega)) (by omega)) (pure _)
theorem rehashHeads (h n : Arr Int) (ks : Arr K) : ∀ (fuel : Nat) (i : Int),
    Counts 0 (Index.rehashHeads h n ks fuel i : JM (Index K V) _)
  | 0, e => pure _
  | fuel + 1, e => by
    unfold Index.rehashHeads
    exact bind0 (rdA _ _) (fun k => bind0 (rehashChain _ _ _ _) (fun _ => rehashHeads h n ks fuel _)
      (by omega)) (by omega)
theorem rehash : Counts 1 (Index.rehash : JM (Index K V) _) := by
  unfold Index.rehash
  have q : (0 : Int) ≤ 1 := by omega
  exact bind0 get (fun old => bind0 calcNewCapacity (fun _ => bind0 get (fun s =>
    bind0 (newArr _ _) (fun _ => bind0 (modify fun _ => ⟨rfl, rfl⟩) (fun _ =>
    bind0 (newArr _ _) (fun _ => bind0 (modify fun _ => ⟨rfl, rfl⟩) (fun _ =>
    bind0 (ensureSize _ _ _) (fun _ => bind0 (modify fun _ => ⟨rfl, rfl⟩) (fun _ =>
    bind0 (ensureSize _ _ _) (fun _ => bind0 (modify fun _ => ⟨rfl, rfl⟩) (fun _ =>
    bind0 (modify fun _ => ⟨rfl, rfl⟩) (fun _ => bind0 (rehashHeads _ _ _ _ _) (fun _ => bumpMod) q) q) q) q) q)
    q) q) q) q) q) q) q) q
theorem baseAdd (k : K) : Counts 2 (Index.baseAdd k : JM (Index K V) _) := by
  unfold Index.baseAdd
  have q : (0 : Int) ≤ 2 := by omega
  refine bind0 (computeHead _) (fun h => bind0 (rd _ _) (fun e0 => bind0 get (fun s =>
    bind0 (lookupLoop _ _ _) (fun f => ite ((pure _).mono (by omega))
    (bind0 allocateNewEntry (fun e => bind0 get (fun s => ?_) q) q)) q) q) q) q
  have last : ∀ (h : Int), Counts 1 (do
      registerNewEntryForHead h e
      Index.wrKeys e k
      Index.updateMaxHead h
      _root_.modify fun t => { t with size := t.size + 1 }
      Index.bumpMod
      Pure.pure e : JM (Index K V) Int) := by
    intro h
    refine bind0 (register _ _) (fun _ => bind0 (wrKeys _ _) (fun _ => bind0 (updateMaxHead _) (fun _ =>
      ?_) (by omega)) (by omega)) (by omega)
    exact resized (f := fun t => { t with size := t.size + 1 }) (fun _ => rfl) (fun _ => Pure.pure e) (pure e)
  refine ite ?_ ?_
  · exact bind (n := 1) (m := 1) rehash (fun _ => bind0 (computeHead k) (fun h => last h) (by omega)) (by omega)
  · exact (bind0 (pure _) (fun h => last h) (by omega)).mono (by omega)
theorem add (k : K) : Counts 2 (Index.add k : JM (Index K V) _) := by
  unfold Index.add
  refine bind0 get (fun s => bind (n := 2) (m := 0) (baseAdd _) (fun e => bind0 get (fun s' =>
    bind0 (when (wrValues _ _) (by omega)) (fun _ => pure _) (by omega)) (by omega)) (by omega)) (by omega)
theorem setHash (f : K → BitVec 32) : Counts 0 (setHashMethod f : JM (Index K V) _) := by
  unfold setHashMethod
  exact bind0 get (fun s => ite (throw _) (modify fun _ => ⟨rfl, rfl⟩)) (by omega)
theorem setEq (f : K → K → Bool) : Counts 0 (setEqMethod f : JM (Index K V) _) := by
  unfold setEqMethod
  exact bind0 get (fun s => ite (throw _) (modify fun _ => ⟨rfl, rfl⟩)) (by omega)

/-- Every public call except `clear` moves the count by at most 2, and by at least 1 if it changes
the size. -/
theorem step {o : Op K V} (ho : o ≠ .clear) : Counts 2 (Index.step o) := by
  have q : (0 : Int) ≤ 2 := by omega
  have z : ∀ {α β : Type} {x : JM (Index K V) α} {f : α → β}, Counts 0 x → Counts 2 (do return f (← x)) :=
    fun h => (map h _).mono q
  cases o with
  | add k => exact map (add k) _
  | put k v =>
    refine map (bind (n := 2) (m := 0) (add k) (fun e => ?_) (by omega)) _
    exact bind0 (wrValues _ _) (fun _ => pure _) (by omega)
  | lookupEntry k => exact z (lookupEntry k)
  | containsKey k => exact z (bind0 (lookupEntry k) (fun _ => pure _) (by omega))
  | get k => exact z (bind0 (lookupEntry k) (fun _ => ite (throw _) (rd _ _)) (by omega))
  | getOrDefault k d => exact z (bind0 (lookupEntry k) (fun _ => ite (pure _) (rd _ _)) (by omega))
  | remove k => exact (map (removeKey k true) _).mono (by omega)
  | removeAt e => exact (map (removeAt e) _).mono (by omega)
  | removeAtAndReserve e =>
    refine (map (n := 1) (bind0 (rd _ _) (fun k => ?_) (by omega)) _).mono (by omega)
    exact map (removeKey k false) _
  | freeReservedEntry e => exact z (freeReservedEntry e)
  | getKeyAt e => exact z (rd _ _)
  | getValueAt e => exact z (rd _ _)
  | getValueAtOrDefault e d => exact z (bind0 get (fun s => ite (pure _) (rd _ _)) (by omega))
  | putValueAt e v => exact z (wrValues _ _)
  | size => exact z (map get _)
  | isEmpty => exact z (map get _)
  | capacity => exact z (map get _)
  | forEach => exact z (forEachWith fun e => rd _ _)
  | forEachEntry => exact z (forEachWith fun e => pure _)
  | forEachValue => exact z (forEachWith fun e => rd _ _)
  | clear => exact absurd rfl ho
  | setHashMethod f => exact z (setHash f)
  | setEqMethod f => exact z (setEq f)
end Counts

theorem moved_history (ops : List (Op K V)) : ∀ (s : Index K V), (∀ o ∈ ops, o ≠ .clear) →
    ∃ d, 0 ≤ d ∧ d ≤ 2 * (ops.length : Int) ∧
      ((final s ops).modificationCount - s.modificationCount - d) % 4294967296 = 0 ∧
      ((∃ pre o post, ops = pre ++ o :: post ∧ (final s (pre ++ [o])).size ≠ (final s pre).size) →
        1 ≤ d) := by
  induction ops with
  | nil => intro s _; exact ⟨0, by omega, by simp, by simp [final, runM], by simp⟩
  | cons o os ih =>
    intro s hc
    obtain ⟨d, h1, h2, h3, h4⟩ := Counts.step (hc o (by simp)) s
    obtain ⟨e, g1, g2, g3, g4⟩ := ih (Index.step o s).state (fun o ho => hc o (by simp [ho]))
    refine ⟨d + e, by omega, by simp only [List.length_cons]; omega, ?_, ?_⟩
    · show ((final (Index.step o s).state os).modificationCount - _ - _) % _ = 0
      omega
    · rintro ⟨pre, o', post, h5, h6⟩
      cases pre with
      | nil =>
        simp only [List.nil_append, List.cons.injEq] at h5
        obtain ⟨rfl, _⟩ := h5
        have := h4 h6
        omega
      | cons x pre =>
        simp only [List.cons_append, List.cons.injEq] at h5
        obtain ⟨rfl, h5⟩ := h5
        have := g4 ⟨pre, o', post, h5, h6⟩
        omega
end Index
end Verif

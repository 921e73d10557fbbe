import Verif.Proofs.Rekey
/-!
No operation other than those of the iterator looks at the modification count.
-/
set_option linter.unusedSectionVars false
namespace Verif
namespace Index
open IndexSpec
variable {K V : Type}

/-- The same table with another modification count. -/
def setMod (n : Int) (s : Index K V) : Index K V := { s with modificationCount := n }

/-- `m` does the same whatever the modification count is, except that it may leave another one. -/
def Blind {β : Type} (m : JM (Index K V) β) : Prop :=
  ∀ s n, ∃ n', m (setMod n s) = (m s).onState (setMod n')

namespace Blind
variable {α β : Type}

theorem of_commutes {m : JM (Index K V) α} (h : ∀ n, Commutes (setMod n) m) : Blind m :=
  fun s n => ⟨n, h n s⟩
theorem pure (a : α) : Blind (Pure.pure a : JM (Index K V) α) := fun _ n => ⟨n, rfl⟩
theorem throw (e : Err) : Blind (JM.throw e : JM (Index K V) α) := fun _ n => ⟨n, rfl⟩
theorem modify {f : Index K V → Index K V} (h : ∀ s n, ∃ n', f (setMod n s) = setMod n' (f s)) :
    Blind (_root_.modify f : JM (Index K V) PUnit) := by
  intro s n
  obtain ⟨n', h'⟩ := h s n
  refine ⟨n', ?_⟩
  show Res.ok () (f (setMod n s)) = Res.ok () (setMod n' (f s))
  rw [h']
theorem bind {m : JM (Index K V) α} {f : α → JM (Index K V) β} (h1 : Blind m) (h2 : ∀ a, Blind (f a)) :
    Blind (m >>= f) := by
  intro s n
  obtain ⟨n', h'⟩ := h1 s n
  simp only [JM.bind_apply]
  rw [h']
  cases h : m s with
  | ok a s' => exact h2 a s' n'
  | err e s' => exact ⟨n', rfl⟩
theorem get_bind {f : Index K V → JM (Index K V) β} (h1 : ∀ s n, f (setMod n s) = f s)
    (h2 : ∀ a, Blind (f a)) : Blind (MonadState.get >>= f) := by
  intro s n
  rw [JM.bind_ok (JM.get_apply _), JM.bind_ok (JM.get_apply _), h1]
  exact h2 s s n
theorem ite {c : Prop} [Decidable c] {m n : JM (Index K V) α} (h1 : Blind m) (h2 : Blind n) :
    Blind (if c then m else n) := by
  split
  · exact h1
  · exact h2
theorem when {c : Prop} [Decidable c] {m : JM (Index K V) Unit} (h : Blind m) : Blind (JM.when c m) :=
  ite h (pure ())
theorem rd {arr : Index K V → Arr α} (h : ∀ s n, arr (setMod n s) = arr s) (i : Int) :
    Blind (Verif.rd arr i) := of_commutes fun _ => .rd (fun _ => h _ _) i
theorem wr {arr : Index K V → Arr α} {put : Index K V → Arr α → Index K V}
    (h : ∀ s n, arr (setMod n s) = arr s) (hp : ∀ s n x, put (setMod n s) x = setMod n (put s x))
    (i : Int) (v : α) : Blind (Verif.wr arr put i v) :=
  of_commutes fun _ => .wr (fun _ => h _ _) (fun _ _ => hp _ _ _) i v
theorem fill (x : Arr α) (v : α) (i n : Int) : Blind (K := K) (V := V) (Verif.fill x v i n) :=
  of_commutes fun _ => .fill _ _ _ _
theorem newArr (n : Int) (d : α) : Blind (K := K) (V := V) (Verif.newArr n d) :=
  of_commutes fun _ => .newArr _ _
theorem rdA (x : Arr α) (i : Int) : Blind (K := K) (V := V) (Verif.rdA x i) := by
  refine of_commutes fun _ s => ?_
  show (if _ then _ else _) = Res.onState _ (if _ then _ else _)
  split <;> rfl
theorem grow (a b : Int) : Blind (K := K) (V := V) (Verif.grow a b) := by
  refine of_commutes fun _ s => ?_
  simp only [Verif.grow]
  split <;> rfl
theorem copyOf (x : Arr α) (n : Int) (d : α) : Blind (K := K) (V := V) (Verif.copyOf x n d) := by
  refine of_commutes fun _ s => ?_
  simp only [Verif.copyOf]
  split <;> rfl
theorem ensureSize (x : Arr α) (n : Int) (d : α) : Blind (K := K) (V := V) (Verif.ensureSize x n d) := by
  unfold Verif.ensureSize
  exact .ite (.bind (grow _ _) fun _ => copyOf _ _ _) (.pure _)
end Blind

/-- the proof that a field does not depend on the modification count -/
macro "blind" : tactic => `(tactic| first | (intros; rfl) | (intros; exact ⟨_, rfl⟩))

variable [Inhabited K] [Inhabited V]

theorem walk_blind {β : Type} {f : Int → JM (Index K V) β} (hf : ∀ e, Blind (f e)) :
    ∀ fuel e, Blind (walk f fuel e)
  | 0, _ => .throw _
  | fuel + 1, e => by
    unfold walk
    exact .ite (.bind (.rd (by blind) _) fun _ => .bind (hf _) fun _ =>
      .bind (walk_blind hf fuel _) fun _ => .pure _) (.pure _)

theorem scan_blind {β : Type} {f : Int → JM (Index K V) β} (hf : ∀ e, Blind (f e)) (n : Int) :
    ∀ fuel i k, Blind (scan f n fuel i k)
  | 0, _, _ => .throw _
  | fuel + 1, i, k => by
    unfold scan
    exact .get_bind (by blind) fun _ => .ite (.bind (.rd (by blind) _) fun _ =>
      .bind (walk_blind hf _ _) fun _ => .bind (scan_blind hf n fuel _ _) fun _ => .pure _) (.pure _)

theorem forEachWith_blind {β : Type} {f : Int → JM (Index K V) β} (hf : ∀ e, Blind (f e)) :
    Blind (forEachWith f) :=
  .get_bind (by blind) fun _ => .ite (.pure _) (scan_blind hf _ _ _ _)

theorem getHeadLoop_blind : ∀ fuel e, Blind (getHeadLoop (K := K) (V := V) fuel e)
  | 0, _ => .throw _
  | fuel + 1, e => by
    unfold getHeadLoop
    exact .ite (.bind (.rd (by blind) _) fun _ => getHeadLoop_blind fuel _) (.pure _)

theorem findEntryLoop_blind (x : Int) : ∀ fuel p e, Blind (findEntryLoop (K := K) (V := V) x fuel p e)
  | 0, _, _ => .throw _
  | fuel + 1, p, e => by
    unfold findEntryLoop
    exact .ite (.ite (.pure _) (.bind (.rd (by blind) _) fun _ => findEntryLoop_blind x fuel _ _)) (.pure _)

theorem lookupLoop_blind (k : K) : ∀ fuel e, Blind (lookupLoop (V := V) k fuel e)
  | 0, _ => .throw _
  | fuel + 1, e => by
    unfold lookupLoop
    exact .ite (.bind (.rd (by blind) _) fun _ => .get_bind (by blind) fun _ =>
      .ite (.pure _) (.bind (.rd (by blind) _) fun _ => lookupLoop_blind k fuel _)) (.pure _)

theorem findKeyLoop_blind (k : K) : ∀ fuel p e, Blind (findKeyLoop (V := V) k fuel p e)
  | 0, _, _ => .throw _
  | fuel + 1, p, e => by
    unfold findKeyLoop
    exact .ite (.bind (.rd (by blind) _) fun _ => .get_bind (by blind) fun _ =>
      .ite (.pure _) (.bind (.rd (by blind) _) fun _ => findKeyLoop_blind k fuel _ _)) (.pure _)

theorem wrHeads_blind (i v : Int) : Blind (wrHeads (K := K) (V := V) i v) := .wr (by blind) (by blind) _ _
theorem wrNexts_blind (i v : Int) : Blind (wrNexts (K := K) (V := V) i v) := .wr (by blind) (by blind) _ _
theorem wrKeys_blind (i : Int) (v : K) : Blind (wrKeys (V := V) i v) := .wr (by blind) (by blind) _ _
theorem wrValues_blind (i : Int) (v : V) : Blind (wrValues (K := K) i v) := .wr (by blind) (by blind) _ _
theorem bumpMod_blind : Blind (bumpMod (K := K) (V := V)) := .modify (by blind)
theorem updateMaxHead_blind (h : Int) : Blind (updateMaxHead (K := K) (V := V) h) := .modify (by blind)
theorem computeHead_blind (k : K) : Blind (computeHead (V := V) k) := .get_bind (by blind) fun _ => .pure _
theorem unlink_blind (h p n : Int) : Blind (unlink (K := K) (V := V) h p n) :=
  .ite (wrHeads_blind _ _) (wrNexts_blind _ _)

theorem lookupEntry_blind (k : K) : Blind (lookupEntry (V := V) k) :=
  .bind (computeHead_blind _) fun _ => .bind (.rd (by blind) _) fun _ => .get_bind (by blind) fun _ =>
    lookupLoop_blind _ _ _

theorem freeReservedEntry_blind (e : Int) : Blind (freeReservedEntry (K := K) (V := V) e) :=
  .get_bind (by blind) fun _ => .bind (wrNexts_blind _ _) fun _ => .bind (.modify (by blind)) fun _ =>
    .bind (wrKeys_blind _ _) fun _ => wrValues_blind _ _

theorem removeAt_blind (e : Int) : Blind (removeAt (K := K) (V := V) e) := by
  refine .get_bind (by blind) fun _ => .bind (getHeadLoop_blind _ _) fun _ =>
    .bind (.rd (by blind) _) fun _ => .bind (findEntryLoop_blind _ _ _ _) fun o => ?_
  cases o with
  | none => exact .pure _
  | some p =>
    exact .bind (.rd (by blind) _) fun _ => .bind (unlink_blind _ _ _) fun _ =>
      .bind (freeReservedEntry_blind _) fun _ => .bind (.modify (by blind)) fun _ => bumpMod_blind

theorem removeKey_blind (k : K) (free : Bool) : Blind (removeKey (V := V) k free) := by
  refine .bind (computeHead_blind _) fun _ => .bind (.rd (by blind) _) fun _ => .ite (.pure _) ?_
  refine .get_bind (by blind) fun _ => .bind (findKeyLoop_blind _ _ _ _) fun o => ?_
  cases o with
  | none => exact .pure _
  | some p =>
    obtain ⟨p, e⟩ := p
    exact .bind (.rd (by blind) _) fun _ => .bind (unlink_blind _ _ _) fun _ =>
      .ite (.bind (freeReservedEntry_blind _) fun _ =>
        .bind (.modify (by blind)) fun _ => .bind bumpMod_blind fun _ => .pure _)
      (.bind (wrNexts_blind _ _) fun _ =>
        .bind (.modify (by blind)) fun _ => .bind bumpMod_blind fun _ => .pure _)

theorem clear_blind : Blind (clear (K := K) (V := V)) :=
  .get_bind (by blind) fun _ => .bind (.when (
    .bind (.fill _ _ _ _) fun _ => .bind (.modify (by blind)) fun _ =>
    .bind (.fill _ _ _ _) fun _ => .bind (.modify (by blind)) fun _ =>
    .bind (.fill _ _ _ _) fun _ => .bind (.modify (by blind)) fun _ =>
    .bind (.fill _ _ _ _) fun _ => .bind (.modify (by blind)) fun _ => .modify (by blind))) fun _ =>
    .modify (by blind)

theorem allocateNewEntry_blind : Blind (allocateNewEntry (K := K) (V := V)) :=
  .get_bind (by blind) fun _ => .ite
    (.bind (.rd (by blind) _) fun _ => .bind (.modify (by blind)) fun _ => .pure _)
    (.bind (.modify (by blind)) fun _ => .pure _)

theorem register_blind (h e : Int) : Blind (registerNewEntryForHead (K := K) (V := V) h e) :=
  .bind (.rd (by blind) _) fun _ => .ite (.bind (wrNexts_blind _ _) fun _ => wrHeads_blind _ _)
    (.bind (wrNexts_blind _ _) fun _ => wrHeads_blind _ _)

theorem rehashChain_blind (n : Arr Int) (k : Arr K) : ∀ fuel e, Blind (rehashChain (V := V) n k fuel e)
  | 0, _ => .throw _
  | fuel + 1, e => by
    unfold rehashChain
    exact .ite (.bind (.rdA _ _) fun _ => .bind (computeHead_blind _) fun _ =>
      .bind (register_blind _ _) fun _ => .bind (updateMaxHead_blind _) fun _ =>
      .bind (.rdA _ _) fun _ => rehashChain_blind n k fuel _) (.pure _)

theorem rehashHeads_blind (h n : Arr Int) (k : Arr K) : ∀ m i, Blind (rehashHeads (V := V) h n k m i)
  | 0, _ => .pure _
  | m + 1, i => by
    unfold rehashHeads
    exact .bind (.rdA _ _) fun _ => .bind (rehashChain_blind _ _ _ _) fun _ => rehashHeads_blind h n k m _

theorem calculateNewCapacity_blind (c t : Int) :
    Blind (K := K) (V := V) (calculateNewCapacity c t) := by
  unfold calculateNewCapacity
  repeat' first | exact .ite (.throw _) (.pure _) | exact .pure _ | exact .throw _ | refine .ite ?_ ?_

theorem calcNewCapacity_blind : Blind (calcNewCapacity (K := K) (V := V)) :=
  .get_bind (by blind) fun _ => .bind (calculateNewCapacity_blind _ _) fun _ =>
    .ite (.modify (by blind)) (.modify (by blind))

theorem rehash_blind : Blind (rehash (K := K) (V := V)) :=
  .get_bind (by blind) fun _ => .bind calcNewCapacity_blind fun _ => .get_bind (by blind) fun _ =>
    .bind (.newArr _ _) fun _ => .bind (.modify (by blind)) fun _ =>
    .bind (.newArr _ _) fun _ => .bind (.modify (by blind)) fun _ =>
    .bind (.ensureSize _ _ _) fun _ => .bind (.modify (by blind)) fun _ =>
    .bind (.ensureSize _ _ _) fun _ => .bind (.modify (by blind)) fun _ =>
    .bind (.modify (by blind)) fun _ => .bind (rehashHeads_blind _ _ _ _ _) fun _ => bumpMod_blind

theorem baseAdd_blind (k : K) : Blind (baseAdd (V := V) k) :=
  have rest : ∀ head entry : Int, Blind (do
      registerNewEntryForHead (K := K) (V := V) head entry
      wrKeys entry k
      updateMaxHead head
      modify fun t => { t with size := t.size + 1 }
      bumpMod
      pure entry) := fun _ _ =>
    .bind (register_blind _ _) fun _ => .bind (wrKeys_blind _ _) fun _ =>
    .bind (updateMaxHead_blind _) fun _ => .bind (.modify (by blind)) fun _ =>
    .bind bumpMod_blind fun _ => .pure _
  .bind (computeHead_blind _) fun _ => .bind (.rd (by blind) _) fun _ => .get_bind (by blind) fun _ =>
    .bind (lookupLoop_blind _ _ _) fun _ => .ite (.pure _) (
    .bind allocateNewEntry_blind fun _ => .get_bind (by blind) fun _ =>
    .ite (.bind rehash_blind fun _ => .bind (computeHead_blind _) fun _ => rest _ _)
      (.bind (.pure _) fun _ => rest _ _))

theorem add_blind (k : K) : Blind (add (V := V) k) :=
  .get_bind (by blind) fun _ => .bind (baseAdd_blind _) fun _ => .get_bind (by blind) fun _ =>
    .bind (.when (wrValues_blind _ _)) fun _ => .pure _

/-- No operation looks at the modification count. -/
theorem step_blind (o : Op K V) : Blind (step o) := by
  cases o <;> simp only [step]
  · exact .bind (add_blind _) fun _ => .pure _
  · exact .bind (.bind (add_blind _) fun _ => .bind (wrValues_blind _ _) fun _ => .pure _) fun _ => .pure _
  · exact .bind (lookupEntry_blind _) fun _ => .pure _
  · exact .bind (.bind (lookupEntry_blind _) fun _ => .pure _) fun _ => .pure _
  · exact .bind (.bind (lookupEntry_blind _) fun _ => .ite (.throw _) (.rd (by blind) _)) fun _ => .pure _
  · exact .bind (.bind (lookupEntry_blind _) fun _ => .ite (.pure _) (.rd (by blind) _)) fun _ => .pure _
  · exact .bind (removeKey_blind _ _) fun _ => .pure _
  · exact .bind (removeAt_blind _) fun _ => .pure _
  · exact .bind (.bind (.rd (by blind) _) fun _ => .bind (removeKey_blind _ _) fun _ => .pure _) fun _ => .pure _
  · exact .bind (freeReservedEntry_blind _) fun _ => .pure _
  · exact .bind (.rd (by blind) _) fun _ => .pure _
  · exact .bind (.rd (by blind) _) fun _ => .pure _
  · exact .bind (.get_bind (by blind) fun _ => .ite (.pure _) (.rd (by blind) _)) fun _ => .pure _
  · exact .bind (wrValues_blind _ _) fun _ => .pure _
  · exact .bind (.get_bind (by blind) fun _ => .pure _) fun _ => .pure _
  · exact .bind (.get_bind (by blind) fun _ => .pure _) fun _ => .pure _
  · exact .bind (.get_bind (by blind) fun _ => .pure _) fun _ => .pure _
  · exact .bind (forEachWith_blind fun _ => .rd (by blind) _) fun _ => .pure _
  · exact .bind (forEachWith_blind fun _ => .pure _) fun _ => .pure _
  · exact .bind (forEachWith_blind fun _ => .rd (by blind) _) fun _ => .pure _
  · exact .bind clear_blind fun _ => .pure _
  · exact .bind (.get_bind (by blind) fun _ => .ite (.throw _) (.modify (by blind))) fun _ => .pure _
  · exact .bind (.get_bind (by blind) fun _ => .ite (.throw _) (.modify (by blind))) fun _ => .pure _

theorem runM_blind : ∀ (ops : List (Op K V)) (s : Index K V) (n : Int),
    (runM step (setMod n s) ops).1 = (runM step s ops).1
  | [], _, _ => rfl
  | o :: os, s, n => by
    obtain ⟨n', h⟩ := step_blind o s n
    simp only [runM]
    rw [h, Res.onState_out, Res.onState_state, runM_blind os]

end Index
end Verif

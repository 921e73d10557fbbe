import Verif.Proofs.Reach
import Verif.Proofs.Blind
/-! What can change the capacity of an indexed collection. -/
set_option linter.unusedSectionVars false
namespace Verif
open IndexSpec

/-- `m` leaves the state in the relation `R` to what it was. -/
def Moves {σ α : Type} (R : σ → σ → Prop) (m : JM σ α) : Prop := ∀ s, R s (m s).state

namespace Moves
variable {σ α β : Type} {R : σ → σ → Prop}

theorem bind (tr : ∀ {a b c}, R a b → R b c → R a c) {m : JM σ α} {f : α → JM σ β} (h1 : Moves R m)
    (h2 : ∀ a, Moves R (f a)) : Moves R (m >>= f) := by
  intro s
  have h := h1 s
  rw [JM.bind_apply]
  cases hm : m s with
  | ok a s' => rw [hm] at h; exact tr h (h2 a s')
  | err e s' => rw [hm] at h; exact h
theorem ite {c : Prop} [Decidable c] {m n : JM σ α} (h1 : Moves R m) (h2 : Moves R n) :
    Moves R (if c then m else n) := by
  split
  · exact h1
  · exact h2
end Moves

theorem jm_bind_inv {σ α β : Type} {m : JM σ α} {f : α → JM σ β} {s s2 : σ} {b : β}
    (h : (m >>= f) s = .ok b s2) : ∃ a s1, m s = .ok a s1 ∧ f a s1 = .ok b s2 := by
  rw [JM.bind_apply] at h
  cases hm : m s with
  | ok a s1 => rw [hm] at h; exact ⟨a, s1, rfl, h⟩
  | err e s1 => rw [hm] at h; cases h

namespace Index
variable {K V : Type} [Inhabited K] [Inhabited V]

/-- Capacity, threshold and load factor are the same. -/
def SameCap (s t : Index K V) : Prop :=
  t.capacity = s.capacity ∧ t.capThreshold = s.capThreshold ∧ t.lfNum = s.lfNum ∧ t.lfDen = s.lfDen

theorem SameCap.refl (s : Index K V) : SameCap s s := ⟨rfl, rfl, rfl, rfl⟩
theorem SameCap.trans {s t u : Index K V} (h : SameCap s t) (h' : SameCap t u) : SameCap s u :=
  ⟨h'.1.trans h.1, h'.2.1.trans h.2.1, h'.2.2.1.trans h.2.2.1, h'.2.2.2.trans h.2.2.2⟩

/-- `m` does not change the capacity. -/
abbrev KeepsCap {β : Type} (m : JM (Index K V) β) : Prop := Moves SameCap m

namespace KeepsCap
variable {α β : Type}

theorem pure (a : α) : KeepsCap (Pure.pure a : JM (Index K V) α) := fun s => .refl s
theorem throw (e : Err) : KeepsCap (JM.throw e : JM (Index K V) α) := fun s => .refl s
theorem modify {f : Index K V → Index K V} (h : ∀ s, SameCap s (f s)) :
    KeepsCap (_root_.modify f : JM (Index K V) PUnit) := h
theorem bind {m : JM (Index K V) α} {f : α → JM (Index K V) β} (h1 : KeepsCap m)
    (h2 : ∀ a, KeepsCap (f a)) : KeepsCap (m >>= f) := Moves.bind (fun h h' => h.trans h') h1 h2
theorem get_bind {f : Index K V → JM (Index K V) β} (h2 : ∀ a, KeepsCap (f a)) :
    KeepsCap (MonadState.get >>= f) := bind (fun s => .refl s) h2
theorem ite {c : Prop} [Decidable c] {m n : JM (Index K V) α} (h1 : KeepsCap m) (h2 : KeepsCap n) :
    KeepsCap (if c then m else n) := Moves.ite h1 h2
theorem when {c : Prop} [Decidable c] {m : JM (Index K V) Unit} (h : KeepsCap m) :
    KeepsCap (JM.when c m) := ite h (pure ())
theorem rd {arr : Index K V → Arr α} (i : Int) : KeepsCap (Verif.rd arr i) := by
  intro s
  simp only [Verif.rd]
  split <;> exact .refl s
theorem wr {arr : Index K V → Arr α} {put : Index K V → Arr α → Index K V}
    (hp : ∀ s x, SameCap s (put s x)) (i : Int) (v : α) : KeepsCap (Verif.wr arr put i v) := by
  intro s
  simp only [Verif.wr]
  split
  · exact hp _ _
  · exact .refl s
theorem fill (x : Arr α) (v : α) (i n : Int) : KeepsCap (K := K) (V := V) (Verif.fill x v i n) := by
  intro s
  simp only [Verif.fill]
  split
  · exact .refl s
  · split <;> exact .refl s
theorem newArr (n : Int) (d : α) : KeepsCap (K := K) (V := V) (Verif.newArr n d) := by
  intro s
  simp only [Verif.newArr]
  split <;> exact .refl s
theorem rdA (x : Arr α) (i : Int) : KeepsCap (K := K) (V := V) (Verif.rdA x i) := by
  intro s
  simp only [Verif.rdA]
  split <;> exact .refl s
theorem ensureSize (x : Arr α) (n : Int) (d : α) :
    KeepsCap (K := K) (V := V) (Verif.ensureSize x n d) := by
  unfold Verif.ensureSize
  refine .ite (.bind ?_ fun _ => ?_) (.pure _)
  · intro s
    simp only [Verif.grow]
    split <;> exact .refl s
  · intro s
    simp only [Verif.copyOf]
    split <;> exact .refl s
end KeepsCap

theorem KeepsCap.ok {β : Type} {m : JM (Index K V) β} {s s' : Index K V} {b : β} (h : m s = .ok b s')
    (hk : KeepsCap m) : SameCap s s' := by
  have := hk s
  rw [h] at this
  exact this

/-- the proof that a change does not concern the capacity -/
macro "cap" : tactic => `(tactic| (intros; exact ⟨rfl, rfl, rfl, rfl⟩))

theorem walk_cap {β : Type} {f : Int → JM (Index K V) β} (hf : ∀ e, KeepsCap (f e)) :
    ∀ fuel e, KeepsCap (walk f fuel e)
  | 0, _ => .throw _
  | fuel + 1, e => by
    unfold walk
    exact .ite (.bind (.rd _) fun _ => .bind (hf _) fun _ => .bind (walk_cap hf fuel _) fun _ => .pure _)
      (.pure _)

theorem scan_cap {β : Type} {f : Int → JM (Index K V) β} (hf : ∀ e, KeepsCap (f e)) (n : Int) :
    ∀ fuel i k, KeepsCap (scan f n fuel i k)
  | 0, _, _ => .throw _
  | fuel + 1, i, k => by
    unfold scan
    exact .get_bind fun _ => .ite (.bind (.rd _) fun _ =>
      .bind (walk_cap hf _ _) fun _ => .bind (scan_cap hf n fuel _ _) fun _ => .pure _) (.pure _)

theorem forEachWith_cap {β : Type} {f : Int → JM (Index K V) β} (hf : ∀ e, KeepsCap (f e)) :
    KeepsCap (forEachWith f) := .get_bind fun _ => .ite (.pure _) (scan_cap hf _ _ _ _)

theorem getHeadLoop_cap : ∀ fuel e, KeepsCap (getHeadLoop (K := K) (V := V) fuel e)
  | 0, _ => .throw _
  | fuel + 1, e => by
    unfold getHeadLoop
    exact .ite (.bind (.rd _) fun _ => getHeadLoop_cap fuel _) (.pure _)

theorem findEntryLoop_cap (x : Int) : ∀ fuel p e, KeepsCap (findEntryLoop (K := K) (V := V) x fuel p e)
  | 0, _, _ => .throw _
  | fuel + 1, p, e => by
    unfold findEntryLoop
    exact .ite (.ite (.pure _) (.bind (.rd _) fun _ => findEntryLoop_cap x fuel _ _)) (.pure _)

theorem lookupLoop_cap (k : K) : ∀ fuel e, KeepsCap (lookupLoop (V := V) k fuel e)
  | 0, _ => .throw _
  | fuel + 1, e => by
    unfold lookupLoop
    exact .ite (.bind (.rd _) fun _ => .get_bind fun _ =>
      .ite (.pure _) (.bind (.rd _) fun _ => lookupLoop_cap k fuel _)) (.pure _)

theorem findKeyLoop_cap (k : K) : ∀ fuel p e, KeepsCap (findKeyLoop (V := V) k fuel p e)
  | 0, _, _ => .throw _
  | fuel + 1, p, e => by
    unfold findKeyLoop
    exact .ite (.bind (.rd _) fun _ => .get_bind fun _ =>
      .ite (.pure _) (.bind (.rd _) fun _ => findKeyLoop_cap k fuel _ _)) (.pure _)

theorem wrHeads_cap (i v : Int) : KeepsCap (wrHeads (K := K) (V := V) i v) := .wr (by cap) _ _
theorem wrNexts_cap (i v : Int) : KeepsCap (wrNexts (K := K) (V := V) i v) := .wr (by cap) _ _
theorem wrKeys_cap (i : Int) (v : K) : KeepsCap (wrKeys (V := V) i v) := .wr (by cap) _ _
theorem wrValues_cap (i : Int) (v : V) : KeepsCap (wrValues (K := K) i v) := .wr (by cap) _ _
theorem bumpMod_cap : KeepsCap (bumpMod (K := K) (V := V)) := .modify (by cap)
theorem updateMaxHead_cap (h : Int) : KeepsCap (updateMaxHead (K := K) (V := V) h) := .modify (by cap)
theorem computeHead_cap (k : K) : KeepsCap (computeHead (V := V) k) := .get_bind fun _ => .pure _
theorem unlink_cap (h p n : Int) : KeepsCap (unlink (K := K) (V := V) h p n) :=
  .ite (wrHeads_cap _ _) (wrNexts_cap _ _)

theorem lookupEntry_cap (k : K) : KeepsCap (lookupEntry (V := V) k) :=
  .bind (computeHead_cap _) fun _ => .bind (.rd _) fun _ => .get_bind fun _ => lookupLoop_cap _ _ _

theorem freeReservedEntry_cap (e : Int) : KeepsCap (freeReservedEntry (K := K) (V := V) e) :=
  .get_bind fun _ => .bind (wrNexts_cap _ _) fun _ => .bind (.modify (by cap)) fun _ =>
    .bind (wrKeys_cap _ _) fun _ => wrValues_cap _ _

theorem removeAt_cap (e : Int) : KeepsCap (removeAt (K := K) (V := V) e) := by
  refine .get_bind fun _ => .bind (getHeadLoop_cap _ _) fun _ =>
    .bind (.rd _) fun _ => .bind (findEntryLoop_cap _ _ _ _) fun o => ?_
  cases o with
  | none => exact .pure _
  | some p =>
    exact .bind (.rd _) fun _ => .bind (unlink_cap _ _ _) fun _ =>
      .bind (freeReservedEntry_cap _) fun _ => .bind (.modify (by cap)) fun _ => bumpMod_cap

theorem removeKey_cap (k : K) (free : Bool) : KeepsCap (removeKey (V := V) k free) := by
  refine .bind (computeHead_cap _) fun _ => .bind (.rd _) fun _ => .ite (.pure _) ?_
  refine .get_bind fun _ => .bind (findKeyLoop_cap _ _ _ _) fun o => ?_
  cases o with
  | none => exact .pure _
  | some p =>
    obtain ⟨p, e⟩ := p
    exact .bind (.rd _) fun _ => .bind (unlink_cap _ _ _) fun _ =>
      .ite (.bind (freeReservedEntry_cap _) fun _ =>
        .bind (.modify (by cap)) fun _ => .bind bumpMod_cap fun _ => .pure _)
      (.bind (wrNexts_cap _ _) fun _ =>
        .bind (.modify (by cap)) fun _ => .bind bumpMod_cap fun _ => .pure _)

theorem clear_cap : KeepsCap (clear (K := K) (V := V)) :=
  .get_bind fun _ => .bind (.when (
    .bind (.fill _ _ _ _) fun _ => .bind (.modify (by cap)) fun _ =>
    .bind (.fill _ _ _ _) fun _ => .bind (.modify (by cap)) fun _ =>
    .bind (.fill _ _ _ _) fun _ => .bind (.modify (by cap)) fun _ =>
    .bind (.fill _ _ _ _) fun _ => .bind (.modify (by cap)) fun _ => .modify (by cap))) fun _ =>
    .modify (by cap)

theorem allocateNewEntry_cap : KeepsCap (allocateNewEntry (K := K) (V := V)) :=
  .get_bind fun _ => .ite
    (.bind (.rd _) fun _ => .bind (.modify (by cap)) fun _ => .pure _)
    (.bind (.modify (by cap)) fun _ => .pure _)

theorem register_cap (h e : Int) : KeepsCap (registerNewEntryForHead (K := K) (V := V) h e) :=
  .bind (.rd _) fun _ => .ite (.bind (wrNexts_cap _ _) fun _ => wrHeads_cap _ _)
    (.bind (wrNexts_cap _ _) fun _ => wrHeads_cap _ _)

theorem rehashChain_cap (n : Arr Int) (k : Arr K) : ∀ fuel e, KeepsCap (rehashChain (V := V) n k fuel e)
  | 0, _ => .throw _
  | fuel + 1, e => by
    unfold rehashChain
    exact .ite (.bind (.rdA _ _) fun _ => .bind (computeHead_cap _) fun _ =>
      .bind (register_cap _ _) fun _ => .bind (updateMaxHead_cap _) fun _ =>
      .bind (.rdA _ _) fun _ => rehashChain_cap n k fuel _) (.pure _)

theorem rehashHeads_cap (h n : Arr Int) (k : Arr K) : ∀ m i, KeepsCap (rehashHeads (V := V) h n k m i)
  | 0, _ => .pure _
  | m + 1, i => by
    unfold rehashHeads
    exact .bind (.rdA _ _) fun _ => .bind (rehashChain_cap _ _ _ _) fun _ => rehashHeads_cap h n k m _

/-- The capacity did not shrink and at most doubled. -/
def Doubled (s t : Index K V) : Prop :=
  s.capacity ≤ t.capacity ∧ t.capacity ≤ 2 * s.capacity ∧ t.lfNum = s.lfNum ∧ t.lfDen = s.lfDen

theorem calcNewCapacity_doubled {s s' : Index K V} (h1 : 1 ≤ s.capacity ∧ s.capacity ≤ 2 ^ 29)
    (h : calcNewCapacity s = .ok () s') : Doubled s s' := by
  have e29 := pow2_29
  unfold calcNewCapacity at h
  rw [JM.bind_ok (JM.get_apply _)] at h
  obtain ⟨c, s1, hc, h⟩ := jm_bind_inv h
  have hcs : s1 = s ∧ s.capacity ≤ c ∧ c ≤ 2 * s.capacity := by
    unfold calculateNewCapacity at hc
    rw [show MAX_CAPACITY = 536870912 by decide] at hc
    split at hc
    · split at hc
      · cases hc
      · injection hc with e1 e2; subst e1 e2
        exact ⟨rfl, by omega, by omega⟩
    · simp only at hc
      have hsh : shl32 s.capacity 1 = 2 * s.capacity := by
        unfold shl32 i32
        rw [show ((2 ^ ((1 : Int) % 32).toNat : Nat) : Int) = 2 by decide]
        omega
      rw [hsh] at hc
      split at hc
      · cases hc
      · injection hc with e1 e2; subst e1 e2
        exact ⟨rfl, by omega, by omega⟩
  obtain ⟨rfl, h2, h3⟩ := hcs
  split at h
  · injection h with _ h; subst h
    exact ⟨by simp only; omega, by simp only; omega, rfl, rfl⟩
  · injection h with _ h; subst h
    exact ⟨by simp only; omega, by simp only; omega, rfl, rfl⟩

theorem rehash_doubled {s s' : Index K V} (h1 : 1 ≤ s.capacity ∧ s.capacity ≤ 2 ^ 29)
    (h : rehash s = .ok () s') : Doubled s s' := by
  unfold rehash at h
  rw [JM.bind_ok (JM.get_apply _)] at h
  obtain ⟨_, s1, hc, h⟩ := jm_bind_inv h
  have hd := calcNewCapacity_doubled h1 hc
  have hs : SameCap s1 s' := by
    refine KeepsCap.ok h ?_
    exact .get_bind fun _ =>
      .bind (.newArr _ _) fun _ => .bind (.modify (by cap)) fun _ =>
      .bind (.newArr _ _) fun _ => .bind (.modify (by cap)) fun _ =>
      .bind (.ensureSize _ _ _) fun _ => .bind (.modify (by cap)) fun _ =>
      .bind (.ensureSize _ _ _) fun _ => .bind (.modify (by cap)) fun _ =>
      .bind (.modify (by cap)) fun _ => .bind (rehashHeads_cap _ _ _ _ _) fun _ => bumpMod_cap
  exact ⟨by rw [hs.1]; exact hd.1, by rw [hs.1]; exact hd.2.1, hs.2.2.1.trans hd.2.2.1,
    hs.2.2.2.trans hd.2.2.2⟩

/-- What `add` does to the capacity: nothing, or it doubles it because the entry handed out has reached
the threshold. -/
def Stretched (s t : Index K V) (e : Int) : Prop :=
  SameCap s t ∨ (Doubled s t ∧ s.capThreshold ≤ e)

theorem baseAdd_stretched {s s' : Index K V} {k : K} {e : Int}
    (h1 : 1 ≤ s.capacity ∧ s.capacity ≤ 2 ^ 29) (h : baseAdd k s = .ok e s') : Stretched s s' e := by
  unfold baseAdd at h
  obtain ⟨hd, s1, h2, h⟩ := jm_bind_inv h
  have c1 := KeepsCap.ok h2 (computeHead_cap _)
  obtain ⟨e0, s2, h3, h⟩ := jm_bind_inv h
  have c2 := c1.trans (KeepsCap.ok h3 (.rd _))
  rw [JM.bind_ok (JM.get_apply _)] at h
  obtain ⟨fd, s3, h4, h⟩ := jm_bind_inv h
  have c3 := c2.trans (KeepsCap.ok h4 (lookupLoop_cap _ _ _))
  split at h
  · injection h with _ h; subst h
    exact .inl c3
  · obtain ⟨en, s4, h5, h⟩ := jm_bind_inv h
    have c4 := c3.trans (KeepsCap.ok h5 allocateNewEntry_cap)
    rw [JM.bind_ok (JM.get_apply _)] at h
    have tail : ∀ (head en : Int) {s5 : Index K V}, (do
        registerNewEntryForHead head en
        wrKeys en k
        updateMaxHead head
        modify fun t : Index K V => { t with size := t.size + 1 }
        bumpMod
        pure en : JM (Index K V) Int) s5 = .ok e s' → SameCap s5 s' ∧ en = e := by
      intro head en s5 h
      obtain ⟨_, t1, g1, h⟩ := jm_bind_inv h
      obtain ⟨_, t2, g2, h⟩ := jm_bind_inv h
      obtain ⟨_, t3, g3, h⟩ := jm_bind_inv h
      obtain ⟨_, t4, g4, h⟩ := jm_bind_inv h
      obtain ⟨_, t5, g5, h⟩ := jm_bind_inv h
      injection h with e1 e2; subst e1 e2
      exact ⟨((((KeepsCap.ok g1 (register_cap _ _)).trans (KeepsCap.ok g2 (wrKeys_cap _ _))).trans
        (KeepsCap.ok g3 (updateMaxHead_cap _))).trans (KeepsCap.ok g4 (.modify (by cap)))).trans
        (KeepsCap.ok g5 bumpMod_cap), rfl⟩
    split at h
    · rename_i hge
      obtain ⟨_, s5, h6, h⟩ := jm_bind_inv h
      obtain ⟨hd', s6, h7, h⟩ := jm_bind_inv h
      obtain ⟨c5, rfl⟩ := tail _ _ h
      have c6 := (KeepsCap.ok h7 (computeHead_cap _)).trans c5
      have hdb := rehash_doubled (by rw [c4.1]; exact h1) h6
      right
      refine ⟨⟨?_, ?_, ?_, ?_⟩, ?_⟩
      · rw [c6.1, ← c4.1]; exact hdb.1
      · rw [c6.1, ← c4.1]; exact hdb.2.1
      · rw [c6.2.2.1, hdb.2.2.1, c4.2.2.1]
      · rw [c6.2.2.2, hdb.2.2.2, c4.2.2.2]
      · rw [← c4.2.1]; exact hge
    · obtain ⟨hd', s6, h7, h⟩ := jm_bind_inv h
      obtain ⟨c5, rfl⟩ := tail _ _ h
      exact .inl ((c4.trans (KeepsCap.ok h7 (.pure _))).trans c5)

theorem Stretched.same {s t u : Index K V} {e : Int} (h : Stretched s t e) (h' : SameCap t u) :
    Stretched s u e := by
  rcases h with h | ⟨h, h2⟩
  · exact .inl (h.trans h')
  · exact .inr ⟨⟨by rw [h'.1]; exact h.1, by rw [h'.1]; exact h.2.1, h'.2.2.1.trans h.2.2.1,
      h'.2.2.2.trans h.2.2.2⟩, h2⟩

theorem add_stretched {s s' : Index K V} {k : K} {e : Int}
    (h1 : 1 ≤ s.capacity ∧ s.capacity ≤ 2 ^ 29) (h : add k s = .ok e s') : Stretched s s' e := by
  unfold add at h
  rw [JM.bind_ok (JM.get_apply _)] at h
  obtain ⟨en, s1, h2, h⟩ := jm_bind_inv h
  rw [JM.bind_ok (JM.get_apply _)] at h
  obtain ⟨_, s2, h3, h⟩ := jm_bind_inv h
  injection h with e1 e2; subst e1 e2
  exact (baseAdd_stretched h1 h2).same (KeepsCap.ok h3 (.when (wrValues_cap _ _)))

theorem put_stretched {s s' : Index K V} {k : K} {v : V} {e : Int}
    (h1 : 1 ≤ s.capacity ∧ s.capacity ≤ 2 ^ 29) (h : put k v s = .ok e s') : Stretched s s' e := by
  unfold put at h
  obtain ⟨en, s1, h2, h⟩ := jm_bind_inv h
  obtain ⟨_, s2, h3, h⟩ := jm_bind_inv h
  injection h with e1 e2; subst e1 e2
  exact (add_stretched h1 h2).same (KeepsCap.ok h3 (wrValues_cap _ _))

/-- A call changes the capacity only if it is an `add` or `put` that hands out an entry at the
threshold. -/
theorem step_cap {tight : Prop} {s : Index K V} {a : Abs K V} {F : List Int} (hI : Inv tight s a F)
    (o : Op K V) (hg : Guard o a) :
    SameCap s (step o s).state ∨ (Doubled s (step o s).state ∧
      s.capThreshold < (after o (step o s).out a).next) := by
  have hspec := step_spec hI o hg
  have addLike : ∀ (m : JM (Index K V) Int) (e : Int) (s' : Index K V), m s = .ok e s' →
      step o s = .ok (.int e) s' → Stretched s s' e →
      (∀ a' F', Inv tight s' a' F' → a' = after o (step o s).out a → e < a'.next) →
      SameCap s (step o s).state ∨ (Doubled s (step o s).state ∧
        s.capThreshold < (after o (step o s).out a).next) := by
    intro m e s' h1 h2 h3 h4
    obtain ⟨F', hF'⟩ := hspec.2.2
    have h5 := h4 _ _ (by rw [h2] at hF'; rw [h2]; exact hF') rfl
    rw [h2] at h5 ⊢
    rcases h3 with h3 | ⟨h3, h6⟩
    · exact .inl h3
    · exact .inr ⟨h3, by simp only [Res.out_ok] at h5 ⊢; omega⟩
  cases o with
  | add k =>
    cases hf : a.find k with
    | some r =>
      left
      simp only [step]
      rw [JM.bind_ok (add_present hI hf)]
      exact .refl _
    | none =>
      obtain ⟨e, s', F', h1, h2, _⟩ := add_absent hI hf hg.1 hg.2
      refine addLike (add k) e s' h1 (by simp only [step]; rw [JM.bind_ok h1]; rfl)
        (add_stretched hI.cap_pos h1) ?_
      intro a' F'' hI' ha'
      simp only [step] at ha'
      rw [JM.bind_ok h1] at ha'
      simp only [after, hf, JM.pure_apply, Res.out_ok] at ha'
      subst ha'
      simp only [Abs.insert]; omega
  | put k v =>
    cases hf : a.find k with
    | some r =>
      left
      simp only [step]
      rw [JM.bind_ok (put_present hI hf v).1]
      exact ⟨rfl, rfl, rfl, rfl⟩
    | none =>
      obtain ⟨e, s', F', h1, h2, h3, _⟩ := add_absent hI hf hg.1 hg.2
      have h3 := h3 v
      refine addLike (put k v) e _ h3 (by simp only [step]; rw [JM.bind_ok h3]; rfl)
        (put_stretched hI.cap_pos h3) ?_
      intro a' F'' hI' ha'
      simp only [step] at ha'
      rw [JM.bind_ok h3] at ha'
      simp only [after, hf, JM.pure_apply, Res.out_ok] at ha'
      subst ha'
      simp only [Abs.insert]; omega
  | lookupEntry k => exact .inl (KeepsCap.bind (lookupEntry_cap k) (fun _ => .pure _) s)
  | containsKey k =>
    exact .inl (KeepsCap.bind (.bind (lookupEntry_cap k) fun _ => .pure _) (fun _ => .pure _) s)
  | get k =>
    exact .inl (KeepsCap.bind (.bind (lookupEntry_cap k) fun _ => .ite (.throw _) (.rd _)) (fun _ => .pure _) s)
  | getOrDefault k d =>
    exact .inl (KeepsCap.bind (.bind (lookupEntry_cap k) fun _ => .ite (.pure _) (.rd _)) (fun _ => .pure _) s)
  | remove k => exact .inl (KeepsCap.bind (removeKey_cap _ _) (fun _ => .pure _) s)
  | removeAt e => exact .inl (KeepsCap.bind (removeAt_cap _) (fun _ => .pure _) s)
  | removeAtAndReserve e =>
    exact .inl (KeepsCap.bind (.bind (.rd _) fun _ => .bind (removeKey_cap _ _) fun _ => .pure _)
      (fun _ => .pure _) s)
  | freeReservedEntry e => exact .inl (KeepsCap.bind (freeReservedEntry_cap _) (fun _ => .pure _) s)
  | getKeyAt e => exact .inl (KeepsCap.bind (.rd _) (fun _ => .pure _) s)
  | getValueAt e => exact .inl (KeepsCap.bind (.rd _) (fun _ => .pure _) s)
  | getValueAtOrDefault e d =>
    exact .inl (KeepsCap.bind (.get_bind fun _ => .ite (.pure _) (.rd _)) (fun _ => .pure _) s)
  | putValueAt e v => exact .inl (KeepsCap.bind (wrValues_cap _ _) (fun _ => .pure _) s)
  | size => exact .inl (.refl _)
  | isEmpty => exact .inl (.refl _)
  | capacity => exact .inl (.refl _)
  | forEach => exact .inl (KeepsCap.bind (forEachWith_cap fun _ => .rd _) (fun _ => .pure _) s)
  | forEachEntry => exact .inl (KeepsCap.bind (forEachWith_cap fun _ => .pure _) (fun _ => .pure _) s)
  | forEachValue => exact .inl (KeepsCap.bind (forEachWith_cap fun _ => .rd _) (fun _ => .pure _) s)
  | clear => exact .inl (KeepsCap.bind clear_cap (fun _ => .pure _) s)
  | setHashMethod h =>
    exact .inl (KeepsCap.bind (.get_bind fun _ => .ite (.throw _) (.modify (by cap))) (fun _ => .pure _) s)
  | setEqMethod q =>
    exact .inl (KeepsCap.bind (.get_bind fun _ => .ite (.throw _) (.modify (by cap))) (fun _ => .pure _) s)

end Index
end Verif

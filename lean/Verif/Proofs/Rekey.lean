import Verif.Proofs.Reach
/-!
The operations that take no key do not look at the hash and equality functions.
-/
namespace Verif
open IndexSpec

/-- Change the state in a result. -/
def Res.onState {σ α : Type} (g : σ → σ) : Res σ α → Res σ α
  | .ok a s => .ok a (g s)
  | .err e s => .err e (g s)

theorem Res.onState_out {σ α : Type} (g : σ → σ) (r : Res σ α) : (r.onState g).out = r.out := by
  cases r <;> rfl
theorem Res.onState_state {σ α : Type} (g : σ → σ) (r : Res σ α) :
    (r.onState g).state = g r.state := by
  cases r <;> rfl

/-- `m` does the same whether `g` is applied before or after. -/
def Commutes {σ α : Type} (g : σ → σ) (m : JM σ α) : Prop := ∀ s, m (g s) = (m s).onState g

namespace Commutes
variable {σ α β : Type} {g : σ → σ}

theorem pure (a : α) : Commutes g (Pure.pure a : JM σ α) := fun _ => rfl
theorem throw (e : Err) : Commutes g (JM.throw e : JM σ α) := fun _ => rfl
theorem modify {f : σ → σ} (h : ∀ s, f (g s) = g (f s)) : Commutes g (_root_.modify f : JM σ PUnit) := by
  intro s
  show Res.ok () (f (g s)) = Res.ok () (g (f s))
  rw [h]
theorem bind {m : JM σ α} {f : α → JM σ β} (h1 : Commutes g m) (h2 : ∀ a, Commutes g (f a)) :
    Commutes g (m >>= f) := by
  intro s
  rw [JM.bind_apply, JM.bind_apply, h1 s]
  cases h : m s with
  | ok a s' => exact h2 a s'
  | err e s' => rfl
theorem get_bind {f : σ → JM σ β} (h1 : ∀ s, f (g s) = f s) (h2 : ∀ a, Commutes g (f a)) :
    Commutes g (MonadState.get >>= f) := by
  intro s
  rw [JM.bind_ok (JM.get_apply _), JM.bind_ok (JM.get_apply _), h1]
  exact h2 s s
theorem ite {c : Prop} [Decidable c] {m n : JM σ α} (h1 : Commutes g m) (h2 : Commutes g n) :
    Commutes g (if c then m else n) := by
  split
  · exact h1
  · exact h2
theorem when {c : Prop} [Decidable c] {m : JM σ Unit} (h : Commutes g m) : Commutes g (JM.when c m) :=
  ite h (pure ())
theorem rd {arr : σ → Arr α} (h : ∀ s, arr (g s) = arr s) (i : Int) : Commutes g (Verif.rd arr i) := by
  intro s
  show (if _ then _ else _) = Res.onState g (if _ then _ else _)
  rw [h]
  split <;> rfl
theorem wr {arr : σ → Arr α} {put : σ → Arr α → σ} (h : ∀ s, arr (g s) = arr s)
    (hp : ∀ s x, put (g s) x = g (put s x)) (i : Int) (v : α) : Commutes g (Verif.wr arr put i v) := by
  intro s
  show (if _ then _ else _) = Res.onState g (if _ then _ else _)
  rw [h]
  split
  · rw [hp]; rfl
  · rfl
theorem fill (x : Arr α) (v : α) (i n : Int) : Commutes g (Verif.fill x v i n) := by
  intro s
  show (if _ then _ else _) = Res.onState g (if _ then _ else _)
  split
  · rfl
  · split <;> rfl
theorem newArr (n : Int) (d : α) : Commutes g (Verif.newArr n d) := by
  intro s
  show (if _ then _ else _) = Res.onState g (if _ then _ else _)
  split <;> rfl
theorem arraycopy (src : Arr α) (sp : Int) (dst : Arr α) (dp n : Int) :
    Commutes g (Verif.arraycopy src sp dst dp n) := by
  intro s
  show (if _ then _ else _) = Res.onState g (if _ then _ else _)
  split <;> rfl
end Commutes

namespace Index
variable {K V : Type} [Inhabited K] [Inhabited V]

/-- The same table with other functions. -/
def rekey (h : K → BitVec 32) (q : K → K → Bool) (s : Index K V) : Index K V :=
  { s with hashFunc := h, equalFunc := q }

variable {h : K → BitVec 32} {q : K → K → Bool}

theorem walk_rekey {β : Type} {f : Int → JM (Index K V) β} (hf : ∀ e, Commutes (rekey h q) (f e)) :
    ∀ fuel e, Commutes (rekey h q) (walk f fuel e)
  | 0, _ => Commutes.throw _
  | fuel + 1, e => by
    unfold walk
    exact .ite (.bind (.rd (by intros; rfl) _) fun _ => .bind (hf _) fun _ =>
      .bind (walk_rekey hf fuel _) fun _ => .pure _) (.pure _)

theorem scan_rekey {β : Type} {f : Int → JM (Index K V) β} (hf : ∀ e, Commutes (rekey h q) (f e))
    (n : Int) : ∀ fuel i k, Commutes (rekey h q) (scan f n fuel i k)
  | 0, _, _ => Commutes.throw _
  | fuel + 1, i, k => by
    unfold scan
    exact .get_bind (by intros; rfl) fun _ => .ite (.bind (.rd (by intros; rfl) _) fun _ =>
      .bind (walk_rekey hf _ _) fun _ => .bind (scan_rekey hf n fuel _ _) fun _ => .pure _) (.pure _)

theorem forEachWith_rekey {β : Type} {f : Int → JM (Index K V) β}
    (hf : ∀ e, Commutes (rekey h q) (f e)) : Commutes (rekey h q) (forEachWith f) :=
  .get_bind (by intros; rfl) fun _ => .ite (.pure _) (scan_rekey hf _ _ _ _)

theorem getHeadLoop_rekey : ∀ fuel e, Commutes (rekey h q) (getHeadLoop (K := K) (V := V) fuel e)
  | 0, _ => Commutes.throw _
  | fuel + 1, e => by
    unfold getHeadLoop
    exact .ite (.bind (.rd (by intros; rfl) _) fun _ => getHeadLoop_rekey fuel _) (.pure _)

theorem findEntryLoop_rekey (x : Int) :
    ∀ fuel p e, Commutes (rekey h q) (findEntryLoop (K := K) (V := V) x fuel p e)
  | 0, _, _ => Commutes.throw _
  | fuel + 1, p, e => by
    unfold findEntryLoop
    exact .ite (.ite (.pure _) (.bind (.rd (by intros; rfl) _) fun _ => findEntryLoop_rekey x fuel _ _))
      (.pure _)

omit [Inhabited K] [Inhabited V] in
theorem wrValues_rekey (e : Int) (v : V) : Commutes (rekey h q) (wrValues (K := K) (V := V) e v) :=
  .wr (by intros; rfl) (by intros; rfl) _ _

theorem freeReservedEntry_rekey (e : Int) :
    Commutes (rekey h q) (freeReservedEntry (K := K) (V := V) e) :=
  .get_bind (by intros; rfl) fun _ => .bind (.wr (by intros; rfl) (by intros; rfl) _ _) fun _ =>
    .bind (.modify (by intros; rfl)) fun _ => .bind (.wr (by intros; rfl) (by intros; rfl) _ _) fun _ =>
    wrValues_rekey _ _

theorem removeAt_rekey (e : Int) : Commutes (rekey h q) (removeAt (K := K) (V := V) e) := by
  refine .get_bind (by intros; rfl) fun _ => .bind (getHeadLoop_rekey _ _) fun _ =>
    .bind (.rd (by intros; rfl) _) fun _ => .bind (findEntryLoop_rekey _ _ _ _) fun o => ?_
  cases o with
  | none => exact .pure _
  | some p =>
    exact .bind (.rd (by intros; rfl) _) fun _ => .bind
      (.ite (.wr (by intros; rfl) (by intros; rfl) _ _) (.wr (by intros; rfl) (by intros; rfl) _ _)) fun _ =>
      .bind (freeReservedEntry_rekey _) fun _ => .bind (.modify (by intros; rfl)) fun _ => .modify (by intros; rfl)

theorem clear_rekey : Commutes (rekey h q) (clear (K := K) (V := V)) :=
  .get_bind (by intros; rfl) fun _ => .bind (.when (
    .bind (.fill _ _ _ _) fun _ => .bind (.modify (by intros; rfl)) fun _ =>
    .bind (.fill _ _ _ _) fun _ => .bind (.modify (by intros; rfl)) fun _ =>
    .bind (.fill _ _ _ _) fun _ => .bind (.modify (by intros; rfl)) fun _ =>
    .bind (.fill _ _ _ _) fun _ => .bind (.modify (by intros; rfl)) fun _ => .modify (by intros; rfl))) fun _ =>
    .modify (by intros; rfl)

omit [Inhabited K] [Inhabited V] in
theorem headsLike_rekey (x : Arr Int) (n : Int) :
    Commutes (rekey h q) (headsLike (K := K) (V := V) x n) := .ite (.newArr _ _) (.pure _)
omit [Inhabited K] [Inhabited V] in
theorem roomLike_rekey {α : Type} (x : Arr α) (n : Int) (u v : α) :
    Commutes (rekey h q) (roomLike (K := K) (V := V) x n u v) := .ite (.newArr _ _) (.fill _ _ _ _)
omit [Inhabited K] in
theorem valuesLike_rekey (x : Arr V) (n : Int) :
    Commutes (rekey h q) (valuesLike (K := K) (V := V) x n) :=
  .ite (.newArr _ _) (.ite (.fill _ _ _ _) (.pure _))

theorem copyFrom_rekey (src : Index K V) : Commutes (rekey h q) (copyFrom src) :=
  .get_bind (by intros; rfl) fun _ =>
    .bind (headsLike_rekey _ _) fun _ => .bind (.modify (by intros; rfl)) fun _ =>
    .bind (roomLike_rekey _ _ _ _) fun _ => .bind (.modify (by intros; rfl)) fun _ =>
    .bind (.arraycopy _ _ _ _ _) fun _ => .bind (.modify (by intros; rfl)) fun _ =>
    .bind (.arraycopy _ _ _ _ _) fun _ => .bind (.modify (by intros; rfl)) fun _ =>
    .bind (.modify (by intros; rfl)) fun _ => .bind (.modify (by intros; rfl)) fun _ =>
    .bind (roomLike_rekey _ _ _ _) fun _ => .bind (.modify (by intros; rfl)) fun _ =>
    .bind (.arraycopy _ _ _ _ _) fun _ => .bind (.modify (by intros; rfl)) fun _ =>
    .bind (.modify (by intros; rfl)) fun _ =>
    .bind (valuesLike_rekey _ _) fun _ => .bind (.modify (by intros; rfl)) fun _ =>
    .bind (.arraycopy _ _ _ _ _) fun _ => .modify (by intros; rfl)

/-- The operations that take no key commute with a change of functions. -/
theorem step_rekey {o : Op K V} (ho : Keyless o) : Commutes (rekey h q) (step o) := by
  cases o <;> simp only [Keyless] at ho <;> simp only [step]
  · exact .bind (removeAt_rekey _) fun _ => .pure _
  · exact .bind (freeReservedEntry_rekey _) fun _ => .pure _
  · exact .bind (.rd (by intros; rfl) _) fun _ => .pure _
  · exact .bind (.rd (by intros; rfl) _) fun _ => .pure _
  · exact .bind (.get_bind (by intros; rfl) fun _ => .ite (.pure _) (.rd (by intros; rfl) _)) fun _ => .pure _
  · exact .bind (wrValues_rekey _ _) fun _ => .pure _
  · exact .bind (.get_bind (by intros; rfl) fun _ => .pure _) fun _ => .pure _
  · exact .bind (.get_bind (by intros; rfl) fun _ => .pure _) fun _ => .pure _
  · exact .bind (.get_bind (by intros; rfl) fun _ => .pure _) fun _ => .pure _
  · exact .bind (forEachWith_rekey fun _ => .rd (by intros; rfl) _) fun _ => .pure _
  · exact .bind (forEachWith_rekey fun _ => .pure _) fun _ => .pure _
  · exact .bind (forEachWith_rekey fun _ => .rd (by intros; rfl) _) fun _ => .pure _
  · exact .bind clear_rekey fun _ => .pure _

theorem runM_rekey : ∀ (ops : List (Op K V)) (s : Index K V), (∀ o ∈ ops, Keyless o) →
    (runM step (rekey h q s) ops).1 = (runM step s ops).1 ∧
    (runM step (rekey h q s) ops).2 = rekey h q (runM step s ops).2
  | [], _, _ => ⟨rfl, rfl⟩
  | o :: os, s, ho => by
    have h1 := step_rekey (h := h) (q := q) (ho o (by simp)) s
    obtain ⟨g1, g2⟩ := runM_rekey os (step o s).state fun o' h' => ho o' (by simp [h'])
    simp only [runM]
    rw [h1, Res.onState_out, Res.onState_state, g1, g2]
    exact ⟨rfl, rfl⟩

omit [Inhabited K] [Inhabited V] in
/-- An empty table is right for any functions. -/
theorem Inv.rekey_nil {tight : Prop} {s : Index K V} {a : Abs K V} {F : List Int}
    (hI : Inv tight s a F) (hr : a.rows = []) : Inv tight (rekey h q s) { a with hash := h, eq := q } F where
  cap := hI.cap
  nlen := hI.nlen
  klen := hI.klen
  vlen := hI.vlen
  hlen := hI.hlen
  lf := hI.lf
  thr := hI.thr
  size := hI.size
  next := hI.next
  next0 := hI.next0
  perm := hI.perm
  rowsOk := hI.rowsOk
  distinct := by simp only [hr]; exact .nil
  coherent := fun hne => absurd hr hne
  hash := rfl
  eq := rfl
  chained := by
    intro i h0 h1
    obtain ⟨l, t, hp, ht, hm⟩ := hI.chained i h0 h1
    refine ⟨l, t, hp, ht, fun e => ?_⟩
    rw [hm]
    have : e ∉ a.live := by simp [Abs.live, hr]
    exact ⟨fun hh => absurd hh.1 this, fun hh => absurd hh.1 this⟩
  maxHead := ⟨hI.maxHead.1, fun e he => by simp [Abs.live, hr] at he⟩
  free := hI.free
  freeSub := hI.freeSub
  leak := hI.leak
  room := hI.room
  tight := hI.tight
  ends := hI.ends

/-- A history of operations that take no key, on a table that would be right with other functions. -/
theorem keyless_inv {tight : Prop} : ∀ (ops : List (Op K V)) {t : Index K V} {b : Abs K V} {G : List Int},
    Inv tight (rekey h q t) b G → (∀ o ∈ ops, Keyless o) → Guarded b t ops →
    ∃ F, Inv tight (rekey h q (final t ops)) (ideal b t ops) F
  | [], _, _, _, hI, _, _ => ⟨_, hI⟩
  | o :: os, t, b, G, hI, ho, hg => by
    have h1 := step_rekey (h := h) (q := q) (ho o (by simp)) t
    obtain ⟨_, _, F', h3⟩ := step_spec hI o hg.1
    rw [h1, Res.onState_out, Res.onState_state] at h3
    exact keyless_inv os h3 (fun o' h' => ho o' (by simp [h'])) hg.2

end Index
end Verif

import Verif.Link.Index4
import Verif.Props.Index
/-! `KeyValueIndexedMap.ftl`: the generated class answers histories as the ideal map does. -/
set_option linter.unusedSectionVars false
namespace Verif.Link.Map
open Verif Verif.Gen Index IndexSpec
variable {K V : Type} [Inhabited K] [Inhabited V] {β : Type}

/-- One public call of the generated class. -/
def step (fuel : Nat) : Op K V → JM (Index K V) (Out K V)
  | .add k => do return .int (← KeyValueIndexedMap.add fuel k)
  | .put k v => do return .int (← KeyValueIndexedMap.put fuel k v)
  | .lookupEntry k => do return .int (← KeyValueIndexedMap.lookupEntry fuel k)
  | .containsKey k => do return .bool (← KeyValueIndexedMap.containsKey fuel k)
  | .get k => do return .val (← KeyValueIndexedMap.getValue fuel k)
  | .getOrDefault k d => do return .val (← KeyValueIndexedMap.getOrDefault fuel k d)
  | .remove k => do return .int (← KeyValueIndexedMap.remove1 fuel k)
  | .removeAt e => do KeyValueIndexedMap.removeAt fuel e; pure .unit
  | .removeAtAndReserve e => do KeyValueIndexedMap.removeAtAndReserve fuel e; pure .unit
  | .freeReservedEntry e => do KeyValueIndexedMap.freeReservedEntry e; pure .unit
  | .getKeyAt e => do return .key (← KeyValueIndexedMap.getKeyAt e)
  | .getValueAt e => do return .val (← KeyValueIndexedMap.getValueAt e)
  | .getValueAtOrDefault e d => do return .val (← KeyValueIndexedMap.getValueAtOrDefault e d)
  | .putValueAt e v => do KeyValueIndexedMap.putValueAt e v; pure .unit
  | .size => do return .int (← KeyValueIndexedMap.size)
  | .isEmpty => do return .bool (← KeyValueIndexedMap.isEmpty)
  | .capacity => do return .int (← KeyValueIndexedMap.capacity)
  | .forEach => do return .keys (← KeyValueIndexedMap.forEach fuel pure)
  | .forEachEntry => do return .ints (← KeyValueIndexedMap.forEachEntry fuel pure)
  | .forEachValue => do return .vals (← KeyValueIndexedMap.forEachValue fuel pure)
  | .clear => do KeyValueIndexedMap.clear; pure .unit
  | .setHashMethod h => do KeyValueIndexedMap.setHashMethod h; pure .unit
  | .setEqMethod q => do KeyValueIndexedMap.setEqMethod q; pure .unit

/-- the bounds alone -/
def Bx (s : Index K V) : Prop := ∃ n, Bd n s

theorem Bx.of {m : JM (Index K V) β} (h : ∀ n, Keeps (Bd n) m) : Keeps Bx m :=
  fun s ⟨n, hn⟩ => ⟨n, h n s hn⟩

theorem bx_size {f : Int → Int} : Keeps (Bx (K := K) (V := V)) (modify fun t => { t with size := f t.size }) :=
  fun _ ⟨_, h⟩ => ⟨_, rfl, h.cap, h.heads, h.max⟩

section reads
variable {J : Index K V → Prop}
theorem lookupLoop_keeps (k : K) (m : Nat) (e : Int) : Keeps J (lookupLoop k m e) := .same fun _ => lookupLoop_state _ _ _ _
theorem computeHead_keeps (k : K) : Keeps J (computeHead k) := .same fun _ => rfl
theorem lookupEntry_keeps (k : K) : Keeps J (lookupEntry k) :=
  .bind (computeHead_keeps k) fun _ => .bind (.rd _) fun _ => .bind .get fun _ => lookupLoop_keeps _ _ _
theorem findKeyLoop_keeps (k : K) : ∀ (m : Nat) (p e : Int), Keeps J (findKeyLoop k m p e)
  | 0, _, _ => .throw _
  | m + 1, p, e => by
    unfold findKeyLoop
    exact .ite (.bind (.rd _) fun _ => .bind .get fun _ => .ite (.pure _) (.bind (.rd _) fun _ =>
      findKeyLoop_keeps k m _ _)) (.pure _)
theorem findEntryLoop_keeps (x : Int) : ∀ (m : Nat) (p e : Int), Keeps J (findEntryLoop x m p e)
  | 0, _, _ => .throw _
  | m + 1, p, e => by
    unfold findEntryLoop
    exact .ite (.ite (.pure _) (.bind (.rd _) fun _ => findEntryLoop_keeps x m _ _)) (.pure _)
theorem scan_keeps {f : Int → JM (Index K V) β} (hf : ∀ e, Keeps J (f e)) (N : Int) :
    ∀ (m : Nat) (i k : Int), Keeps J (scan f N m i k)
  | 0, _, _ => .throw _
  | m + 1, i, k => by
    unfold scan
    exact .bind .get fun _ => .ite (.bind (.rd _) fun _ => .bind (walk_keeps hf _ _) fun _ =>
      .bind (scan_keeps hf N m _ _) fun _ => .pure _) (.pure _)
theorem forEachWith_keeps {f : Int → JM (Index K V) β} (hf : ∀ e, Keeps J (f e)) : Keeps J (forEachWith f) :=
  .bind .get fun _ => .ite (.pure _) (scan_keeps hf _ _ _ _)
end reads

theorem baseAdd_bx (k : K) : Keeps (Bx (K := K) (V := V)) (baseAdd k) := by
  unfold baseAdd
  refine .bindR (.same fun _ => rfl) fun h s t ⟨n, hs⟩ hh => .bind (.rd _) fun e0 => .bind .get fun s' =>
    .bind (lookupLoop_keeps _ _ _) fun found => .ite (.pure _) ?_
  refine .bind (.of allocate_keeps) fun entry => .bind .get fun s2 => ?_
  have tail : ∀ h, h < 2 ^ 29 → Keeps (Bx (K := K) (V := V)) (do
        registerNewEntryForHead h entry
        wrKeys entry k
        updateMaxHead h
        modify fun t => { t with size := t.size + 1 }
        bumpMod
        pure entry) := fun h hh =>
    .bind (Bx.of fun n => register_keeps n _ _) fun _ => .bind (Bx.of fun n => wrKeys_keeps n _ _) fun _ =>
    .bind (Bx.of fun n => updateMaxHead_keeps n hh) fun _ => .bind (bx_size (f := (· + 1))) fun _ =>
    .bind (Bx.of bump_keeps) fun _ => .pure _
  refine .ite ?_ ?_
  · exact .bind (.of rehash_keeps) fun _ => .bindR (.same fun _ => rfl) fun h s t ⟨n, hs⟩ hh => tail h (computeHead_lt hs hh)
  · exact tail h (computeHead_lt hs hh)

theorem add_bx (k : K) : Keeps (Bx (K := K) (V := V)) (add k) :=
  .bind .get fun _ => .bind (baseAdd_bx k) fun _ => .bind .get fun _ =>
    .bind (.when (Bx.of fun n => wrValues_keeps n _ _)) fun _ => .pure _

theorem removeFound_bx (head : Int) (free : Bool) (prev e : Int) :
    Keeps (Bx (K := K) (V := V)) (removeFound head free prev e) := by
  have tail : Keeps (Bx (K := K) (V := V)) (do
      modify fun t => { t with size := t.size - 1 }
      bumpMod) := .bind (bx_size (f := (· - 1))) fun _ => Bx.of bump_keeps
  exact .bind (.rd _) fun _ => .bind (Bx.of fun n => unlink_keeps n _ _ _) fun _ =>
    .ite (.bind (Bx.of fun n => free_keeps n _) fun _ => tail)
      (.bind (Bx.of fun n => wrNexts_keeps n _ _) fun _ => tail)

theorem removeKey_bx (k : K) (free : Bool) : Keeps (Bx (K := K) (V := V)) (removeKey k free) := by
  rw [removeKey_def]
  refine .bind (computeHead_keeps k) fun _ => .bind (.rd _) fun _ => .ite (.pure _) (.bind .get fun _ =>
    .bind (findKeyLoop_keeps _ _ _ _) fun r => ?_)
  cases r with
  | none => exact .pure _
  | some p => exact .bind (removeFound_bx _ _ _ _) fun _ => .pure _

theorem removeAt_bx (e : Int) : Keeps (Bx (K := K) (V := V)) (removeAt e) := by
  rw [removeAt_def]
  refine .bind .get fun _ => .bind (.same fun _ => getHeadLoop_state _ _ _) fun _ => .bind (.rd _) fun _ =>
    .bind (findEntryLoop_keeps _ _ _ _) fun r => ?_
  cases r with
  | none => exact .pure _
  | some p => exact removeFound_bx _ _ _ _

theorem fill_len {σ α : Type} {a b : Arr α} {v : α} {i n : Int} {s t : σ} (h : fill a v i n s = .ok b t) :
    b.len = a.len := by
  simp only [fill] at h
  split at h
  · injection h with h1; rw [h1]
  · split at h
    · injection h with h1; rw [← h1]; rfl
    · cases h

theorem clear_bx : Keeps (Bx (K := K) (V := V)) clear := by
  have fin : Keeps (Bx (K := K) (V := V)) (modify fun t =>
      { t with modificationCount := 0, nextUnusedEntry := 0, freeList := -1, maxHead := 0 }) :=
    fun _ ⟨_, h⟩ => ⟨_, rfl, h.cap, h.heads, (by decide : (0 : Int) < 2 ^ 29)⟩
  refine .bindR .get fun s s' t hs hst => ?_
  injection hst with h1 h2
  subst h1
  obtain ⟨n, hs⟩ := hs
  refine .bind (.when ?_) fun _ => fin
  refine .bindR (.ofLocal (fill_local _ _ _ _ _)) fun h u u' _ hu => ?_
  have hl := fill_len hu
  refine .bind (.modify fun x ⟨m, hx⟩ => ⟨m, hx.size, hx.cap, ?_, hx.max⟩) fun _ => ?_
  · have := hs.heads
    show 1 ≤ h.len ∧ h.len ≤ 2 ^ 29
    omega
  refine .bind (.ofLocal (fill_local _ _ _ _ _)) fun _ => .bind (.modify fun x ⟨m, hx⟩ => ⟨m, hx.size, hx.cap, hx.heads, hx.max⟩) fun _ => ?_
  refine .bind (.ofLocal (fill_local _ _ _ _ _)) fun _ => .bind (.modify fun x ⟨m, hx⟩ => ⟨m, hx.size, hx.cap, hx.heads, hx.max⟩) fun _ => ?_
  refine .bind (.ofLocal (fill_local _ _ _ _ _)) fun _ => .bind (.modify fun x ⟨m, hx⟩ => ⟨m, hx.size, hx.cap, hx.heads, hx.max⟩) fun _ => ?_
  exact .modify fun x ⟨m, hx⟩ => ⟨_, rfl, hx.cap, hx.heads, hx.max⟩

/-- Every call keeps the bounds. -/
theorem step_bx (o : Op K V) : Keeps (Bx (K := K) (V := V)) (Index.step o) := by
  cases o with
  | add k => exact .bind (add_bx k) fun _ => .pure _
  | put k v => exact .bind (.bind (add_bx k) fun _ => .bind (Bx.of fun n => wrValues_keeps n _ _) fun _ => .pure _) fun _ => .pure _
  | lookupEntry k => exact .bind (lookupEntry_keeps k) fun _ => .pure _
  | containsKey k => exact .bind (.bind (lookupEntry_keeps k) fun _ => .pure _) fun _ => .pure _
  | get k => exact .bind (.bind (lookupEntry_keeps k) fun _ => .ite (.throw _) (.rd _)) fun _ => .pure _
  | getOrDefault k d => exact .bind (.bind (lookupEntry_keeps k) fun _ => .ite (.pure _) (.rd _)) fun _ => .pure _
  | remove k => exact .bind (removeKey_bx k true) fun _ => .pure _
  | removeAt e => exact .bind (removeAt_bx e) fun _ => .pure _
  | removeAtAndReserve e => exact .bind (.bind (.rd _) fun _ => .bind (removeKey_bx _ _) fun _ => .pure _) fun _ => .pure _
  | freeReservedEntry e => exact .bind (Bx.of fun n => free_keeps n _) fun _ => .pure _
  | getKeyAt e => exact .bind (.rd _) fun _ => .pure _
  | getValueAt e => exact .bind (.rd _) fun _ => .pure _
  | getValueAtOrDefault e d => exact .bind (.bind .get fun _ => .ite (.pure _) (.rd _)) fun _ => .pure _
  | putValueAt e v => exact .bind (Bx.of fun n => wrValues_keeps n _ _) fun _ => .pure _
  | size => exact .bind (.same fun _ => rfl) fun _ => .pure _
  | isEmpty => exact .bind (.same fun _ => rfl) fun _ => .pure _
  | capacity => exact .bind (.same fun _ => rfl) fun _ => .pure _
  | forEach => exact .bind (forEachWith_keeps fun _ => .rd _) fun _ => .pure _
  | forEachEntry => exact .bind (forEachWith_keeps fun _ => .pure _) fun _ => .pure _
  | forEachValue => exact .bind (forEachWith_keeps fun _ => .rd _) fun _ => .pure _
  | clear => exact .bind clear_bx fun _ => .pure _
  | setHashMethod h =>
    exact .bind (.bind .get fun _ => .ite (.throw _) (.modify fun _ ⟨n, h⟩ => ⟨n, h.size, h.cap, h.heads, h.max⟩)) fun _ => .pure _
  | setEqMethod q =>
    exact .bind (.bind .get fun _ => .ite (.throw _) (.modify fun _ ⟨n, h⟩ => ⟨n, h.size, h.cap, h.heads, h.max⟩)) fun _ => .pure _

/-- The argument of `removeAt` is a Java `int`. -/
def IntArg : Op K V → Prop
  | .removeAt e => -2 ^ 31 ≤ e ∧ e < 2 ^ 31
  | _ => True

variable {tight : Prop} {s : Index K V} {a : Abs K V} {F : List Int}

theorem cells_of_inv (h : Inv tight s a F) : Cells s := by
  intro i h0 h1
  obtain ⟨l, t, hp, ht⟩ := h.ends i h0 h1
  have hl := h.hlen
  cases l with
  | nil => obtain ⟨rfl, hneg⟩ := hp; omega
  | cons x l =>
    obtain ⟨rfl, _, _, hp⟩ := hp
    cases l with
    | nil => obtain ⟨he, _⟩ := hp; omega
    | cons y l => obtain ⟨he, h2, _⟩ := hp; omega

theorem sim_map {γ : Type} {m g : JM (Index K V) β} {s : Index K V} (f : β → γ) (h : Sim Eq m g s) :
    Sim Eq (m >>= fun x => pure (f x)) (g >>= fun x => pure (f x)) s :=
  .bind_eq h fun _ _ _ => .rfl

/-- One call: the generated class does what the model does. -/
theorem step_sim (fuel : Nat) (hf : 2 ^ 31 ≤ fuel) (h : Inv tight s a F) (hb : Bx s) (o : Op K V)
    (ho : IntArg o) : Sim Eq (Index.step o) (step fuel o) s := by
  have hcap := h.cap_pos
  have hn := h.nlen
  have hl := h.hlen
  have hu := h.next
  have hu0 := h.next0
  have hle := h.next_le
  have hm := h.maxHead.1
  have hsz := h.size
  have hcnt := h.count
  have hb' : Bd s.size s := by obtain ⟨n, hb⟩ := hb; exact ⟨rfl, hb.cap, hb.heads, hb.max⟩
  have hmx := hb'.max
  have hlen : Lens s := ⟨by omega, by omega⟩
  have look (k : K) := lookup_sim fuel hf k (s := s) (by omega)
  cases o with
  | add k => exact sim_map _ (add_sim fuel hf k hb' (by omega) (by omega) (by omega) hm)
  | put k v => exact sim_map _ (put_sim fuel hf k v hb' (by omega) (by omega) (by omega) hm)
  | lookupEntry k => exact sim_map _ (look k)
  | containsKey k => exact sim_map _ (sim_map _ (look k))
  | get k =>
    refine sim_map _ (.bind_eq (look k) fun e t _ => ?_)
    by_cases he : e = -1
    · rw [if_pos he]; dsimp only; rw [if_pos (by simpa using he)]; exact .inr rfl
    · rw [if_neg he]; dsimp only; rw [if_neg (by simpa using he)]; exact .right rfl .rfl
  | getOrDefault k d =>
    refine sim_map _ (.bind_eq (look k) fun e t _ => ?_)
    exact .ite (by simp) (fun _ => .rfl) (fun _ => .rfl)
  | remove k => exact sim_map _ (remove_sim fuel hf k hb' (by omega) (by omega))
  | removeAt e =>
    exact .bind_eq (removeAt_sim fuel hf e ho.1 hb' (cells_of_inv h) (by omega) (by omega)) fun _ _ _ => .rfl
  | removeAtAndReserve e =>
    exact .bind_eq (removeAtAndReserve_sim fuel hf e hb' (by omega) (by omega)) fun _ _ _ => .rfl
  | freeReservedEntry e => simp only [Index.step, step, freeReservedEntry_eq]; exact .rfl
  | getKeyAt e => exact .rfl
  | getValueAt e => exact .rfl
  | getValueAtOrDefault e d =>
    refine sim_map _ (.get ?_)
    exact .ite (by simp) (fun _ => .rfl) (fun _ => .rfl)
  | putValueAt e v => simp only [Index.step, step, KeyValueIndexedMap.putValueAt, bind_unit]; exact .rfl
  | size => exact .rfl
  | isEmpty => exact .rfl
  | capacity => exact .rfl
  | forEach =>
    simp only [Index.step, step, forEach_gen]
    have e : (fun e => rd Index.keys e >>= pure) = (rd Index.keys : Int → JM (Index K V) K) := by
      funext e; apply JM_ext; intro s; rw [JM.bind_apply]; cases rd Index.keys e s <;> rfl
    rw [e]
    exact sim_map _ (forEachWith_sim (fun _ => .rd _) fuel hf hlen (by omega))
  | forEachEntry => exact sim_map _ (forEachWith_sim (fun _ => .pure _) fuel hf hlen (by omega))
  | forEachValue =>
    simp only [Index.step, step, forEachValue_gen]
    have e : (fun e => rd Index.values e >>= pure) = (rd Index.values : Int → JM (Index K V) V) := by
      funext e; apply JM_ext; intro s; rw [JM.bind_apply]; cases rd Index.values e s <;> rfl
    rw [e]
    exact sim_map _ (forEachWith_sim (fun _ => .rd _) fuel hf hlen (by omega))
  | clear => exact .bind_eq (clear_sim hm (by omega) (by omega)) fun _ _ _ => .rfl
  | setHashMethod q =>
    refine .of_eq ?_
    simp only [step, Index.step, KeyValueIndexedMap.setHashMethod, KeyValueIndexedMap._setHashMethod, setHashMethod]
    by_cases hz : s.size > 0
    · simp [JM.bind_apply, hz]
    · simp [JM.bind_apply, hz]
  | setEqMethod q =>
    refine .of_eq ?_
    simp only [step, Index.step, KeyValueIndexedMap.setEqMethod, KeyValueIndexedMap._setEqMethod, setEqMethod]
    by_cases hz : s.size > 0
    · simp [JM.bind_apply, hz]
    · simp [JM.bind_apply, hz]

theorem rd_ne {σ α : Type} (arr : σ → Arr α) (i : Int) (s : σ) : (rd arr i s).out ≠ .error .diverge := by
  simp only [rd]; split <;> simp

theorem out_map {γ : Type} {m : JM (Index K V) β} {s : Index K V} (f : β → γ)
    (h : (m s).out ≠ .error .diverge) : ((m >>= fun x => pure (f x)) s).out ≠ .error .diverge := by
  rw [JM.bind_apply]
  cases hm : m s with
  | ok a t => simp
  | err e t => rw [hm] at h; simpa using h

/-- A call within the caller's duties ends. -/
theorem step_ne_diverge (h : Inv tight s a F) (o : Op K V) (hg : Guard o a) :
    (Index.step o s).out ≠ .error .diverge := by
  have hk := (step_spec h o hg).1
  intro hd
  cases o <;> simp only [Ok] at hk
  case getKeyAt e => exact out_map _ (rd_ne _ _ _) hd
  case getValueAt e => exact out_map _ (rd_ne _ _ _) hd
  case getValueAtOrDefault e d =>
    refine out_map (m := getValueAtOrDefault e d) _ ?_ hd
    unfold getValueAtOrDefault
    rw [JM.bind_ok (JM.get_apply _)]
    split
    · simp
    · exact rd_ne _ _ _
  case putValueAt e v =>
    refine out_map (m := putValueAt e v) (fun _ => Out.unit) ?_ hd
    simp only [putValueAt, wr]; split <;> simp
  all_goals rw [hd] at hk
  all_goals (try split at hk) <;> simp at hk

/-- One call, as an equation. -/
theorem step_eq (fuel : Nat) (hf : 2 ^ 31 ≤ fuel) (h : Inv tight s a F) (hb : Bx s) (o : Op K V)
    (ho : IntArg o) (hg : Guard o a) : step fuel o s = Index.step o s :=
  (step_sim fuel hf h hb o ho).toEq (step_ne_diverge h o hg)

theorem new_bx (hash : K → BitVec 32) (eq : K → K → Bool) {ic : Int} {num den : Nat} {s : Index K V}
    (h : Index.new hash eq ic num den = .ok s) : Bx s := by
  have hi := new_inv hash eq h
  refine ⟨s.size, rfl, hi.cap_pos, hi.hlen, ?_⟩
  unfold Index.new at h
  split at h
  · cases h
  · split at h
    · cases h
    · injection h with h; rw [← h]; exact (by decide : (0 : Int) < 2 ^ 29)

theorem legal (fuel : Nat) (hf : 2 ^ 31 ≤ fuel) (ops : List (Op K V)) (hi : ∀ o ∈ ops, IntArg o) :
    ∀ {s : Index K V} {a : Abs K V} {F : List Int}, Inv tight s a F → Bx s →
      Legal Ok a ops (runM (step fuel) s ops).1 := by
  induction ops with
  | nil => intro s a F _ _; trivial
  | cons o os ih =>
    intro s a F h hb hg
    have he := step_eq fuel hf h hb o (hi o (by simp)) hg
    obtain ⟨h1, _, F', h3⟩ := step_spec h o hg
    rw [he]
    exact ⟨h1, ih (fun o ho => hi o (by simp [ho])) h3 (step_bx o s hb)⟩

theorem legal_exact (fuel : Nat) (hf : 2 ^ 31 ≤ fuel) (ht : tight) (ops : List (Op K V)) (hi : ∀ o ∈ ops, IntArg o) :
    ∀ {s : Index K V} {a : Abs K V} {F : List Int}, Inv tight s a F → Bx s →
      Legal OkExact a ops (runM (step fuel) s ops).1 := by
  induction ops with
  | nil => intro s a F _ _; trivial
  | cons o os ih =>
    intro s a F h hb hg
    have he := step_eq fuel hf h hb o (hi o (by simp)) hg
    obtain ⟨_, h2, F', h3⟩ := step_spec h o hg
    rw [he]
    exact ⟨h2 ht, ih (fun o ho => hi o (by simp [ho])) h3 (step_bx o s hb)⟩

end Verif.Link.Map

namespace Verif
open Verif.Index Verif.IndexSpec
variable {K V : Type} [Inhabited K] [Inhabited V]

/-- C27 for the code generated from KeyValueIndexedMap.ftl, BaseKeyIndex.ftl and BaseHash.java: after
the constructor, every result of every history is that of an ideal map.  `lf` is the load factor as a
fraction; the object starts with its counter at Java's zero; `fuel` is any bound from 2^31 on for
the iterations of a loop. -/
theorem C27_generated_results_legal (fuel : Nat) (hf : 2 ^ 31 ≤ fuel) (hash : K → BitVec 32) (eq : K → K → Bool)
    (ic : Int) (lf : Nat × Nat) (s₀ s : Index K V) (hz : s₀.modificationCount = 0) (u : Unit)
    (hnew : Gen.KeyValueIndexedMap.init2 hash eq ic lf s₀ = .ok u s) (ops : List (Op K V))
    (hi : ∀ o ∈ ops, Link.Map.IntArg o) :
    Legal Ok (empty hash eq) ops (runM (Link.Map.step fuel) s ops).1 := by
  have h := Link.Map.init2_eq hash eq ic lf s₀ hz
  rw [hnew] at h
  exact Link.Map.legal fuel hf ops hi (new_inv hash eq h.symm) (Link.Map.new_bx hash eq h.symm)

/-- Which capacities and load factors the generated constructor accepts. -/
theorem C27_generated_new (hash : K → BitVec 32) (eq : K → K → Bool) (ic : Int) (lf : Nat × Nat)
    (s₀ : Index K V) (hz : s₀.modificationCount = 0) :
    (∃ s, Gen.KeyValueIndexedMap.init2 hash eq ic lf s₀ = .ok () s) ↔
      (0 < ic ∧ ic ≤ 2 ^ 29 ∧ 0 < lf.1 ∧ lf.1 ≤ lf.2) := by
  rw [← C27_new hash eq ic lf.1 lf.2 (V := V)]
  have h := Link.Map.init2_eq hash eq ic lf s₀ hz
  cases hr : Gen.KeyValueIndexedMap.init2 hash eq ic lf s₀ with
  | ok u t => rw [hr] at h; exact ⟨fun _ => ⟨t, h.symm⟩, fun _ => ⟨t, rfl⟩⟩
  | err e t =>
    rw [hr] at h
    refine ⟨fun ⟨s, hs⟩ => (by cases hs), fun ⟨s, hs⟩ => ?_⟩
    rw [hs] at h; cases h

/-- **C27** The generated code: the constructor without a load factor is the one with load factor 3/4. -/
theorem C27_generated_default_load (hash : K → BitVec 32) (eq : K → K → Bool) (ic : Int) (s₀ : Index K V)
    (hz : s₀.modificationCount = 0) :
    ((∃ s, Gen.KeyValueIndexedMap.init1 hash eq ic s₀ = .ok () s) ↔ 0 < ic ∧ ic ≤ 2 ^ 29) ∧
    Gen.KeyValueIndexedMap.init1 hash eq ic s₀ = Gen.KeyValueIndexedMap.init2 hash eq ic (3, 4) s₀ := by
  have e : Gen.KeyValueIndexedMap.init1 hash eq ic s₀ = Gen.KeyValueIndexedMap.init2 hash eq ic (3, 4) s₀ := by
    simp only [Gen.KeyValueIndexedMap.init1, JM.bind_apply]
    cases Gen.KeyValueIndexedMap.init2 hash eq ic (3, 4) s₀ <;> rfl
  refine ⟨?_, e⟩
  rw [e, C27_generated_new hash eq ic (3, 4) s₀ hz]
  simp

namespace Index
deriving instance DecidableEq for Out
end Index

/-- an object before its constructor runs -/
def rawIndex : Index Int Int :=
  ⟨0, 0, 0, 0, Arr.create 0 0, Arr.create 0 0, 0, 0, 0, 0, 0, Arr.create 0 0, Arr.create 0 0, fun _ => 0, fun _ _ => false⟩

/- Non-vacuity: the generated constructor and calls run (with growth from capacity 1). -/
example : (match Gen.KeyValueIndexedMap.init2 (fun k : Int => BitVec.ofInt 32 k) (fun a b => a == b) 1 (3, 4) rawIndex with
    | .ok _ s => (runM (Link.Map.step 20) s
      [Op.put 7 70, .put 15 150, .add 23, .remove 15, .lookupEntry 23, .get 7, .get 15, .put 9 90, .size,
       .removeAt 0, .forEachEntry, .forEach]).1
    | .err e _ => [.error e]) =
      [.ok (.int 0), .ok (.int 1), .ok (.int 2), .ok (.int 1), .ok (.int 2), .ok (.val 70), .error .keyNotFound,
        .ok (.int 1), .ok (.int 3), .ok .unit, .ok (.ints [1, 2]), .ok (.keys [9, 23])] := by
  decide +kernel

end Verif

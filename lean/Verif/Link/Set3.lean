import Verif.Link.Set2
/-! `KeyIndexedSet.ftl`: the generated class answers histories as the ideal set does. -/
set_option linter.unusedSectionVars false
namespace Verif.Link.SetL
open Verif Verif.Gen Index IndexSpec
variable {K V : Type} [Inhabited K] [Inhabited V] {α β γ : Type}
variable {p : Nat → Nat → Prop} (s : Index K V) (v : Arr V)

/-- What holds if the call returns. -/
def Post (P : α → Index K V → Prop) (m : JM (Index K V) α) (s : Index K V) : Prop :=
  ∀ a t, m s = .ok a t → P a t

theorem Post.bind {P : β → Index K V → Prop} {m : JM (Index K V) α} {f : α → JM (Index K V) β} {s : Index K V}
    (h : ∀ a t, m s = .ok a t → Post P (f a) t) : Post P (m >>= f) s := by
  intro b u hb
  cases hm : m s with
  | err e t => rw [JM.bind_err hm] at hb; cases hb
  | ok a t => rw [JM.bind_ok hm] at hb; exact h a t hm b u hb

theorem Post.pure {P : α → Index K V → Prop} {a : α} {s : Index K V} (h : P a s) : Post P (Pure.pure a) s := by
  intro b u hb; cases hb; exact h

theorem updateMaxHead_keys {head : Int} {s t : Index K V} {a : Unit}
    (h : KeyValueIndexedMap.updateMaxHead head s = .ok a t) : t.keys = s.keys := by
  unfold KeyValueIndexedMap.updateMaxHead at h
  rw [JM.bind_apply] at h
  simp only [JM.get_apply] at h
  split at h
  · cases h; rfl
  · cases h; rfl

theorem addLoop_state (k : K) : ∀ (n : Nat) (e : Int) (s t : Index K V) (r : Flow Int Unit),
    KeyValueIndexedMap.super_add_loop1 k n e s = .ok r t → t = s
  | 0, _, _, _, _, h => by cases h
  | n + 1, e, s, t, r, h => by
    unfold KeyValueIndexedMap.super_add_loop1 at h
    by_cases he : e ≥ 0
    · simp only [decide_eq_true he, if_true] at h
      rw [JM.bind_apply] at h
      simp only [rd] at h
      by_cases hb : 0 ≤ e ∧ e < s.keys.len
      · simp only [if_pos hb] at h
        rw [JM.bind_apply] at h
        simp only [JM.get_apply] at h
        by_cases hq : s.equalFunc k (s.keys.get e) = true
        · rw [if_pos hq] at h; cases h; rfl
        · rw [if_neg hq, JM.bind_apply] at h
          by_cases hb : 0 ≤ e ∧ e < s.nexts.len
          · simp only [if_pos hb] at h
            exact addLoop_state k n _ _ _ _ h
          · simp only [if_neg hb] at h; cases h
      · simp only [if_neg hb] at h; cases h
    · simp only [decide_eq_false he] at h
      cases h; rfl

/-- `add` in `BaseKeyIndex` returns an entry that has a key cell, or changes nothing. -/
theorem superAdd_post (fuel : Nat) (k : K) (s : Index K V) :
    Post (fun (e : Int) t => t = s ∨ (0 ≤ e ∧ e < t.keys.len)) (KeyValueIndexedMap.super_add fuel k) s := by
  unfold KeyValueIndexedMap.super_add
  refine .bind fun hd s1 h1 => ?_
  have h1 : s1 = s := by unfold KeyValueIndexedMap.computeHead at h1; cases h1; rfl
  subst h1
  refine .bind fun e s2 h2 => ?_
  have h2 : s2 = s1 := by
    simp only [rd] at h2
    split at h2 <;> cases h2; rfl
  subst h2
  refine .bind fun r s3 h3 => ?_
  have h3 := addLoop_state k fuel _ _ _ _ h3
  subst h3
  cases r with
  | ret x => exact .pure (.inl rfl)
  | next x =>
    refine .bind fun en s4 _ => .bind fun _ s5 _ => .bind fun hd s6 _ => .bind fun _ s7 _ => .bind fun _ s8 h8 => ?_
    have hb : 0 ≤ en ∧ en < s8.keys.len := by
      simp only [wr] at h8
      split at h8
      · rename_i hb; cases h8; exact hb
      · cases h8
    refine .bind fun _ s9 h9 => ?_
    rw [← updateMaxHead_keys h9] at hb
    refine .bind fun _ s10 h10 => .bind fun _ s11 h11 => .bind fun _ s12 h12 => .bind fun _ s13 h13 => .pure (.inr ?_)
    cases h10; cases h11; cases h12; cases h13
    exact hb

theorem add_S (fuel : Nat) (k : K) :
    S Eq (KeyValueIndexedMap.add fuel k) (KeyIndexedSet.add fuel k) s v := by
  intro hp
  have h := superAdd_S s v fuel k hp
  have hb := superAdd_post fuel k s
  unfold KeyValueIndexedMap.add
  rw [JM.bind_apply]
  simp only [JM.get_apply]
  cases hm : KeyValueIndexedMap.super_add fuel k s with
  | err e t => rw [JM.bind_err hm]; rw [hm] at h; exact h
  | ok e t =>
    rw [JM.bind_ok hm]
    rw [hm] at h
    rw [JM.bind_apply]
    simp only [JM.get_apply]
    by_cases hs : s.size = t.size
    · rw [if_neg (by simp [hs])]
      exact h
    · rw [if_pos (by simp [hs])]
      have hb := (hb e t hm).resolve_left (fun h => hs (by rw [h]))
      obtain ⟨hl, w, hw⟩ := h
      have hl' : t.keys.len = t.values.len := hl
      rw [hl'] at hb
      have e1 : (wr Index.values (fun self a => { self with values := a }) e default >>= fun _ => (pure () : JM (Index K V) Unit)) t
          = .ok () (withV t (t.values.set e default)) := by
        rw [bind_unit]; simp only [wr]; rw [if_pos hb]; rfl
      rw [JM.bind_ok e1]
      exact ⟨by show t.keys.len = (t.values.set e default).len; rw [hl']; rfl, w, hw⟩

theorem fill_min {σ : Type} (a : Arr α) (x : α) (n : Int) (s : σ) :
    ∃ b : Arr α, fill a x 0 (min n a.len) s = .ok b s ∧ b.len = a.len := by
  by_cases h : min n (a.len : Int) ≤ 0
  · exact ⟨a, by simp [fill, h], rfl⟩
  · refine ⟨a.fillRange x 0 (min n a.len), ?_, rfl⟩
    simp only [fill, h, if_false]
    rw [if_pos ⟨by omega, by omega⟩]

theorem clearKeys_S : S p (KeyValueIndexedMap.clearKeys : JM (Index K V) Unit) KeyIndexedSet.clearKeys s v := by
  unfold KeyValueIndexedMap.clearKeys KeyIndexedSet.clearKeys
  refine .get ?_
  simp only [withV_keys, withV_nextUnusedEntry]
  intro hp
  obtain ⟨b, hb, hl⟩ := fill_min (σ := Index K V) s.keys default s.nextUnusedEntry s
  obtain ⟨b', hb', _⟩ := fill_min (σ := Index K V) s.keys default s.nextUnusedEntry (withV s v)
  have : b' = b := by
    obtain ⟨r, hr⟩ := fill_local (Index K V) s.keys default 0 (min s.nextUnusedEntry s.keys.len)
    rw [hr] at hb hb'
    cases r with
    | error e => cases hb
    | ok x => cases hb; cases hb'; rfl
  subst this
  rw [JM.bind_ok hb, JM.bind_ok hb']
  refine ⟨?_, v, rfl⟩
  show p b'.len s.values.len
  rw [hl]; exact hp

theorem clear_S : S p (KeyValueIndexedMap.clear : JM (Index K V) Unit) KeyIndexedSet.clear s v := by
  unfold KeyValueIndexedMap.clear KeyIndexedSet.clear
  refine .get ?_
  simp only [withV_heads, withV_size, withV_maxHead]
  refine .bind (.ite Iff.rfl ?_ S.pure) fun _ _ _ _ => ?_
  · refine .stepL (arraysFill_local _ _ _ _ _) fun _ _ => .modify rfl ⟨rfl, rfl⟩ (.get ?_)
    simp only [withV_nexts, withV_nextUnusedEntry]
    refine .stepL (arraysFill_local _ _ _ _ _) fun _ _ => .modify rfl ⟨rfl, rfl⟩ ?_
    refine .bind (clearKeys_S _ _) fun _ t _ _ => ?_
    have : (KeyIndexedSet.clearValues >>= fun _ => (modify (fun self : Index K V => { self with size := 0 }) : JM (Index K V) PUnit) >>= fun _ => (pure () : JM (Index K V) Unit))
       = ((modify (fun self : Index K V => { self with size := 0 }) : JM (Index K V) PUnit) >>= fun _ => (pure () : JM (Index K V) Unit)) := rfl
    rw [this]
    refine .left (fun _ => ?_) fun w => .modify rfl ⟨rfl, rfl⟩ S.pure
    obtain ⟨b, hb, hl⟩ := fill_min (σ := Index K V) t.values default t.nextUnusedEntry t
    refine ⟨b, ?_, hl⟩
    unfold KeyValueIndexedMap.clearValues
    rw [JM.bind_apply]
    simp only [JM.get_apply]
    rw [JM.bind_ok hb]
    rfl
  · repeat ss

/-- The public calls of a set. -/
inductive SetOp (K : Type)
  | add (k : K) | lookupEntry (k : K) | containsKey (k : K) | remove (k : K) | removeAt (e : Int)
  | removeAtAndReserve (e : Int) | freeReservedEntry (e : Int) | getKeyAt (e : Int)
  | size | isEmpty | capacity | forEach | forEachEntry
  | clear | setHashMethod (hash : K → BitVec 32) | setEqMethod (eq : K → K → Bool)

/-- The same calls of a map. -/
def SetOp.op : SetOp K → Op K V
  | .add k => .add k
  | .lookupEntry k => .lookupEntry k
  | .containsKey k => .containsKey k
  | .remove k => .remove k
  | .removeAt e => .removeAt e
  | .removeAtAndReserve e => .removeAtAndReserve e
  | .freeReservedEntry e => .freeReservedEntry e
  | .getKeyAt e => .getKeyAt e
  | .size => .size
  | .isEmpty => .isEmpty
  | .capacity => .capacity
  | .forEach => .forEach
  | .forEachEntry => .forEachEntry
  | .clear => .clear
  | .setHashMethod h => .setHashMethod h
  | .setEqMethod q => .setEqMethod q

/-- One public call of the generated class. -/
def step (fuel : Nat) : SetOp K → JM (Index K V) (Out K V)
  | .add k => do return .int (← KeyIndexedSet.add fuel k)
  | .lookupEntry k => do return .int (← KeyIndexedSet.lookupEntry fuel k)
  | .containsKey k => do return .bool (← KeyIndexedSet.containsKey fuel k)
  | .remove k => do return .int (← KeyIndexedSet.remove1 fuel k)
  | .removeAt e => do KeyIndexedSet.removeAt fuel e; pure .unit
  | .removeAtAndReserve e => do KeyIndexedSet.removeAtAndReserve fuel e; pure .unit
  | .freeReservedEntry e => do KeyIndexedSet.freeReservedEntry e; pure .unit
  | .getKeyAt e => do return .key (← KeyIndexedSet.getKeyAt e)
  | .size => do return .int (← KeyIndexedSet.size)
  | .isEmpty => do return .bool (← KeyIndexedSet.isEmpty)
  | .capacity => do return .int (← KeyIndexedSet.capacity)
  | .forEach => do return .keys (← KeyIndexedSet.forEach fuel pure)
  | .forEachEntry => do return .ints (← KeyIndexedSet.forEachEntry fuel pure)
  | .clear => do KeyIndexedSet.clear; pure .unit
  | .setHashMethod h => do KeyIndexedSet.setHashMethod h; pure .unit
  | .setEqMethod q => do KeyIndexedSet.setEqMethod q; pure .unit

theorem step_S (fuel : Nat) (o : SetOp K) : S Eq (Map.step fuel o.op) (step fuel o) s v := by
  cases o with
  | add k => exact .bind (add_S s v fuel k) fun _ _ _ _ => S.pure
  | lookupEntry k => exact .bind (lookupEntry_S s v fuel k) fun _ _ _ _ => S.pure
  | containsKey k => exact .bind (containsKey_S s v fuel k) fun _ _ _ _ => S.pure
  | remove k => exact .bind (remove1_S s v fuel k) fun _ _ _ _ => S.pure
  | removeAt e => exact .bind (removeAt_S s v fuel e) fun _ _ _ _ => S.pure
  | removeAtAndReserve e => exact .bind (removeAtAndReserve_S s v fuel e) fun _ _ _ _ => S.pure
  | freeReservedEntry e => exact .bind (freeReservedEntry_S s v e) fun _ _ _ _ => S.pure
  | getKeyAt e => exact .bind (getKeyAt_S s v e) fun _ _ _ _ => S.pure
  | size => exact .bind (size_S s v) fun _ _ _ _ => S.pure
  | isEmpty => exact .bind (isEmpty_S s v) fun _ _ _ _ => S.pure
  | capacity => exact .bind (capacity_S s v) fun _ _ _ _ => S.pure
  | forEach => exact .bind (forEach_S s v fuel fun _ _ _ => S.pure) fun _ _ _ _ => S.pure
  | forEachEntry => exact .bind (forEachEntry_S s v fuel fun _ _ _ => S.pure) fun _ _ _ _ => S.pure
  | clear => exact .bind (clear_S s v) fun _ _ _ _ => S.pure
  | setHashMethod h => exact .bind (setHashMethod_S s v h) fun _ _ _ _ => S.pure
  | setEqMethod q => exact .bind (setEqMethod_S s v q) fun _ _ _ _ => S.pure

end Verif.Link.SetL

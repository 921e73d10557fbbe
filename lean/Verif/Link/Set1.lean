import Verif.Link.Index6
import Verif.Gen.KeyIndexedSet
/-!
`KeyIndexedSet.ftl`: the generated set does what the generated map does with its values left out.  Both come
from `BaseKeyIndex.ftl` and `BaseHash.java`; they differ in `removeValue`, `growValues`, `clearValues`, `add`,
`copyFrom` and the constructors.
-/
set_option linter.unusedSectionVars false
namespace Verif.Link.SetL
open Verif Verif.Gen
variable {K V : Type} [Inhabited K] [Inhabited V] {α β γ : Type}

/-- The same object with other contents of the value array. -/
def withV (s : Index K V) (v : Arr V) : Index K V := { s with values := v }

theorem withV_heads (s : Index K V) (v : Arr V) : (withV s v).heads = s.heads := rfl
theorem withV_nexts (s : Index K V) (v : Arr V) : (withV s v).nexts = s.nexts := rfl
theorem withV_keys (s : Index K V) (v : Arr V) : (withV s v).keys = s.keys := rfl
theorem withV_capacity (s : Index K V) (v : Arr V) : (withV s v).capacity = s.capacity := rfl
theorem withV_capThreshold (s : Index K V) (v : Arr V) : (withV s v).capThreshold = s.capThreshold := rfl
theorem withV_size (s : Index K V) (v : Arr V) : (withV s v).size = s.size := rfl
theorem withV_freeList (s : Index K V) (v : Arr V) : (withV s v).freeList = s.freeList := rfl
theorem withV_nextUnusedEntry (s : Index K V) (v : Arr V) : (withV s v).nextUnusedEntry = s.nextUnusedEntry := rfl
theorem withV_maxHead (s : Index K V) (v : Arr V) : (withV s v).maxHead = s.maxHead := rfl
theorem withV_modificationCount (s : Index K V) (v : Arr V) : (withV s v).modificationCount = s.modificationCount := rfl
theorem withV_hashFunc (s : Index K V) (v : Arr V) : (withV s v).hashFunc = s.hashFunc := rfl
theorem withV_equalFunc (s : Index K V) (v : Arr V) : (withV s v).equalFunc = s.equalFunc := rfl
theorem withV_lfNum (s : Index K V) (v : Arr V) : (withV s v).lfNum = s.lfNum := rfl
theorem withV_lfDen (s : Index K V) (v : Arr V) : (withV s v).lfDen = s.lfDen := rfl
theorem withV_values (s : Index K V) (v : Arr V) : (withV s v).values = v := rfl

/-- From objects that differ only in their value arrays, `g` (the set) returns or throws what `m` (the map)
does, and the objects again differ only there.  `p` relates the lengths of the map's key and value arrays. -/
def S (p : Nat → Nat → Prop) (m g : JM (Index K V) α) (s : Index K V) (v : Arr V) : Prop :=
  p s.keys.len s.values.len →
  match m s with
  | .ok a t => p t.keys.len t.values.len ∧ ∃ w, g (withV s v) = .ok a (withV t w)
  | .err e t => ∃ w, g (withV s v) = .err e (withV t w)

theorem bind_pure' (m : JM (Index K V) α) : (m >>= Pure.pure) = m := by
  apply JM_ext; intro s
  rw [JM.bind_apply]; cases m s <;> rfl

namespace S
variable {p : Nat → Nat → Prop} {m g : JM (Index K V) α} {s : Index K V} {v : Arr V}
  {f h : α → JM (Index K V) β}

theorem pure {a : α} : S p (Pure.pure a) (Pure.pure a) s v := fun hp => ⟨hp, v, rfl⟩
theorem throw {e : Err} : S p (JM.throw e : JM (Index K V) α) (JM.throw e) s v := fun _ => ⟨v, rfl⟩

theorem bind (h1 : S p m g s v) (h2 : ∀ a t w, m s = .ok a t → S p (f a) (h a) t w) :
    S p (m >>= f) (g >>= h) s v := by
  intro hp
  have h1 := h1 hp
  rw [JM.bind_apply]
  cases hm : m s with
  | err e t =>
    rw [hm] at h1
    obtain ⟨w, hw⟩ := h1
    exact ⟨w, by rw [JM.bind_err hw]⟩
  | ok a t =>
    rw [hm] at h1
    obtain ⟨hp', w, hw⟩ := h1
    have h2 := h2 a t w hm hp'
    rw [JM.bind_ok hw]
    exact h2

/-- the same step, which does not look at the object -/
theorem stepL {m : JM (Index K V) α} (hm : ∃ r, ∀ s, m s = ofExcept r s)
    (h2 : ∀ a, m s = .ok a s → S p (f a) (h a) s v) : S p (m >>= f) (m >>= h) s v := by
  obtain ⟨r, hr⟩ := hm
  intro hp
  rw [JM.bind_apply, JM.bind_apply, hr s, hr (withV s v)]
  cases r with
  | error e => exact ⟨v, rfl⟩
  | ok a => exact h2 a (hr s) hp

theorem get {f h : Index K V → JM (Index K V) β} (h2 : S p (f s) (h (withV s v)) s v) :
    S p (MonadState.get >>= f) (MonadState.get >>= h) s v := h2

theorem rd {arr : Index K V → Arr α} {i : Int} (ha : arr (withV s v) = arr s)
    (h2 : ∀ a, S p (f a) (h a) s v) : S p (Verif.rd arr i >>= f) (Verif.rd arr i >>= h) s v := by
  intro hp
  rw [JM.bind_apply, JM.bind_apply]
  simp only [Verif.rd, ha]
  by_cases hb : 0 ≤ i ∧ i < (arr s).len
  · simp only [if_pos hb]; exact h2 _ hp
  · simp only [if_neg hb]; exact ⟨v, rfl⟩

theorem wr {arr : Index K V → Arr α} {put : Index K V → Arr α → Index K V} {i : Int} {x : α}
    {f h : Unit → JM (Index K V) β} (ha : arr (withV s v) = arr s)
    (hput : ∀ a, put (withV s v) a = withV (put s a) v)
    (hk : (put s ((arr s).set i x)).keys.len = s.keys.len ∧ (put s ((arr s).set i x)).values.len = s.values.len)
    (h2 : S p (f ()) (h ()) (put s ((arr s).set i x)) v) :
    S p (Verif.wr arr put i x >>= f) (Verif.wr arr put i x >>= h) s v := by
  intro hp
  rw [JM.bind_apply, JM.bind_apply]
  simp only [Verif.wr, ha, hput]
  by_cases hb : 0 ≤ i ∧ i < (arr s).len
  · simp only [if_pos hb]; exact h2 (by rw [hk.1, hk.2]; exact hp)
  · simp only [if_neg hb]; exact ⟨v, rfl⟩

theorem wr' {arr : Index K V → Arr α} {put : Index K V → Arr α → Index K V} {i : Int} {x : α}
    {f h : Unit → JM (Index K V) β} (ha : arr (withV s v) = arr s)
    (hput : ∀ a, put (withV s v) a = withV (put s a) v)
    (hk : (put s ((arr s).set i x)).keys.len = s.keys.len ∧ (put s ((arr s).set i x)).values.len = s.values.len)
    (h2 : 0 ≤ i ∧ i < (arr s).len → S p (f ()) (h ()) (put s ((arr s).set i x)) v) :
    S p (Verif.wr arr put i x >>= f) (Verif.wr arr put i x >>= h) s v := by
  intro hp
  rw [JM.bind_apply, JM.bind_apply]
  simp only [Verif.wr, ha, hput]
  by_cases hb : 0 ≤ i ∧ i < (arr s).len
  · simp only [if_pos hb]; exact h2 hb (by rw [hk.1, hk.2]; exact hp)
  · simp only [if_neg hb]; exact ⟨v, rfl⟩

theorem modify {u u' : Index K V → Index K V} {f h : PUnit → JM (Index K V) β}
    (hu : u' (withV s v) = withV (u s) v)
    (hk : (u s).keys.len = s.keys.len ∧ (u s).values.len = s.values.len)
    (h2 : S p (f ⟨⟩) (h ⟨⟩) (u s) v) :
    S p ((_root_.modify u : JM (Index K V) PUnit) >>= f) ((_root_.modify u' : JM (Index K V) PUnit) >>= h) s v := by
  intro hp
  rw [JM.bind_ok (JM.modify_apply u s), JM.bind_ok (JM.modify_apply u' _), hu]
  exact h2 (by rw [hk.1, hk.2]; exact hp)

theorem ite {c d : Prop} [Decidable c] [Decidable d] {m n g k : JM (Index K V) α} (hcd : c ↔ d)
    (h1 : S p m g s v) (h2 : S p n k s v) : S p (if c then m else n) (if d then g else k) s v := by
  by_cases hc : c
  · rw [if_pos hc, if_pos (hcd.1 hc)]; exact h1
  · rw [if_neg hc, if_neg (fun h => hc (hcd.2 h))]; exact h2

/-- a value step of the map alone -/
theorem left {m : JM (Index K V) Unit} {f : Unit → JM (Index K V) β} {g : JM (Index K V) β}
    (hm : p s.keys.len s.values.len → ∃ w, m s = .ok () (withV s w) ∧ w.len = s.values.len)
    (h2 : ∀ w, S p (f ()) g (withV s w) v) : S p (m >>= f) g s v := by
  intro hp
  obtain ⟨w, hw, hl⟩ := hm hp
  rw [JM.bind_ok hw]
  have := h2 w (by show p s.keys.len w.len; rw [hl]; exact hp)
  exact this

end S

/-- one step of both programs -/
macro "ss" : tactic => `(tactic| first
  | exact S.pure
  | exact S.throw
  | (refine S.get ?_; simp only [withV_heads, withV_nexts, withV_keys, withV_capacity, withV_capThreshold, withV_size, withV_freeList, withV_nextUnusedEntry, withV_maxHead, withV_modificationCount, withV_hashFunc, withV_equalFunc, withV_lfNum, withV_lfDen])
  | refine S.rd rfl fun _ => ?_
  | refine S.wr rfl (fun _ => rfl) ⟨rfl, rfl⟩ ?_
  | refine S.modify rfl ⟨rfl, rfl⟩ ?_
  | refine S.ite Iff.rfl ?_ ?_
  | refine S.bind (S.ite Iff.rfl ?_ ?_) fun _ _ _ _ => ?_)

variable {p : Nat → Nat → Prop} (s : Index K V) (v : Arr V)

theorem computeHead_S (k : K) : S p (KeyValueIndexedMap.computeHead k) (KeyIndexedSet.computeHead k) s v := by
  unfold KeyValueIndexedMap.computeHead KeyIndexedSet.computeHead
  generalize MAX_INT = M
  refine S.get ?_
  simp only [withV_heads, withV_hashFunc]
  exact S.pure

theorem lookupLoop_S (k : K) : ∀ (n : Nat) (e : Int) (s : Index K V) (v : Arr V),
    S p (KeyValueIndexedMap.lookupEntry_loop1 k n e) (KeyIndexedSet.lookupEntry_loop1 k n e) s v
  | 0, _, _, _ => S.throw
  | n + 1, e, s, v => by
    unfold KeyValueIndexedMap.lookupEntry_loop1 KeyIndexedSet.lookupEntry_loop1
    repeat first | ss | exact lookupLoop_S k n _ _ _

theorem lookupEntry_S (fuel : Nat) (k : K) :
    S p (KeyValueIndexedMap.lookupEntry fuel k) (KeyIndexedSet.lookupEntry fuel k) s v := by
  unfold KeyValueIndexedMap.lookupEntry KeyIndexedSet.lookupEntry
  refine .bind (computeHead_S s v k) fun _ _ _ _ => ?_
  refine .rd rfl fun _ => ?_
  refine .bind (lookupLoop_S k fuel _ _ _) fun r _ _ _ => ?_
  cases r <;> exact S.pure

theorem containsKey_S (fuel : Nat) (k : K) :
    S p (KeyValueIndexedMap.containsKey fuel k) (KeyIndexedSet.containsKey fuel k) s v := by
  unfold KeyValueIndexedMap.containsKey KeyIndexedSet.containsKey
  exact .bind (lookupEntry_S s v fuel k) fun _ _ _ _ => S.pure

theorem getKeyAt_S (e : Int) : S p (KeyValueIndexedMap.getKeyAt e) (KeyIndexedSet.getKeyAt e) s v := by
  unfold KeyValueIndexedMap.getKeyAt KeyIndexedSet.getKeyAt
  rw [← bind_pure' (rd Index.keys e)]
  exact .rd rfl fun _ => S.pure

theorem removeValue_ok {t : Index K V} {e : Int} (hb : 0 ≤ e ∧ e < t.values.len) :
    KeyValueIndexedMap.removeValue e t = .ok () (withV t (t.values.set e default)) := by
  unfold KeyValueIndexedMap.removeValue
  simp only [wr, bind_unit]
  rw [if_pos hb]
  rfl

theorem freeReservedEntry_S (e : Int) :
    S Eq (KeyValueIndexedMap.freeReservedEntry e) (KeyIndexedSet.freeReservedEntry e) s v := by
  unfold KeyValueIndexedMap.freeReservedEntry KeyIndexedSet.freeReservedEntry
  refine .get (.wr rfl (fun _ => rfl) ⟨rfl, rfl⟩ (.modify rfl ⟨rfl, rfl⟩ ?_))
  refine .wr' rfl (fun _ => rfl) ⟨rfl, rfl⟩ fun hb => ?_
  refine .left (fun hp => ⟨_, removeValue_ok ?_, rfl⟩) fun _ => S.pure
  have : s.keys.len = s.values.len := hp
  have h1 : e < (s.keys.len : Int) := hb.2
  rw [this] at h1
  exact ⟨hb.1, h1⟩

theorem removeKeyLoop_S (k : K) (free : Bool) (head : Int) : ∀ (n : Nat) (q e : Int) (s : Index K V) (v : Arr V),
    S Eq (KeyValueIndexedMap.removeKey_loop1 k free head n q e) (KeyIndexedSet.removeKey_loop1 k free head n q e) s v
  | 0, _, _, _, _ => S.throw
  | n + 1, q, e, s, v => by
    unfold KeyValueIndexedMap.removeKey_loop1 KeyIndexedSet.removeKey_loop1
    repeat first
      | exact removeKeyLoop_S k free head n _ _ _ _
      | refine S.bind (freeReservedEntry_S _ _ _) fun _ _ _ _ => ?_
      | ss

theorem removeKey_S (fuel : Nat) (k : K) (free : Bool) :
    S Eq (KeyValueIndexedMap.removeKey fuel k free) (KeyIndexedSet.removeKey fuel k free) s v := by
  unfold KeyValueIndexedMap.removeKey KeyIndexedSet.removeKey
  refine .bind (computeHead_S s v k) fun _ _ _ _ => ?_
  refine .rd rfl fun _ => .ite Iff.rfl S.pure ?_
  refine .bind (removeKeyLoop_S k free _ fuel _ _ _ _) fun r _ _ _ => ?_
  cases r <;> exact S.pure

theorem remove1_S (fuel : Nat) (k : K) :
    S Eq (KeyValueIndexedMap.remove1 fuel k) (KeyIndexedSet.remove1 fuel k) s v := by
  unfold KeyValueIndexedMap.remove1 KeyIndexedSet.remove1
  exact removeKey_S s v fuel k true

theorem getHeadLoop_S : ∀ (n : Nat) (e : Int) (s : Index K V) (v : Arr V),
    S p (KeyValueIndexedMap.getHead_loop1 n e) (KeyIndexedSet.getHead_loop1 n e) s v
  | 0, _, _, _ => S.throw
  | n + 1, e, s, v => by
    unfold KeyValueIndexedMap.getHead_loop1 KeyIndexedSet.getHead_loop1
    repeat first | exact getHeadLoop_S n _ _ _ | ss

theorem removeAtLoop_S (entry head : Int) : ∀ (n : Nat) (q e : Int) (s : Index K V) (v : Arr V),
    S Eq (KeyValueIndexedMap.removeAt_loop1 entry head n q e) (KeyIndexedSet.removeAt_loop1 entry head n q e) s v
  | 0, _, _, _, _ => S.throw
  | n + 1, q, e, s, v => by
    unfold KeyValueIndexedMap.removeAt_loop1 KeyIndexedSet.removeAt_loop1
    repeat first
      | exact removeAtLoop_S entry head n _ _ _ _
      | refine S.bind (freeReservedEntry_S _ _ _) fun _ _ _ _ => ?_
      | ss

theorem removeAt_S (fuel : Nat) (e : Int) :
    S Eq (KeyValueIndexedMap.removeAt fuel e) (KeyIndexedSet.removeAt fuel e) s v := by
  unfold KeyValueIndexedMap.removeAt KeyIndexedSet.removeAt KeyValueIndexedMap.getHead KeyIndexedSet.getHead
  refine .bind (.bind (getHeadLoop_S fuel e s v) fun _ _ _ _ => S.pure) fun _ _ _ _ => ?_
  refine .rd rfl fun _ => ?_
  exact .bind (removeAtLoop_S e _ fuel _ _ _ _) fun r _ _ _ => S.pure

theorem removeAtAndReserve_S (fuel : Nat) (e : Int) :
    S Eq (KeyValueIndexedMap.removeAtAndReserve fuel e) (KeyIndexedSet.removeAtAndReserve fuel e) s v := by
  unfold KeyValueIndexedMap.removeAtAndReserve KeyIndexedSet.removeAtAndReserve
  refine .rd rfl fun _ => .bind (removeKey_S _ _ fuel _ _) fun _ _ _ _ => S.pure

theorem allocateNewEntry_S : S p (KeyValueIndexedMap.allocateNewEntry : JM (Index K V) Int) KeyIndexedSet.allocateNewEntry s v := by
  unfold KeyValueIndexedMap.allocateNewEntry KeyIndexedSet.allocateNewEntry
  repeat ss

theorem registerNewEntryForHead_S (head e : Int) :
    S p (KeyValueIndexedMap.registerNewEntryForHead head e) (KeyIndexedSet.registerNewEntryForHead head e) s v := by
  unfold KeyValueIndexedMap.registerNewEntryForHead KeyIndexedSet.registerNewEntryForHead
  repeat ss

theorem updateMaxHead_S (head : Int) :
    S p (KeyValueIndexedMap.updateMaxHead head) (KeyIndexedSet.updateMaxHead head) s v := by
  unfold KeyValueIndexedMap.updateMaxHead KeyIndexedSet.updateMaxHead
  repeat ss

end Verif.Link.SetL

import Verif.Link.Set1
/-! `KeyIndexedSet.ftl`: adding, clearing, walking, copying. -/
set_option linter.unusedSectionVars false
namespace Verif.Link.SetL
open Verif Verif.Gen
variable {K V : Type} [Inhabited K] [Inhabited V] {α β γ : Type}
variable {p : Nat → Nat → Prop} (s : Index K V) (v : Arr V)

theorem rdA_local (σ : Type) {α : Type} (a : Arr α) (i : Int) : ∃ r, ∀ s, (rdA a i : JM σ α) s = ofExcept r s := by
  by_cases h : 0 ≤ i ∧ i < a.len
  · exact ⟨.ok (a.get i), fun s => by simp only [rdA, if_pos h]; rfl⟩
  · exact ⟨.error .indexOutOfBounds, fun s => by simp only [rdA, if_neg h]; rfl⟩

theorem arraysFill_local (σ : Type) {α : Type} (a : Arr α) (i n : Int) (v : α) :
    ∃ r, ∀ s, (arraysFill a i n v : JM σ (Arr α)) s = ofExcept r s := by
  unfold arraysFill
  by_cases h : i > n
  · exact ⟨.error .illegalArgument, fun s => by simp only [if_pos h]; rfl⟩
  · by_cases h' : i < 0 ∨ n > a.len
    · exact ⟨.error .indexOutOfBounds, fun s => by simp only [if_neg h, if_pos h']; rfl⟩
    · exact ⟨.ok _, fun s => by simp only [if_neg h, if_neg h']; rfl⟩

theorem calculateNewCapacity_S :
    S p (KeyValueIndexedMap.calculateNewCapacity : JM (Index K V) Unit) KeyIndexedSet.calculateNewCapacity s v := by
  unfold KeyValueIndexedMap.calculateNewCapacity KeyIndexedSet.calculateNewCapacity
  generalize i32 (i32 (Int.tdiv MAX_INT 4) + 1) = M
  refine .get ?_
  simp only [withV_capacity, withV_capThreshold]
  refine .stepL ?_ fun _ _ => ?_
  · rw [calculateNewCapacity_eq]; exact calc_local _ _ _
  repeat ss

theorem rehashLoop2_S (on : Arr Int) (ok : Arr K) : ∀ (n : Nat) (e : Int) (s : Index K V) (v : Arr V),
    S p (KeyValueIndexedMap.rehash_loop2 on ok n e) (KeyIndexedSet.rehash_loop2 on ok n e) s v
  | 0, _, _, _ => S.throw
  | n + 1, e, s, v => by
    unfold KeyValueIndexedMap.rehash_loop2 KeyIndexedSet.rehash_loop2
    refine .ite Iff.rfl ?_ S.pure
    refine .stepL (rdA_local _ _ _) fun _ _ => ?_
    refine .bind (computeHead_S _ _ _) fun _ _ _ _ => ?_
    refine .bind (registerNewEntryForHead_S _ _ _ _) fun _ _ _ _ => ?_
    refine .bind (updateMaxHead_S _ _ _) fun _ _ _ _ => ?_
    refine .stepL (rdA_local _ _ _) fun _ _ => ?_
    exact rehashLoop2_S on ok n _ _ _

theorem rehashLoop1_S (fuel : Nat) (oh on : Arr Int) (ok : Arr K) (len : Int) :
    ∀ (n : Nat) (e : Int) (s : Index K V) (v : Arr V),
    S p (KeyValueIndexedMap.rehash_loop1 fuel oh on ok len n e) (KeyIndexedSet.rehash_loop1 fuel oh on ok len n e) s v
  | 0, _, _, _ => S.throw
  | n + 1, e, s, v => by
    unfold KeyValueIndexedMap.rehash_loop1 KeyIndexedSet.rehash_loop1
    refine .ite Iff.rfl ?_ S.pure
    refine .stepL (rdA_local _ _ _) fun _ _ => ?_
    refine .bind (rehashLoop2_S on ok fuel _ _ _) fun _ _ _ _ => ?_
    exact rehashLoop1_S fuel oh on ok len n _ _ _

/-- What `ensureSize` does is a matter of lengths. -/
theorem ensureSize_len {σ τ : Type} {α β : Type} (a : Arr α) (b : Arr β) (h : a.len = b.len) (n : Int) (d : α) (d' : β)
    (s : σ) {a' : Arr α} {t : σ} (ha : ensureSize a n d s = .ok a' t) :
    ∃ b' : Arr β, (∀ u : τ, ensureSize b n d' u = .ok b' u) ∧ b'.len = a'.len := by
  by_cases hc : n > b.len
  · unfold ensureSize at ha ⊢
    rw [h] at ha
    cases hg : growLoop n 64 (if (b.len : Int) = 0 then 1 else b.len) with
    | none =>
      simp only [hc, if_true, JM.bind_apply, grow, hg] at ha
      cases ha
    | some r =>
      have hr := growLoop_ge _ _ _ _ hg
      have hr0 : 0 ≤ r := by omega
      simp only [hc, if_true, JM.bind_apply, grow, hg, copyOf, hr0] at ha ⊢
      injection ha with h1 _
      subst h1
      exact ⟨b.copyOf r d', fun _ => rfl, by simp only [Arr.len_copyOf]⟩
  · unfold ensureSize at ha ⊢
    rw [h] at ha
    simp only [if_neg hc] at ha ⊢
    injection ha with h1 _
    exact ⟨b, fun _ => rfl, by rw [← h1, h]⟩

theorem growBoth_S {c : Int} {f h : Unit → JM (Index K V) β} {s : Index K V} {v : Arr V} (hc : s.capacity = c)
    (h2 : ∀ t w, S Eq (f ()) (h ()) t w) :
    S Eq (KeyValueIndexedMap.growKeys c >>= fun _ => get >>= fun s7 : Index K V => KeyValueIndexedMap.growValues s7.capacity >>= f)
      (KeyIndexedSet.growKeys c >>= fun _ => get >>= fun s7 : Index K V => KeyIndexedSet.growValues s7.capacity >>= h) s v := by
  intro hp
  subst hc
  obtain ⟨r, hr, _⟩ := ensureSize_local (Index K V) s.keys s.capacity default
  unfold KeyValueIndexedMap.growKeys KeyIndexedSet.growKeys KeyValueIndexedMap.growValues KeyIndexedSet.growValues
  simp only [assoc, bind_unit]
  cases r with
  | error e =>
    have e1 : ∀ u : Index K V, ensureSize s.keys s.capacity default u = .err e u := hr
    rw [JM.bind_apply]
    simp only [JM.get_apply]
    rw [JM.bind_err (e1 s)]
    refine ⟨v, ?_⟩
    rw [JM.bind_apply]
    simp only [JM.get_apply, withV_keys]
    rw [JM.bind_err (e1 _)]
  | ok ks =>
    have e1 : ∀ u : Index K V, ensureSize s.keys s.capacity default u = .ok ks u := hr
    obtain ⟨vs, hv, hl⟩ := ensureSize_len (τ := Index K V) s.keys s.values hp s.capacity default default s (e1 s)
    rw [JM.bind_apply]
    simp only [JM.get_apply]
    rw [JM.bind_ok (e1 s), JM.bind_ok (JM.modify_apply _ _), JM.bind_apply]
    simp only [JM.get_apply]
    rw [JM.bind_apply]
    simp only [JM.get_apply]
    rw [JM.bind_ok (hv _), JM.bind_ok (JM.modify_apply _ _)]
    have := h2 { s with keys := ks, values := vs } v hl.symm
    have e2 : ((get : JM (Index K V) (Index K V)) >>= fun s1 => ensureSize s1.keys s.capacity default >>= fun v2 =>
        (modify fun self : Index K V => { self with keys := v2 }) >>= fun _ => get >>= fun s7 : Index K V =>
          (pure () : JM (Index K V) Unit) >>= h) (withV s v) = h () (withV { s with keys := ks, values := vs } v) := by
      rw [JM.bind_apply]
      simp only [JM.get_apply, withV_keys]
      rw [JM.bind_ok (e1 _), JM.bind_ok (JM.modify_apply _ _)]
      rfl
    rw [e2]
    exact this

theorem rehash_S (fuel : Nat) : S Eq (KeyValueIndexedMap.rehash fuel : JM (Index K V) Unit) (KeyIndexedSet.rehash fuel) s v := by
  unfold KeyValueIndexedMap.rehash KeyIndexedSet.rehash
  refine .get ?_
  simp only [withV_heads, withV_nexts, withV_keys]
  refine .bind (calculateNewCapacity_S _ _) fun _ t _ _ => ?_
  refine .get (.stepL (newArr_local _ _ _) fun _ _ => .modify rfl ⟨rfl, rfl⟩ ?_)
  refine .get (.stepL (newArr_local _ _ _) fun _ _ => .modify rfl ⟨rfl, rfl⟩ ?_)
  refine .get (growBoth_S rfl fun t w => ?_)
  refine .get ?_
  simp only [withV_maxHead]
  refine .modify rfl ⟨rfl, rfl⟩ ?_
  refine .bind (rehashLoop1_S fuel _ _ _ _ fuel _ _ _) fun _ _ _ _ => ?_
  repeat ss

theorem addLoop_S (k : K) : ∀ (n : Nat) (e : Int) (s : Index K V) (v : Arr V),
    S p (KeyValueIndexedMap.super_add_loop1 k n e) (KeyIndexedSet.add_loop1 k n e) s v
  | 0, _, _, _ => S.throw
  | n + 1, e, s, v => by
    unfold KeyValueIndexedMap.super_add_loop1 KeyIndexedSet.add_loop1
    repeat first | exact addLoop_S k n _ _ _ | ss

theorem superAdd_S (fuel : Nat) (k : K) :
    S Eq (KeyValueIndexedMap.super_add fuel k) (KeyIndexedSet.add fuel k) s v := by
  unfold KeyValueIndexedMap.super_add KeyIndexedSet.add
  refine .bind (computeHead_S s v k) fun _ _ _ _ => ?_
  refine .rd rfl fun _ => ?_
  refine .bind (addLoop_S k fuel _ _ _) fun r _ _ _ => ?_
  cases r with
  | ret x => exact S.pure
  | next x =>
    refine .bind (allocateNewEntry_S _ _) fun _ _ _ _ => .get ?_
    simp only [withV_capThreshold]
    refine .bind (.ite Iff.rfl (.bind (rehash_S _ _ _) fun _ _ _ _ => .bind (computeHead_S _ _ _) fun _ _ _ _ => S.pure)
      S.pure) fun _ _ _ _ => ?_
    refine .bind (registerNewEntryForHead_S _ _ _ _) fun _ _ _ _ => ?_
    refine .wr rfl (fun _ => rfl) ⟨rfl, rfl⟩ ?_
    refine .bind (updateMaxHead_S _ _ _) fun _ _ _ _ => ?_
    repeat ss

theorem forEachLoop2_S {c c' : K → JM (Index K V) β} (hc : ∀ k s v, S p (c k) (c' k) s v) :
    ∀ (n : Nat) (acc : List β) (hits e : Int) (s : Index K V) (v : Arr V),
    S p (KeyValueIndexedMap.forEach_loop2 c n acc hits e) (KeyIndexedSet.forEach_loop2 c' n acc hits e) s v
  | 0, _, _, _, _, _ => S.throw
  | n + 1, acc, hits, e, s, v => by
    unfold KeyValueIndexedMap.forEach_loop2 KeyIndexedSet.forEach_loop2
    refine .ite Iff.rfl (.rd rfl fun _ => .rd rfl fun _ => .bind (hc _ _ _) fun _ _ _ _ => ?_) S.pure
    exact forEachLoop2_S hc n _ _ _ _ _

theorem forEachLoop1_S (fuel : Nat) {c c' : K → JM (Index K V) β} (hc : ∀ k s v, S p (c k) (c' k) s v) (N : Int) :
    ∀ (n : Nat) (acc : List β) (hits e : Int) (s : Index K V) (v : Arr V),
    S p (KeyValueIndexedMap.forEach_loop1 fuel c N n acc hits e) (KeyIndexedSet.forEach_loop1 fuel c' N n acc hits e) s v
  | 0, _, _, _, _, _ => S.throw
  | n + 1, acc, hits, e, s, v => by
    unfold KeyValueIndexedMap.forEach_loop1 KeyIndexedSet.forEach_loop1
    refine .get ?_
    simp only [withV_heads]
    refine .ite Iff.rfl (.rd rfl fun _ => .bind (forEachLoop2_S hc fuel _ _ _ _ _) fun r _ _ _ => ?_) S.pure
    exact forEachLoop1_S fuel hc N n _ _ _ _ _

theorem forEach_S (fuel : Nat) {c c' : K → JM (Index K V) β} (hc : ∀ k s v, S p (c k) (c' k) s v) :
    S p (KeyValueIndexedMap.forEach fuel c) (KeyIndexedSet.forEach fuel c') s v := by
  unfold KeyValueIndexedMap.forEach KeyIndexedSet.forEach
  refine .get ?_
  simp only [withV_size]
  exact .ite Iff.rfl S.pure (.bind (forEachLoop1_S fuel hc _ fuel _ _ _ _ _) fun r _ _ _ => S.pure)

theorem forEachEntryLoop2_S {c c' : Int → JM (Index K V) β} (hc : ∀ k s v, S p (c k) (c' k) s v) :
    ∀ (n : Nat) (acc : List β) (hits e : Int) (s : Index K V) (v : Arr V),
    S p (KeyValueIndexedMap.forEachEntry_loop2 c n acc hits e) (KeyIndexedSet.forEachEntry_loop2 c' n acc hits e) s v
  | 0, _, _, _, _, _ => S.throw
  | n + 1, acc, hits, e, s, v => by
    unfold KeyValueIndexedMap.forEachEntry_loop2 KeyIndexedSet.forEachEntry_loop2
    refine .ite Iff.rfl (.rd rfl fun _ => .bind (hc _ _ _) fun _ _ _ _ => ?_) S.pure
    exact forEachEntryLoop2_S hc n _ _ _ _ _

theorem forEachEntryLoop1_S (fuel : Nat) {c c' : Int → JM (Index K V) β} (hc : ∀ k s v, S p (c k) (c' k) s v) (N : Int) :
    ∀ (n : Nat) (acc : List β) (hits e : Int) (s : Index K V) (v : Arr V),
    S p (KeyValueIndexedMap.forEachEntry_loop1 fuel c N n acc hits e) (KeyIndexedSet.forEachEntry_loop1 fuel c' N n acc hits e) s v
  | 0, _, _, _, _, _ => S.throw
  | n + 1, acc, hits, e, s, v => by
    unfold KeyValueIndexedMap.forEachEntry_loop1 KeyIndexedSet.forEachEntry_loop1
    refine .get ?_
    simp only [withV_heads]
    refine .ite Iff.rfl (.rd rfl fun _ => .bind (forEachEntryLoop2_S hc fuel _ _ _ _ _) fun r _ _ _ => ?_) S.pure
    exact forEachEntryLoop1_S fuel hc N n _ _ _ _ _

theorem forEachEntry_S (fuel : Nat) {c c' : Int → JM (Index K V) β} (hc : ∀ k s v, S p (c k) (c' k) s v) :
    S p (KeyValueIndexedMap.forEachEntry fuel c) (KeyIndexedSet.forEachEntry fuel c') s v := by
  unfold KeyValueIndexedMap.forEachEntry KeyIndexedSet.forEachEntry
  refine .get ?_
  simp only [withV_size]
  exact .ite Iff.rfl S.pure (.bind (forEachEntryLoop1_S fuel hc _ fuel _ _ _ _ _) fun r _ _ _ => S.pure)

theorem setHashMethod_S (hf : K → BitVec 32) :
    S p (KeyValueIndexedMap.setHashMethod hf) (KeyIndexedSet.setHashMethod hf : JM (Index K V) Unit) s v := by
  unfold KeyValueIndexedMap.setHashMethod KeyIndexedSet.setHashMethod KeyValueIndexedMap._setHashMethod KeyIndexedSet._setHashMethod
  refine .bind ?_ fun _ _ _ _ => S.pure
  repeat ss

theorem setEqMethod_S (q : K → K → Bool) :
    S p (KeyValueIndexedMap.setEqMethod q) (KeyIndexedSet.setEqMethod q : JM (Index K V) Unit) s v := by
  unfold KeyValueIndexedMap.setEqMethod KeyIndexedSet.setEqMethod KeyValueIndexedMap._setEqMethod KeyIndexedSet._setEqMethod
  refine .bind ?_ fun _ _ _ _ => S.pure
  repeat ss

theorem size_S : S p (KeyValueIndexedMap.size : JM (Index K V) Int) KeyIndexedSet.size s v := by
  unfold KeyValueIndexedMap.size KeyIndexedSet.size; repeat ss
theorem isEmpty_S : S p (KeyValueIndexedMap.isEmpty : JM (Index K V) Bool) KeyIndexedSet.isEmpty s v := by
  unfold KeyValueIndexedMap.isEmpty KeyIndexedSet.isEmpty; repeat ss
theorem capacity_S : S p (KeyValueIndexedMap.capacity : JM (Index K V) Int) KeyIndexedSet.capacity s v := by
  unfold KeyValueIndexedMap.capacity KeyIndexedSet.capacity; repeat ss

end Verif.Link.SetL

import Verif.Link.IndexEffProps
import Verif.Link.Set4
import Verif.Gen.KeyIndexedSetEff
/-! `KeyIndexedSet.ftl` with functions that have effects: the generated set does what the generated map does with its
values left out (as Link/Set1 - Set4.lean show for functions without effects). -/
set_option linter.unusedSectionVars false
namespace Verif.Link.SetEff
open Verif Verif.Gen Index IndexSpec IndexEff IndexEffSpec IndexEffProof SetL
variable {σ K V : Type} [Inhabited K] [Inhabited V] {α β γ : Type} {eff : Effects σ K}

/-- `S` of Link/Set1.lean, for objects next to an outside state. -/
def E (p : Nat → Nat → Prop) (m g : JM (IndexObs σ K V) α) (s : Index K V) (v : Arr V) (u : σ) : Prop :=
  p s.keys.len s.values.len →
  match m ⟨s, u⟩ with
  | .ok a t => p t.index.keys.len t.index.values.len ∧ ∃ w, g ⟨withV s v, u⟩ = .ok a ⟨withV t.index w, t.ext⟩
  | .err e t => ∃ w, g ⟨withV s v, u⟩ = .err e ⟨withV t.index w, t.ext⟩

namespace E
variable {p : Nat → Nat → Prop} {m g : JM (IndexObs σ K V) α} {s : Index K V} {v : Arr V} {u : σ}
  {f h : α → JM (IndexObs σ K V) β}

theorem pure {a : α} : E p (Pure.pure a) (Pure.pure a) s v u := fun hp => ⟨hp, v, rfl⟩
theorem throw {e : Err} : E p (JM.throw e : JM (IndexObs σ K V) α) (JM.throw e) s v u := fun _ => ⟨v, rfl⟩

theorem bind (h1 : E p m g s v u) (h2 : ∀ a t w u', m ⟨s, u⟩ = .ok a ⟨t, u'⟩ → E p (f a) (h a) t w u') :
    E p (m >>= f) (g >>= h) s v u := by
  intro hp
  have h1 := h1 hp
  rw [JM.bind_apply]
  cases hm : m ⟨s, u⟩ with
  | err e t =>
    rw [hm] at h1
    obtain ⟨w, hw⟩ := h1
    exact ⟨w, by rw [JM.bind_err hw]⟩
  | ok a t =>
    rw [hm] at h1
    obtain ⟨hp', w, hw⟩ := h1
    obtain ⟨t, u'⟩ := t
    have h2 := h2 a t w u' hm hp'
    rw [JM.bind_ok hw]
    exact h2

theorem lift {m g : JM (Index K V) α} (h : S p m g s v) : E p (IndexEff.lift m) (IndexEff.lift g) s v u := by
  intro hp
  have h := h hp
  rw [lift_apply, lift_apply]
  cases hm : m s with
  | ok a t =>
    rw [hm] at h
    obtain ⟨h1, w, hw⟩ := h
    rw [hw]
    exact ⟨h1, w, rfl⟩
  | err e t =>
    rw [hm] at h
    obtain ⟨w, hw⟩ := h
    rw [hw]
    exact ⟨w, rfl⟩

theorem get {f h : Index K V → JM (IndexObs σ K V) β} (h2 : E p (f s) (h (withV s v)) s v u) :
    E p (IndexEff.lift MonadState.get >>= f) (IndexEff.lift MonadState.get >>= h) s v u := h2

theorem rd {arr : Index K V → Arr α} {i : Int} (ha : arr (withV s v) = arr s)
    (h2 : ∀ a, E p (f a) (h a) s v u) :
    E p (IndexEff.lift (Verif.rd arr i) >>= f) (IndexEff.lift (Verif.rd arr i) >>= h) s v u := by
  intro hp
  rw [JM.bind_apply, JM.bind_apply, lift_apply, lift_apply]
  simp only [Verif.rd, ha]
  by_cases hb : 0 ≤ i ∧ i < (arr s).len
  · simp only [if_pos hb]; exact h2 _ hp
  · simp only [if_neg hb]; exact ⟨v, rfl⟩

theorem ite {c d : Prop} [Decidable c] [Decidable d] {m n g k : JM (IndexObs σ K V) α} (hcd : c ↔ d)
    (h1 : E p m g s v u) (h2 : E p n k s v u) : E p (if c then m else n) (if d then g else k) s v u := by
  by_cases hc : c
  · rw [if_pos hc, if_pos (hcd.1 hc)]; exact h1
  · rw [if_neg hc, if_neg (fun h => hc (hcd.2 h))]; exact h2

theorem hash (k : K) : E p (hashE eff k) (hashE eff k) s v u := by
  intro hp
  cases he : eff.hash s.hashFunc k u with
  | ok a e =>
    have e1 : hashE eff k (⟨s, u⟩ : IndexObs σ K V) = .ok a ⟨s, e⟩ := by simp only [hashE, he]
    rw [e1]
    exact ⟨hp, v, by simp only [hashE, withV_hashFunc, he]⟩
  | err x e =>
    have e1 : hashE eff k (⟨s, u⟩ : IndexObs σ K V) = .err x ⟨s, e⟩ := by simp only [hashE, he]
    rw [e1]
    exact ⟨v, by simp only [hashE, withV_hashFunc, he]⟩

theorem eq (a b : K) : E p (eqE eff a b) (eqE eff a b) s v u := by
  intro hp
  cases he : eff.eq s.equalFunc a b u with
  | ok r e =>
    have e1 : eqE eff a b (⟨s, u⟩ : IndexObs σ K V) = .ok r ⟨s, e⟩ := by simp only [eqE, he]
    rw [e1]
    exact ⟨hp, v, by simp only [eqE, withV_equalFunc, he]⟩
  | err x e =>
    have e1 : eqE eff a b (⟨s, u⟩ : IndexObs σ K V) = .err x ⟨s, e⟩ := by simp only [eqE, he]
    rw [e1]
    exact ⟨v, by simp only [eqE, withV_equalFunc, he]⟩

end E

variable {p : Nat → Nat → Prop} (s : Index K V) (v : Arr V) (u : σ)

theorem computeHead_E (k : K) :
    E p (KeyValueIndexedMapEff.computeHead eff k) (KeyIndexedSetEff.computeHead eff k) s v u := by
  unfold KeyValueIndexedMapEff.computeHead KeyIndexedSetEff.computeHead
  generalize MAX_INT = M
  refine .bind (.hash k) fun _ _ _ _ _ => .get ?_
  simp only [withV_heads]
  exact E.pure

theorem lookupLoop_E (k : K) : ∀ (n : Nat) (e : Int) (s : Index K V) (v : Arr V) (u : σ),
    E p (KeyValueIndexedMapEff.lookupEntry_loop1 eff k n e) (KeyIndexedSetEff.lookupEntry_loop1 eff k n e) s v u
  | 0, _, _, _, _ => E.throw
  | n + 1, e, s, v, u => by
    unfold KeyValueIndexedMapEff.lookupEntry_loop1 KeyIndexedSetEff.lookupEntry_loop1
    refine .ite Iff.rfl (.rd rfl fun _ => .bind (.eq _ _) fun _ _ _ _ _ => .ite Iff.rfl E.pure (.rd rfl fun _ => ?_)) E.pure
    exact lookupLoop_E k n _ _ _ _

theorem lookupEntry_E (fuel : Nat) (k : K) :
    E p (KeyValueIndexedMapEff.lookupEntry eff fuel k) (KeyIndexedSetEff.lookupEntry eff fuel k) s v u := by
  unfold KeyValueIndexedMapEff.lookupEntry KeyIndexedSetEff.lookupEntry
  refine .bind (computeHead_E s v u k) fun _ _ _ _ _ => .rd rfl fun _ => ?_
  refine .bind (lookupLoop_E k fuel _ _ _ _) fun r _ _ _ _ => ?_
  cases r <;> exact E.pure

theorem containsKey_E (fuel : Nat) (k : K) :
    E p (KeyValueIndexedMapEff.containsKey eff fuel k) (KeyIndexedSetEff.containsKey eff fuel k) s v u := by
  unfold KeyValueIndexedMapEff.containsKey KeyIndexedSetEff.containsKey
  exact .bind (lookupEntry_E s v u fuel k) fun _ _ _ _ _ => E.pure

theorem get_S : S p (do let s ← (MonadState.get : JM (Index K V) (Index K V)); pure s.size)
    (do let s ← MonadState.get; pure s.size) s v := S.get S.pure

theorem wr_S {arr : Index K V → Arr α} {put : Index K V → Arr α → Index K V} {i : Int} {x : α}
    (ha : arr (withV s v) = arr s) (hput : ∀ a, put (withV s v) a = withV (put s a) v)
    (hk : (put s ((arr s).set i x)).keys.len = s.keys.len ∧ (put s ((arr s).set i x)).values.len = s.values.len) :
    S p (Verif.wr arr put i x) (Verif.wr arr put i x) s v := by
  have := S.wr (p := p) (f := fun _ => pure ()) (h := fun _ => pure ()) (i := i) (x := x) ha hput hk S.pure
  rwa [bind_unit] at this

theorem modify_S {f f' : Index K V → Index K V} (hu : f' (withV s v) = withV (f s) v)
    (hk : (f s).keys.len = s.keys.len ∧ (f s).values.len = s.values.len) :
    S p (modify f : JM (Index K V) PUnit) (modify f') s v := by
  intro hp
  rw [JM.modify_apply, JM.modify_apply, hu]
  exact ⟨by rw [hk.1, hk.2]; exact hp, v, rfl⟩

theorem local_S {m : JM (Index K V) α} (hm : ∃ r, ∀ s, m s = ofExcept r s) : S p m m s v := by
  have := S.stepL (p := p) (s := s) (v := v) (f := pure) (h := pure) hm fun _ _ => S.pure
  rwa [bind_pure'] at this

theorem removeKeyLoop_E (k : K) (free : Bool) (head : Int) : ∀ (n : Nat) (q e : Int) (s : Index K V) (v : Arr V) (u : σ),
    E Eq (KeyValueIndexedMapEff.removeKey_loop1 eff k free head n q e)
      (KeyIndexedSetEff.removeKey_loop1 eff k free head n q e) s v u
  | 0, _, _, _, _, _ => E.throw
  | n + 1, q, e, s, v, u => by
    unfold KeyValueIndexedMapEff.removeKey_loop1 KeyIndexedSetEff.removeKey_loop1
    refine .ite Iff.rfl (.rd rfl fun _ => .bind (.eq _ _) fun _ _ _ _ _ => .ite Iff.rfl (.rd rfl fun _ => ?_) ?_) E.pure
    · exact removeKeyLoop_E k free head n _ _ _ _ _
    · refine .rd rfl fun _ => ?_
      refine .bind (.ite Iff.rfl (.bind (.lift (wr_S _ _ rfl (fun _ => rfl) ⟨rfl, rfl⟩)) fun _ _ _ _ _ => E.pure)
        (.bind (.lift (wr_S _ _ rfl (fun _ => rfl) ⟨rfl, rfl⟩)) fun _ _ _ _ _ => E.pure)) fun _ _ _ _ _ => ?_
      refine .bind (.ite Iff.rfl (.bind (.lift (freeReservedEntry_S _ _ _)) fun _ _ _ _ _ => E.pure)
        (.bind (.lift (wr_S _ _ rfl (fun _ => rfl) ⟨rfl, rfl⟩)) fun _ _ _ _ _ => E.pure)) fun _ _ _ _ _ => .get ?_
      simp only [withV_size]
      refine .bind (.lift (modify_S _ _ rfl ⟨rfl, rfl⟩)) fun _ _ _ _ _ => .get ?_
      simp only [withV_modificationCount]
      exact .bind (.lift (modify_S _ _ rfl ⟨rfl, rfl⟩)) fun _ _ _ _ _ => E.pure

theorem removeKey_E (fuel : Nat) (k : K) (free : Bool) :
    E Eq (KeyValueIndexedMapEff.removeKey eff fuel k free) (KeyIndexedSetEff.removeKey eff fuel k free) s v u := by
  unfold KeyValueIndexedMapEff.removeKey KeyIndexedSetEff.removeKey
  refine .bind (computeHead_E s v u k) fun _ _ _ _ _ => ?_
  refine .rd rfl fun _ => .ite Iff.rfl E.pure ?_
  refine .bind (removeKeyLoop_E k free _ fuel _ _ _ _ _) fun r _ _ _ _ => ?_
  cases r <;> exact E.pure

theorem remove1_E (fuel : Nat) (k : K) :
    E Eq (KeyValueIndexedMapEff.remove1 eff fuel k) (KeyIndexedSetEff.remove1 eff fuel k) s v u := by
  unfold KeyValueIndexedMapEff.remove1 KeyIndexedSetEff.remove1
  exact removeKey_E s v u fuel k true

theorem removeAtAndReserve_E (fuel : Nat) (e : Int) :
    E Eq (KeyValueIndexedMapEff.removeAtAndReserve eff fuel e) (KeyIndexedSetEff.removeAtAndReserve eff fuel e) s v u := by
  unfold KeyValueIndexedMapEff.removeAtAndReserve KeyIndexedSetEff.removeAtAndReserve
  refine .rd rfl fun _ => .bind (removeKey_E _ _ _ fuel _ _) fun _ _ _ _ _ => E.pure

theorem rehashLoop2_E (on : Arr Int) (ok : Arr K) : ∀ (n : Nat) (e : Int) (s : Index K V) (v : Arr V) (u : σ),
    E p (KeyValueIndexedMapEff.rehash_loop2 eff on ok n e) (KeyIndexedSetEff.rehash_loop2 eff on ok n e) s v u
  | 0, _, _, _, _ => E.throw
  | n + 1, e, s, v, u => by
    unfold KeyValueIndexedMapEff.rehash_loop2 KeyIndexedSetEff.rehash_loop2
    refine .ite Iff.rfl ?_ E.pure
    refine .bind (.lift (local_S _ _ (rdA_local _ _ _))) fun _ _ _ _ _ => ?_
    refine .bind (computeHead_E _ _ _ _) fun _ _ _ _ _ => ?_
    refine .bind (.lift (registerNewEntryForHead_S _ _ _ _)) fun _ _ _ _ _ => ?_
    refine .bind (.lift (updateMaxHead_S _ _ _)) fun _ _ _ _ _ => ?_
    refine .bind (.lift (local_S _ _ (rdA_local _ _ _))) fun _ _ _ _ _ => ?_
    exact rehashLoop2_E on ok n _ _ _ _

theorem rehashLoop1_E (fuel : Nat) (oh on : Arr Int) (ok : Arr K) (len : Int) :
    ∀ (n : Nat) (e : Int) (s : Index K V) (v : Arr V) (u : σ),
    E p (KeyValueIndexedMapEff.rehash_loop1 eff fuel oh on ok len n e)
      (KeyIndexedSetEff.rehash_loop1 eff fuel oh on ok len n e) s v u
  | 0, _, _, _, _ => E.throw
  | n + 1, e, s, v, u => by
    unfold KeyValueIndexedMapEff.rehash_loop1 KeyIndexedSetEff.rehash_loop1
    refine .ite Iff.rfl ?_ E.pure
    refine .bind (.lift (local_S _ _ (rdA_local _ _ _))) fun _ _ _ _ _ => ?_
    refine .bind (rehashLoop2_E on ok fuel _ _ _ _) fun _ _ _ _ _ => ?_
    exact rehashLoop1_E fuel oh on ok len n _ _ _ _

theorem growBoth_E {c : Int} {f h : Unit → JM (IndexObs σ K V) β} (hc : s.capacity = c)
    (h2 : ∀ t w u, E Eq (f ()) (h ()) t w u) :
    E Eq (lift (KeyValueIndexedMap.growKeys c) >>= fun _ => lift get >>= fun s7 : Index K V =>
        lift (KeyValueIndexedMap.growValues s7.capacity) >>= f)
      (lift (KeyIndexedSet.growKeys c) >>= fun _ => lift get >>= fun s7 : Index K V =>
        lift (KeyIndexedSet.growValues s7.capacity) >>= h) s v u := by
  have := growBoth_S (s := s) (v := v) (f := fun _ => pure ()) (h := fun _ => pure ()) hc fun _ _ => S.pure
  have := E.bind (f := f) (h := h) (E.lift (u := u) this) fun _ t w u _ => h2 t w u
  simpa only [bind_unit, lift_bind, assoc] using this

theorem rehash_E (fuel : Nat) :
    E Eq (KeyValueIndexedMapEff.rehash eff fuel) (KeyIndexedSetEff.rehash eff fuel) s v u := by
  unfold KeyValueIndexedMapEff.rehash KeyIndexedSetEff.rehash
  refine .get ?_
  simp only [withV_heads, withV_nexts, withV_keys]
  refine .bind (.lift (calculateNewCapacity_S _ _)) fun _ _ _ _ _ => ?_
  refine .get (.bind (.lift (local_S _ _ (newArr_local _ _ _))) fun _ _ _ _ _ =>
    .bind (.lift (modify_S _ _ rfl ⟨rfl, rfl⟩)) fun _ _ _ _ _ => ?_)
  refine .get (.bind (.lift (local_S _ _ (newArr_local _ _ _))) fun _ _ _ _ _ =>
    .bind (.lift (modify_S _ _ rfl ⟨rfl, rfl⟩)) fun _ _ _ _ _ => ?_)
  refine .get (growBoth_E _ _ _ rfl fun t w u => ?_)
  refine .get ?_
  simp only [withV_maxHead]
  refine .bind (.lift (modify_S _ _ rfl ⟨rfl, rfl⟩)) fun _ _ _ _ _ => ?_
  refine .bind (rehashLoop1_E fuel _ _ _ _ fuel _ _ _ _) fun _ _ _ _ _ => .get ?_
  simp only [withV_modificationCount]
  exact .bind (.lift (modify_S _ _ rfl ⟨rfl, rfl⟩)) fun _ _ _ _ _ => E.pure

theorem addLoop_E (k : K) : ∀ (n : Nat) (e : Int) (s : Index K V) (v : Arr V) (u : σ),
    E p (KeyValueIndexedMapEff.super_add_loop1 eff k n e) (KeyIndexedSetEff.add_loop1 eff k n e) s v u
  | 0, _, _, _, _ => E.throw
  | n + 1, e, s, v, u => by
    unfold KeyValueIndexedMapEff.super_add_loop1 KeyIndexedSetEff.add_loop1
    refine .ite Iff.rfl (.rd rfl fun _ => .bind (.eq _ _) fun _ _ _ _ _ => .ite Iff.rfl E.pure (.rd rfl fun _ => ?_)) E.pure
    exact addLoop_E k n _ _ _ _

theorem superAdd_E (fuel : Nat) (k : K) :
    E Eq (KeyValueIndexedMapEff.super_add eff fuel k) (KeyIndexedSetEff.add eff fuel k) s v u := by
  unfold KeyValueIndexedMapEff.super_add KeyIndexedSetEff.add
  refine .bind (computeHead_E s v u k) fun _ _ _ _ _ => .rd rfl fun _ => ?_
  refine .bind (addLoop_E k fuel _ _ _ _) fun r _ _ _ _ => ?_
  cases r with
  | ret x => exact E.pure
  | next x =>
    refine .bind (.lift (allocateNewEntry_S _ _)) fun _ _ _ _ _ => .get ?_
    simp only [withV_capThreshold]
    refine .bind (.ite Iff.rfl (.bind (rehash_E _ _ _ _) fun _ _ _ _ _ => .bind (computeHead_E _ _ _ _) fun _ _ _ _ _ =>
      E.pure) E.pure) fun _ _ _ _ _ => ?_
    refine .bind (.lift (registerNewEntryForHead_S _ _ _ _)) fun _ _ _ _ _ => ?_
    refine .bind (.lift (wr_S _ _ rfl (fun _ => rfl) ⟨rfl, rfl⟩)) fun _ _ _ _ _ => ?_
    refine .bind (.lift (updateMaxHead_S _ _ _)) fun _ _ _ _ _ => .get ?_
    simp only [withV_size]
    refine .bind (.lift (modify_S _ _ rfl ⟨rfl, rfl⟩)) fun _ _ _ _ _ => .get ?_
    simp only [withV_modificationCount]
    exact .bind (.lift (modify_S _ _ rfl ⟨rfl, rfl⟩)) fun _ _ _ _ _ => E.pure

theorem addLoop_keeps (k : K) (J : Index K V → Prop) : ∀ (n : Nat) (e : Int),
    Keeps (fun t : IndexObs σ K V => J t.index) (KeyValueIndexedMapEff.super_add_loop1 eff k n e)
  | 0, _ => .throw _
  | n + 1, e => by
    unfold KeyValueIndexedMapEff.super_add_loop1
    exact .ite (.bind (MapEff.rd_keeps _ _) fun _ => .bind (MapEff.eq_keeps _ _) fun _ =>
      .ite (.pure _) (.bind (MapEff.rd_keeps _ _) fun _ => addLoop_keeps k J n _)) (.pure _)

/-- What holds if the call returns. -/
def Post (P : α → Index K V → Prop) (m : JM (IndexObs σ K V) α) (s : Index K V) (u : σ) : Prop :=
  ∀ a t, m ⟨s, u⟩ = .ok a t → P a t.index

theorem Post.bind {P : β → Index K V → Prop} {m : JM (IndexObs σ K V) α} {f : α → JM (IndexObs σ K V) β}
    {s : Index K V} {u : σ} (h : ∀ a t u', m ⟨s, u⟩ = .ok a ⟨t, u'⟩ → Post P (f a) t u') : Post P (m >>= f) s u := by
  intro b w hb
  cases hm : m ⟨s, u⟩ with
  | err e t => rw [JM.bind_err hm] at hb; cases hb
  | ok a t => rw [JM.bind_ok hm] at hb; exact h a t.index t.ext hm b w hb

theorem Post.pure {P : α → Index K V → Prop} {a : α} {s : Index K V} {u : σ} (h : P a s) : Post P (Pure.pure a) s u := by
  intro b w hb; cases hb; exact h

theorem same_of {m : JM (IndexObs σ K V) α} {s t : Index K V} {u u' : σ} {a : α}
    (hk : Keeps (fun t : IndexObs σ K V => t.index = s) m) (hm : m ⟨s, u⟩ = .ok a ⟨t, u'⟩) : t = s := by
  have := hk ⟨s, u⟩ rfl
  rw [hm] at this
  exact this

theorem of_lift {m : JM (Index K V) α} {s t : Index K V} {u u' : σ} {a : α}
    (hm : lift m (⟨s, u⟩ : IndexObs σ K V) = .ok a ⟨t, u'⟩) : m s = .ok a t := by
  rw [lift_apply] at hm
  cases h : m s with
  | ok x y => rw [h] at hm; cases hm; rfl
  | err x y => rw [h] at hm; cases hm

/-- `add` in `BaseKeyIndex` returns an entry that has a key cell, or changes nothing. -/
theorem superAdd_post (fuel : Nat) (k : K) :
    Post (fun (e : Int) t => t = s ∨ (0 ≤ e ∧ e < t.keys.len)) (KeyValueIndexedMapEff.super_add eff fuel k) s u := by
  unfold KeyValueIndexedMapEff.super_add
  refine .bind fun hd s1 u h1 => ?_
  obtain rfl : s1 = s := by
    rw [MapEff.computeHead_eq] at h1
    exact same_of (MapEff.computeHead_keeps (J := (· = s)) k) h1
  refine .bind fun e s2 u h2 => ?_
  obtain rfl := same_of (MapEff.rd_keeps (J := (· = s1)) _ _) h2
  refine .bind fun r s3 u h3 => ?_
  obtain rfl := same_of (addLoop_keeps k (· = s2) _ _) h3
  cases r with
  | ret x => exact .pure (.inl rfl)
  | next x =>
    refine .bind fun en s4 _ _ => .bind fun _ s5 _ _ => .bind fun hd s6 _ _ => .bind fun _ s7 _ _ =>
      .bind fun _ s8 _ h8 => ?_
    have h8 := of_lift h8
    have hb : 0 ≤ en ∧ en < s8.keys.len := by
      simp only [wr] at h8
      split at h8
      · rename_i hb; cases h8; exact hb
      · cases h8
    refine .bind fun _ s9 _ h9 => ?_
    rw [← updateMaxHead_keys (of_lift h9)] at hb
    refine .bind fun _ s10 _ h10 => .bind fun _ s11 _ h11 => .bind fun _ s12 _ h12 => .bind fun _ s13 _ h13 =>
      .pure (.inr ?_)
    have h10 := of_lift h10; have h11 := of_lift h11; have h12 := of_lift h12; have h13 := of_lift h13
    cases h10; cases h11; cases h12; cases h13
    exact hb

theorem add_E (fuel : Nat) (k : K) :
    E Eq (KeyValueIndexedMapEff.add eff fuel k) (KeyIndexedSetEff.add eff fuel k) s v u := by
  intro hp
  have h := superAdd_E (eff := eff) s v u fuel k hp
  have hb := superAdd_post (eff := eff) s u fuel k
  unfold KeyValueIndexedMapEff.add
  have e0 : lift get (⟨s, u⟩ : IndexObs σ K V) = .ok s ⟨s, u⟩ := rfl
  rw [JM.bind_ok e0]
  cases hm : KeyValueIndexedMapEff.super_add eff fuel k (⟨s, u⟩ : IndexObs σ K V) with
  | err e t => rw [JM.bind_err hm]; rw [hm] at h; exact h
  | ok e t =>
    obtain ⟨t, u'⟩ := t
    rw [JM.bind_ok hm]
    rw [hm] at h
    have e0 : lift get (⟨t, u'⟩ : IndexObs σ K V) = .ok t ⟨t, u'⟩ := rfl
    dsimp only
    rw [JM.bind_ok e0]
    by_cases hs : s.size = t.size
    · rw [if_neg (by simp [hs])]
      exact h
    · rw [if_pos (by simp [hs])]
      have hb := (hb e _ hm).resolve_left (fun h => hs (by rw [show t = s from h]))
      obtain ⟨hl, w, hw⟩ := h
      have hl' : t.keys.len = t.values.len := hl
      have hb' : 0 ≤ e ∧ e < (t.values.len : Int) := by rw [← hl']; exact hb
      have e1 : (lift (wr Index.values (fun self a => { self with values := a }) e default) >>= fun _ =>
          (pure () : JM (IndexObs σ K V) Unit)) ⟨t, u'⟩ = .ok () ⟨withV t (t.values.set e default), u'⟩ := by
        rw [bind_unit, lift_apply]; simp only [wr]; rw [if_pos hb']; rfl
      rw [JM.bind_ok e1]
      exact ⟨by show t.keys.len = (t.values.set e default).len; rw [hl']; rfl, w, hw⟩

/-- One public call of the generated class, with functions that have effects. -/
def step (eff : Effects σ K) (fuel : Nat) : SetOp K → JM (IndexObs σ K V) (Out K V)
  | .add k => do return .int (← KeyIndexedSetEff.add eff fuel k)
  | .lookupEntry k => do return .int (← KeyIndexedSetEff.lookupEntry eff fuel k)
  | .containsKey k => do return .bool (← KeyIndexedSetEff.containsKey eff fuel k)
  | .remove k => do return .int (← KeyIndexedSetEff.remove1 eff fuel k)
  | .removeAtAndReserve e => do KeyIndexedSetEff.removeAtAndReserve eff fuel e; pure .unit
  | o => lift (SetL.step fuel o)

theorem step_E (fuel : Nat) (o : SetOp K) : E Eq (MapEff.step eff fuel o.op) (step eff fuel o) s v u := by
  have plain := E.lift (u := u) (step_S s v fuel o)
  cases o with
  | add k => exact .bind (add_E s v u fuel k) fun _ _ _ _ _ => E.pure
  | lookupEntry k => exact .bind (lookupEntry_E s v u fuel k) fun _ _ _ _ _ => E.pure
  | containsKey k => exact .bind (containsKey_E s v u fuel k) fun _ _ _ _ _ => E.pure
  | remove k => exact .bind (remove1_E s v u fuel k) fun _ _ _ _ _ => E.pure
  | removeAtAndReserve e => exact .bind (removeAtAndReserve_E s v u fuel e) fun _ _ _ _ _ => E.pure
  | _ => exact plain

/-! ## the vocabulary of Spec/IndexEff.lean, for calls of the generated set -/

/-- The keys of the set, as the generated `forEach` hands them out. -/
def keysOf (fuel : Nat) (s : Index K V) : List K :=
  match (SetL.step fuel .forEach s).out with
  | .ok (.keys l) => l
  | _ => []

/-- The keys in `k`'s bucket. -/
def bucket (fuel : Nat) (s : Index K V) (k : K) : List K :=
  (keysOf fuel s).filter fun k' => headOf s.hashFunc s.heads.len k' = headOf s.hashFunc s.heads.len k

/-- A search for `k`: one hash, then comparisons with the keys of its bucket until one is equal. -/
def search (fuel : Nat) (s : Index K V) (k : K) : List (Ask K) :=
  .hash k :: (upto (s.equalFunc k) (bucket fuel s k)).map (.eq k)

/-- The questions a call asks before it changes anything. -/
def asked (fuel : Nat) (s : Index K V) : SetOp K → List (Ask K)
  | .add k | .lookupEntry k | .containsKey k | .remove k => search fuel s k
  | .removeAtAndReserve e => search fuel s (s.keys.get e)
  | _ => []

/-- The call adds a new key and the set grows. -/
def Grows (fuel : Nat) (s : Index K V) (k : K) (r : Except Err (Out K V)) : Prop :=
  (SetL.step fuel (.containsKey k) s).out = .ok (.bool false) ∧ ∃ e, r = .ok (.int e) ∧ s.capThreshold ≤ e

open Classical in
/-- The questions a call asks while the set grows. -/
noncomputable def askedGrowing (fuel : Nat) (s : Index K V) : SetOp K → List (Ask K)
  | .add k => if Grows fuel s k (SetL.step fuel (.add k) s).out then (keysOf fuel s).map .hash ++ [.hash k] else []
  | _ => []

/-- All keys of the set were hashed without an exception. -/
def AllHashed (eff : Effects σ K) (fuel : Nat) (s : Index K V) : Prop := ∀ k ∈ keysOf fuel s, Hashed eff s.hashFunc k

/-! ## it is the vocabulary of the map -/

variable {s v u} {fuel : Nat} {a : Abs K V}

theorem out_gen (hf : 2 ^ 31 ≤ fuel) (h : Map.Made fuel s a) (o : SetOp K) :
    (SetL.step fuel o (withV s v)).out = (Map.step fuel o.op s).out := by
  obtain ⟨F, hF⟩ := reach_inv (h.reach hf)
  exact (step_of hF fuel o v).1

theorem state_gen (hf : 2 ^ 31 ≤ fuel) (h : Map.Made fuel s a) (o : SetOp K) :
    ∃ w, (SetL.step fuel o (withV s v)).state = withV (Map.step fuel o.op s).state w := by
  obtain ⟨F, hF⟩ := reach_inv (h.reach hf)
  exact (step_of hF fuel o v).2

theorem keysOf_gen (hf : 2 ^ 31 ≤ fuel) (h : Map.Made fuel s a) :
    keysOf fuel (withV s v) = MapEff.keysOf fuel s := by
  unfold keysOf MapEff.keysOf
  rw [out_gen hf h .forEach]
  rfl

theorem bucket_gen (hf : 2 ^ 31 ≤ fuel) (h : Map.Made fuel s a) (k : K) :
    bucket fuel (withV s v) k = MapEff.bucket fuel s k := by
  unfold bucket MapEff.bucket; rw [keysOf_gen hf h]; rfl

theorem search_gen (hf : 2 ^ 31 ≤ fuel) (h : Map.Made fuel s a) (k : K) :
    search fuel (withV s v) k = MapEff.search fuel s k := by
  unfold search MapEff.search; rw [bucket_gen hf h]; rfl

theorem asked_gen (hf : 2 ^ 31 ≤ fuel) (h : Map.Made fuel s a) (o : SetOp K) :
    asked fuel (withV s v) o = MapEff.asked fuel s o.op := by
  cases o <;> first | rfl | exact search_gen hf h _

theorem grows_gen (hf : 2 ^ 31 ≤ fuel) (h : Map.Made fuel s a) (k : K) (r : Except Err (Out K V)) :
    Grows fuel (withV s v) k r = MapEff.Grows fuel s k r := by
  unfold Grows MapEff.Grows
  rw [out_gen hf h (.containsKey k)]
  rfl

theorem askedGrowing_gen (hf : 2 ^ 31 ≤ fuel) (h : Map.Made fuel s a) (o : SetOp K) :
    askedGrowing fuel (withV s v) o = MapEff.askedGrowing fuel s o.op := by
  cases o with
  | add k =>
    have e : Grows fuel (withV s v) k (SetL.step fuel (.add k) (withV s v)).out =
        MapEff.Grows fuel s k (Map.res fuel (.add k) s) := by
      rw [grows_gen hf h, out_gen hf h (.add k)]; rfl
    simp only [askedGrowing, SetOp.op, MapEff.askedGrowing, keysOf_gen hf h]
    congr 1
  | _ => rfl

theorem allHashed_gen (hf : 2 ^ 31 ≤ fuel) (h : Map.Made fuel s a) :
    AllHashed eff fuel (withV s v) ↔ MapEff.AllHashed eff fuel s := by
  unfold AllHashed MapEff.AllHashed; rw [keysOf_gen hf h]; rfl

/-- One call of the set, from that of the map. -/
theorem step_gen (hf : 2 ^ 31 ≤ fuel) (h : Map.Made fuel s a) (o : SetOp K) :
    (step eff fuel o ⟨withV s v, u⟩).out = (MapEff.step eff fuel o.op ⟨s, u⟩).out ∧
    (step eff fuel o ⟨withV s v, u⟩).state.ext = (MapEff.step eff fuel o.op ⟨s, u⟩).state.ext ∧
    ∃ w, (step eff fuel o ⟨withV s v, u⟩).state.index = withV (MapEff.step eff fuel o.op ⟨s, u⟩).state.index w := by
  obtain ⟨F, hF⟩ := reach_inv (h.reach hf)
  have := step_E (eff := eff) s v u fuel o (Inv.lens hF)
  cases hm : MapEff.step eff fuel o.op (⟨s, u⟩ : IndexObs σ K V) with
  | ok r t => rw [hm] at this; obtain ⟨_, w, hw⟩ := this; rw [hw]; exact ⟨rfl, rfl, w, rfl⟩
  | err e t => rw [hm] at this; obtain ⟨w, hw⟩ := this; rw [hw]; exact ⟨rfl, rfl, w, rfl⟩

end Verif.Link.SetEff

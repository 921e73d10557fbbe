import Verif.Link.Keeps
import Verif.Proofs.IndexCap
/-! `KeyValueIndexedMap.ftl`: the generated lookups and changes agree with the model. -/
set_option linter.unusedSectionVars false
namespace Verif.Link.Map
open Verif Verif.Gen Index
variable {K V : Type} [Inhabited K] [Inhabited V]

/-- how the generated loop reports what the model's loop returns -/
def Found (e : Int) (r : Flow Int Unit) : Prop := r = if e ≥ 0 then .ret e else .next ()

theorem lookupLoop_sim (k : K) : ∀ (n fuel : Nat) (e : Int) (s : Index K V), n ≤ fuel →
    Sim Found (lookupLoop k n e) (KeyValueIndexedMap.lookupEntry_loop1 k fuel e) s
  | 0, _, _, _, _ => .diverge
  | n + 1, 0, _, _, h => absurd h (by omega)
  | n + 1, f + 1, e, s, h => by
    unfold lookupLoop KeyValueIndexedMap.lookupEntry_loop1
    refine .ite (by simp) (fun he => ?_) (fun _ => .pure (by simp [Found]))
    refine .step fun x t _ => .get ?_
    refine .ite Iff.rfl (fun _ => .pure (by simp [Found, he])) (fun _ => ?_)
    refine .step fun e' t _ => ?_
    exact lookupLoop_sim k n f e' t (by omega)

theorem addLoop_eq (k : K) : ∀ (n : Nat) (e : Int),
    (KeyValueIndexedMap.super_add_loop1 k n e : JM (Index K V) _) = KeyValueIndexedMap.lookupEntry_loop1 k n e
  | 0, _ => rfl
  | n + 1, e => by
    unfold KeyValueIndexedMap.super_add_loop1 KeyValueIndexedMap.lookupEntry_loop1
    congr 2; funext _; congr 1; funext _; congr 2; funext _
    exact addLoop_eq k n _

theorem lookupLoop_neg (k : K) : ∀ (n : Nat) (e r : Int) (s t : Index K V),
    lookupLoop k n e s = .ok r t → r < 0 → r = -1
  | 0, _, _, _, _, h, _ => by cases h
  | n + 1, e, r, s, t, h, hr => by
    unfold lookupLoop at h
    by_cases he : e ≥ 0
    · rw [if_pos he] at h
      obtain ⟨x, s1, _, h⟩ := jm_bind_inv h
      obtain ⟨y, s2, _, h⟩ := jm_bind_inv h
      split at h
      · injection h with h1 _; omega
      · obtain ⟨z, s3, _, h⟩ := jm_bind_inv h
        exact lookupLoop_neg k n z r s3 t h hr
    · rw [if_neg he] at h
      injection h with h1 _; omega

theorem lookupLoop_state (k : K) : ∀ (n : Nat) (e : Int) (s : Index K V), (lookupLoop k n e s).state = s
  | 0, _, _ => rfl
  | n + 1, e, s => by
    unfold lookupLoop
    by_cases he : e ≥ 0
    · rw [if_pos he, JM.bind_apply]
      have h1 := rd_state Index.keys e s
      cases hr : rd Index.keys e s with
      | err x t => rw [hr] at h1; exact h1
      | ok x t =>
        rw [hr] at h1
        obtain rfl : t = s := h1
        simp only
        rw [JM.bind_ok (JM.get_apply _)]
        split
        · rfl
        · rw [JM.bind_apply]
          have h2 := rd_state Index.nexts e t
          cases hr2 : rd Index.nexts e t with
          | err x u => rw [hr2] at h2; exact h2
          | ok x u =>
            rw [hr2] at h2
            obtain rfl : u = t := h2
            exact lookupLoop_state k n x u
    · rw [if_neg he]; rfl

theorem lookup_sim (fuel : Nat) (hf : 2 ^ 31 ≤ fuel) (k : K) {s : Index K V} (hn : s.nexts.len < 2 ^ 31 - 1) :
    Sim Eq (lookupEntry k) (KeyValueIndexedMap.lookupEntry fuel k) s := by
  unfold lookupEntry KeyValueIndexedMap.lookupEntry
  rw [computeHead_eq]
  refine .stepS rfl fun h _ => ?_
  refine .stepS (rd_state _ _ _) fun e _ => .left (JM.get_apply _) ?_
  dsimp only
  refine .tailR (lookupLoop_sim k (s.nexts.len + 1) fuel e s (by omega)) fun e r t ht hr => ?_
  unfold Found at hr
  subst hr
  by_cases he : e ≥ 0
  · rw [if_pos he]; exact .pure rfl
  · rw [if_neg he, lookupLoop_neg k _ _ _ _ _ ht (by omega)]; exact .pure rfl

theorem tail_sim {n : Int} (hn : -2 ^ 31 ≤ n + 1 ∧ n + 1 < 2 ^ 31) (k : K) (entry : Int) {h : Int} (hh : 0 ≤ h ∧ h < 2 ^ 29)
    {s : Index K V} (hs : Bd n s) :
    Sim Eq (do
        registerNewEntryForHead h entry
        wrKeys entry k
        updateMaxHead h
        modify fun t => { t with size := t.size + 1 }
        bumpMod
        pure entry)
      (do
        KeyValueIndexedMap.registerNewEntryForHead h entry
        wr Index.keys (fun self a => { self with keys := a }) entry k
        KeyValueIndexedMap.updateMaxHead h
        let s10 ← get
        let v11 := i32 (s10.size + 1)
        modify fun self => { self with size := v11 }
        let s12 ← get
        let v13 := i32 (s12.modificationCount + 1)
        modify fun self => { self with modificationCount := v13 }
        pure entry) s := by
  rw [register_eq (by omega), updateMaxHead_eq]
  refine .step fun _ t ht => ?_
  have bt : Bd n t := by have := register_keeps n h entry s hs; rw [ht] at this; exact this
  refine .step fun _ u hu => ?_
  have bu : Bd n u := by have := wrKeys_keeps n entry k t bt; rw [hu] at this; exact this
  refine .step fun _ w hw => ?_
  have bw : Bd n w := by have := updateMaxHead_keeps n hh.2 u bu; rw [hw] at this; exact this
  refine .right rfl ?_
  refine .modify (by rw [bw.size, i32_of_range hn]) ?_
  refine .right rfl ?_
  exact .modify rfl .rfl

theorem computeHead_nonneg {s t : Index K V} {k : K} {h : Int} (hh : computeHead k s = .ok h t) : 0 ≤ h := by
  unfold computeHead at hh
  rw [JM.bind_ok (JM.get_apply _)] at hh
  injection hh with h1 _
  have := headOf_nonneg s.hashFunc s.heads.len k
  omega

theorem allocate_keeps2 (a : Nat) (b : Int) :
    Keeps (fun s : Index K V => s.nexts.len = a ∧ s.maxHead = b) allocateNewEntry :=
  .bind .get fun _ => .ite
    (.bind (.rd _) fun _ => .bind (.modify fun _ h => h) fun _ => .pure _)
    (.bind (.modify fun _ h => h) fun _ => .pure _)

theorem baseAdd_sim (fuel : Nat) (hf : 2 ^ 31 ≤ fuel) (k : K) {n : Int} {s : Index K V} (hs : Bd n s)
    (hl : s.nexts.len < 2 ^ 31 - 1) (hn : -2 ^ 31 ≤ n + 1 ∧ n + 1 < 2 ^ 31)
    (hu : -2 ^ 31 ≤ s.nextUnusedEntry + 1 ∧ s.nextUnusedEntry + 1 < 2 ^ 31) (hm : 0 ≤ s.maxHead) :
    Sim Eq (baseAdd k) (KeyValueIndexedMap.super_add fuel k) s := by
  unfold baseAdd KeyValueIndexedMap.super_add
  rw [computeHead_eq]
  refine .stepS rfl fun h hh => ?_
  have hh1 := computeHead_lt hs hh
  have hh0 : 0 ≤ h := by
    unfold computeHead at hh
    rw [JM.bind_ok (JM.get_apply _)] at hh
    injection hh with h1 _
    have := headOf_nonneg s.hashFunc s.heads.len k
    omega
  refine .stepS (rd_state _ _ _) fun e _ => .left (JM.get_apply _) ?_
  dsimp only
  rw [addLoop_eq]
  refine .bind (lookupLoop_sim k (s.nexts.len + 1) fuel e s (by omega)) fun e' r t ht hr => ?_
  unfold Found at hr
  subst hr
  obtain rfl : t = s := by
    have := lookupLoop_state k (s.nexts.len + 1) e s
    rw [ht] at this; exact this
  by_cases he : e' ≥ 0
  · rw [if_pos he, if_pos he]; exact .pure rfl
  · rw [if_neg he, if_neg he]
    dsimp only
    refine .bind_eq (.of_eq (allocate_eq hu)) fun entry u hau => .get ?_
    have bu : Bd n u := by have := allocate_keeps n t hs; rw [hau] at this; exact this
    have cu := allocate_keeps2 t.nexts.len t.maxHead t ⟨rfl, rfl⟩
    rw [hau] at cu
    obtain ⟨c1, c2⟩ : u.nexts.len = t.nexts.len ∧ u.maxHead = t.maxHead := cu
    have bm := bu.max
    have bh := bu.heads
    by_cases hc : entry ≥ u.capThreshold
    · rw [if_pos hc, if_pos (by simpa using hc)]
      simp only [assoc]
      refine .bind_eq (rehash_sim fuel hf (by omega) (by omega) (by omega)) fun _ w hw => ?_
      have bw : Bd n w := by have := rehash_keeps n u bu; rw [hw] at this; exact this
      refine .stepS rfl fun h' hh' => ?_
      refine .right rfl ?_
      exact tail_sim hn k entry ⟨computeHead_nonneg hh', computeHead_lt bw hh'⟩ bw
    · rw [if_neg hc, if_neg (by simpa using hc)]
      refine .left rfl (.right rfl ?_)
      exact tail_sim hn k entry ⟨hh0, hh1⟩ bu

theorem add_sim (fuel : Nat) (hf : 2 ^ 31 ≤ fuel) (k : K) {n : Int} {s : Index K V} (hs : Bd n s)
    (hl : s.nexts.len < 2 ^ 31 - 1) (hn : -2 ^ 31 ≤ n + 1 ∧ n + 1 < 2 ^ 31)
    (hu : -2 ^ 31 ≤ s.nextUnusedEntry + 1 ∧ s.nextUnusedEntry + 1 < 2 ^ 31) (hm : 0 ≤ s.maxHead) :
    Sim Eq (Index.add k) (KeyValueIndexedMap.add fuel k) s := by
  unfold Index.add KeyValueIndexedMap.add JM.when
  refine .get ?_
  dsimp only
  refine .bind_eq (baseAdd_sim fuel hf k hs hl hn hu hm) fun e t _ => .get ?_
  simp only [bind_unit, decide_eq_true_eq]
  exact .rfl

theorem put_sim (fuel : Nat) (hf : 2 ^ 31 ≤ fuel) (k : K) (v : V) {n : Int} {s : Index K V} (hs : Bd n s)
    (hl : s.nexts.len < 2 ^ 31 - 1) (hn : -2 ^ 31 ≤ n + 1 ∧ n + 1 < 2 ^ 31)
    (hu : -2 ^ 31 ≤ s.nextUnusedEntry + 1 ∧ s.nextUnusedEntry + 1 < 2 ^ 31) (hm : 0 ≤ s.maxHead) :
    Sim Eq (Index.put k v) (KeyValueIndexedMap.put fuel k v) s :=
  .bind_eq (add_sim fuel hf k hs hl hn hu hm) fun _ _ _ => .rfl

end Verif.Link.Map

import Verif.Link.Sim
import Verif.Gen.KeyValueIndexedMap
import Verif.Proofs.Reach
/-! `KeyValueIndexedMap.ftl` with `BaseKeyIndex.ftl` and `BaseHash.java`: the generated code agrees with
the model, method by method. -/
set_option linter.unusedSectionVars false
namespace Verif.Link.Map
open Verif Verif.Gen
variable {K V : Type} [Inhabited K] [Inhabited V]

theorem maxcap : i32 (i32 (Int.tdiv MAX_INT 4) + 1) = MAX_CAPACITY := by decide

theorem ofInt_i32 (x : Int) : BitVec.ofInt 32 (i32 x) = BitVec.ofInt 32 x := by
  apply BitVec.eq_of_toInt_eq
  rw [BitVec.toInt_ofInt, BitVec.toInt_ofInt]
  unfold i32
  rw [Int.bmod_def, Int.bmod_def]
  omega

theorem computeHead_eq (k : K) :
    (KeyValueIndexedMap.computeHead k : JM (Index K V) Int) = Index.computeHead k := by
  apply JM_ext; intro s
  unfold KeyValueIndexedMap.computeHead Index.computeHead
  show Res.ok _ s = Res.ok _ s
  congr 1
  unfold and32 Index.headOf
  rw [ofInt_i32, BitVec.ofInt_toInt, BitVec.ofInt_toInt]
  rfl

theorem headOf_nonneg (hash : K → BitVec 32) (n : Nat) (k : K) :
    0 ≤ Index.headOf hash n k ∧ Index.headOf hash n k < 2 ^ 31 := by
  unfold Index.headOf
  have h1 : ((hash k &&& 0x7fffffff#32) &&& BitVec.ofInt 32 ((n : Int) - 1)).toNat ≤ 2 ^ 31 - 1 := by
    rw [BitVec.toNat_and, BitVec.toNat_and]
    exact Nat.le_trans Nat.and_le_left (Nat.le_trans Nat.and_le_right (by decide))
  have h2 := BitVec.toInt_eq_toNat_cond ((hash k &&& 0x7fffffff#32) &&& BitVec.ofInt 32 ((n : Int) - 1))
  rw [if_pos (by omega)] at h2
  omega

theorem updateMaxHead_eq (h : Int) :
    (KeyValueIndexedMap.updateMaxHead h : JM (Index K V) Unit) = Index.updateMaxHead h := by
  apply JM_ext; intro s
  unfold KeyValueIndexedMap.updateMaxHead Index.updateMaxHead
  simp only [JM.bind_apply, JM.get_apply, JM.modify_apply, decide_eq_true_eq]
  by_cases c : h > s.maxHead
  · simp only [c, if_true]; rfl
  · simp [c]

theorem calc_eq :
    (KeyValueIndexedMap.calculateNewCapacity : JM (Index K V) Unit) = Index.calcNewCapacity := by
  apply JM_ext; intro s
  unfold KeyValueIndexedMap.calculateNewCapacity Index.calcNewCapacity
  rw [bind_unit]
  simp only [calculateNewCapacity_eq, maxcap]
  simp only [JM.bind_apply, JM.get_apply]
  obtain ⟨r, hr⟩ := calc_local (Index K V) s.capacity s.capThreshold
  rw [hr]
  cases r with
  | error e => rfl
  | ok c =>
    simp only [ofExcept_ok, decide_eq_true_eq]
    by_cases h : s.capacity = c
    · simp [h]
    · simp [h, JM.bind_apply]

theorem removeValue_eq (e : Int) :
    (KeyValueIndexedMap.removeValue e : JM (Index K V) Unit) = Index.removeValue e := bind_unit _

theorem freeReservedEntry_eq (e : Int) :
    (KeyValueIndexedMap.freeReservedEntry e : JM (Index K V) Unit) = Index.freeReservedEntry e := by
  unfold KeyValueIndexedMap.freeReservedEntry Index.freeReservedEntry
  simp only [bind_unit, removeValue_eq]

theorem register_eq {h : Int} (hh : 0 ≤ h ∧ h < 2 ^ 31) (e : Int) :
    (KeyValueIndexedMap.registerNewEntryForHead h e : JM (Index K V) Unit) =
      Index.registerNewEntryForHead h e := by
  apply JM_ext; intro s
  unfold KeyValueIndexedMap.registerNewEntryForHead Index.registerNewEntryForHead
  have e1 : i32 (i32 (-h) - 1) = -h - 1 := by
    rw [i32_of_range (x := -h) (by omega), i32_of_range (by omega)]
  rw [e1]
  simp only [bind_unit, decide_eq_true_eq]
  simp only [JM.bind_apply]
  by_cases hi : 0 ≤ h ∧ h < (s.heads.len : Int)
  · rw [rd_ok Index.heads hi]
    simp only
    by_cases c : s.heads.get h ≥ 0
    · simp only [c, if_true, JM.bind_apply]
      rw [rd_ok Index.heads hi]
    · simp only [c, if_false]; rfl
  · have : (rd Index.heads h : JM (Index K V) Int) s = .err .indexOutOfBounds s := by
      simp only [rd]; rw [if_neg hi]
    rw [this]

theorem allocate_eq {s : Index K V} (h : -2 ^ 31 ≤ s.nextUnusedEntry + 1 ∧ s.nextUnusedEntry + 1 < 2 ^ 31) :
    (KeyValueIndexedMap.allocateNewEntry : JM (Index K V) Int) s = Index.allocateNewEntry s := by
  unfold KeyValueIndexedMap.allocateNewEntry Index.allocateNewEntry
  simp only [JM.bind_apply, JM.get_apply, decide_eq_true_eq]
  rw [i32_of_range (x := s.nextUnusedEntry + 1) (by omega)]
  by_cases c : s.freeList ≠ -1
  · rw [if_pos c, if_pos c]
  · rw [if_neg c, if_neg c]
    rfl

theorem rehashChain_sim (N : Arr Int) (KS : Arr K) : ∀ (n fuel : Nat) (e : Int) (s : Index K V),
    n ≤ fuel →
    Sim (fun _ _ => True) (Index.rehashChain N KS n e) (KeyValueIndexedMap.rehash_loop2 N KS fuel e) s
  | 0, _, _, _, _ => .diverge
  | n + 1, 0, _, _, h => absurd h (by omega)
  | n + 1, f + 1, e, s, h => by
    unfold Index.rehashChain KeyValueIndexedMap.rehash_loop2
    refine .ite (by simp) (fun _ => ?_) (fun _ => .pure trivial)
    refine .step fun k t _ => ?_
    rw [computeHead_eq]
    refine .step fun hd t hhd => ?_
    dsimp only
    have hr : 0 ≤ hd ∧ hd < 2 ^ 31 := by
      unfold Index.computeHead at hhd
      rw [JM.bind_ok (JM.get_apply _)] at hhd
      injection hhd with h1 _
      rw [← h1]; exact headOf_nonneg _ _ _
    rw [register_eq hr, updateMaxHead_eq]
    refine .step fun _ t _ => ?_
    refine .step fun _ t _ => ?_
    refine .step fun e' t _ => ?_
    exact rehashChain_sim N KS n f e' t (by omega)

theorem rehashHeads_sim (H N : Arr Int) (KS : Arr K) (fuel : Nat) (hf : N.len + 1 ≤ fuel) (len : Int)
    (hl : len < 2 ^ 31) :
    ∀ (n f : Nat) (i : Int) (s : Index K V), n < f → 0 ≤ i → n = (len - i).toNat →
    Sim Eq (Index.rehashHeads H N KS n i) (KeyValueIndexedMap.rehash_loop1 fuel H N KS len f i) s
  | _, 0, _, _, h, _, _ => absurd h (by omega)
  | 0, f + 1, i, s, _, h0, hn => by
    unfold Index.rehashHeads KeyValueIndexedMap.rehash_loop1
    rw [if_neg (by simp; omega)]
    exact .rfl
  | n + 1, f + 1, i, s, h, h0, hn => by
    unfold Index.rehashHeads KeyValueIndexedMap.rehash_loop1
    rw [if_pos (by simp; omega), i32_of_range (x := i + 1) (by omega)]
    refine .step fun e t _ => ?_
    refine .bind (rehashChain_sim N KS _ _ e t hf) fun _ _ t _ _ => ?_
    exact rehashHeads_sim H N KS fuel hf len hl n f (i + 1) t (by omega) (by omega) (by omega)

theorem rehash_sim (fuel : Nat) (hf : 2 ^ 31 ≤ fuel) {s : Index K V}
    (hn : s.nexts.len < 2 ^ 31 - 1) (hh : s.heads.len < 2 ^ 31)
    (hm : -2 ^ 31 ≤ s.maxHead + 1 ∧ s.maxHead + 1 < 2 ^ 31) :
    Sim Eq (Index.rehash : JM (Index K V) Unit) (KeyValueIndexedMap.rehash fuel) s := by
  unfold Index.rehash KeyValueIndexedMap.rehash KeyValueIndexedMap.growKeys KeyValueIndexedMap.growValues
  simp only [bind_unit, calc_eq]
  refine .get ?_
  refine .step fun _ t ht => ?_
  have hmx : t.maxHead = s.maxHead := by
    unfold Index.calcNewCapacity at ht
    rw [JM.bind_ok (JM.get_apply _)] at ht
    obtain ⟨r, hr⟩ := calc_local (Index K V) s.capacity s.capThreshold
    rw [JM.bind_apply, hr] at ht
    cases r with
    | error e => cases ht
    | ok c =>
      simp only [ofExcept_ok] at ht
      split at ht <;> (injection ht with _ h; rw [← h])
  refine .get ?_
  refine .stepL (newArr_local _ _ _) fun h _ => ?_
  refine .modify rfl (.right rfl ?_)
  dsimp only
  refine .stepL (newArr_local _ _ _) fun n _ => ?_
  refine .modify rfl (.right rfl ?_)
  simp only [assoc]
  refine .right rfl ?_
  dsimp only
  refine .stepL (by obtain ⟨r, hr, _⟩ := ensureSize_local (Index K V) t.keys t.capacity default; exact ⟨r, hr⟩) fun k _ => ?_
  refine .modify rfl (.right rfl (.right rfl ?_))
  dsimp only
  refine .stepL (by obtain ⟨r, hr, _⟩ := ensureSize_local (Index K V) t.values t.capacity default; exact ⟨r, hr⟩) fun v _ => ?_
  refine .modify rfl (.right rfl ?_)
  dsimp only
  rw [hmx, i32_of_range (x := s.maxHead + 1) (by omega)]
  refine .modify rfl ?_
  refine .bind_eq (rehashHeads_sim _ _ _ fuel (by omega) _ (by omega) _ _ 0 _ (by omega) (by omega) (by omega)) fun _ t _ => ?_
  exact .of_eq rfl

end Verif.Link.Map

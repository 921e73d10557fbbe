import Verif.Props.IndexWalk
import Verif.Proofs.Blind
import Verif.Model.CopySelf
/-! # Property C101: a collection copied from itself -/
set_option linter.unusedSectionVars false
namespace Verif
open Index IndexSpec Iterating
variable {K V : Type} [Inhabited K] [Inhabited V]

/-! ## helpers -/

theorem copyRange_self {α : Type} (x : Arr α) (n : Int) : Arr.copyRange x 0 x 0 n = x := by
  unfold Arr.copyRange
  cases x with | mk len get =>
  congr 1
  funext j
  simp only
  split
  · congr 1; omega
  · rfl

theorem headsLike_self (x : Arr Int) (s : Index K V) : headsLike x x.len s = .ok x s := by
  unfold headsLike; rw [if_neg (by omega)]; rfl

theorem roomLike_self {α : Type} (x : Arr α) (u v : α) (s : Index K V) :
    roomLike x x.len u v s = .ok x s := by
  unfold roomLike fill
  rw [if_neg (by omega)]
  simp only
  rw [if_pos (by omega)]

theorem valuesLike_self (x : Arr V) (s : Index K V) : valuesLike x x.len s = .ok x s := by
  unfold valuesLike; rw [if_neg (by omega), if_neg (by omega)]; rfl

theorem arraycopy_self {α σ : Type} (x : Arr α) (s : σ) :
    (arraycopy x 0 x 0 x.len : JM σ (Arr α)) s = .ok x s := by
  rw [arraycopy_ok ⟨by omega, by omega, by omega, by omega, by omega⟩, copyRange_self]

theorem copySelf_run (s : Index K V) (hk : (s.keys.len : Int) = s.capacity)
    (ht : s.capThreshold = threshold s.capacity s.lfNum s.lfDen) :
    copySelf s = .ok () (setMod (i32 (s.modificationCount + 1)) s) := by
  have hb : ∀ s : Index K V, baseCopySelf s = .ok () (setMod (i32 (s.modificationCount + 1)) s) := by
    intro s
    unfold baseCopySelf
    rw [JM.bind_ok (JM.get_apply _), JM.bind_ok (headsLike_self _ _), JM.bind_ok (JM.modify_apply _ _),
      JM.bind_ok (JM.get_apply _), JM.bind_ok (roomLike_self _ _ _ _), JM.bind_ok (JM.modify_apply _ _),
      JM.bind_ok (JM.get_apply _), JM.bind_ok (arraycopy_self _ _), JM.bind_ok (JM.modify_apply _ _),
      JM.bind_ok (JM.get_apply _), JM.bind_ok (arraycopy_self _ _), JM.bind_ok (JM.modify_apply _ _),
      bumpMod, JM.bind_ok (JM.modify_apply _ _)]
    rfl
  have hc : keysCopySelf s = .ok () (setMod (i32 (s.modificationCount + 1)) s) := by
    unfold keysCopySelf
    rw [JM.bind_ok (hb s),
      JM.bind_ok (JM.get_apply _), JM.bind_ok (roomLike_self _ _ _ _), JM.bind_ok (JM.modify_apply _ _),
      JM.bind_ok (JM.get_apply _), JM.bind_ok (arraycopy_self _ _), JM.bind_ok (JM.modify_apply _ _),
      JM.modify_apply]
    simp only [setMod, hk, ← ht]
  unfold copySelf
  rw [JM.bind_ok hc,
    JM.bind_ok (JM.get_apply _), JM.bind_ok (valuesLike_self _ _), JM.bind_ok (JM.modify_apply _ _),
    JM.bind_ok (JM.get_apply _), JM.bind_ok (arraycopy_self _ _), JM.modify_apply]

/-! ## C101 -/

theorem copySelf_of_inv {tight : Prop} {s : Index K V} {a : Abs K V} {F : List Int} (hF : Inv tight s a F)
    (hcap : s.capacity < 2 ^ 29) : copySelf s = .ok () (setMod (i32 (s.modificationCount + 1)) s) := by
  refine copySelf_run s hF.klen ?_
  rcases hF.thr with ht | ⟨ht, _⟩
  · exact ht
  · omega

/-- C101: `m.copyFrom(m)`, on a collection with a capacity below the maximum, succeeds; every history of
calls afterwards has exactly the results it would have had without it, iteration orders included. -/
theorem C101_copy_self {exact : Prop} {s : Index K V} {a : Abs K V} (h : Reach exact s a)
    (hcap : s.capacity < 2 ^ 29) :
    ∃ t, copySelf s = .ok () t ∧ (∀ ops, (runM step t ops).1 = (runM step s ops).1) ∧
      ∀ ops, Legal Ok a ops (runM step t ops).1 := by
  obtain ⟨F, hF⟩ := reach_inv h
  have hsame := fun ops => runM_blind ops s (i32 (s.modificationCount + 1))
  exact ⟨_, copySelf_of_inv hF hcap, hsame, fun ops => by rw [hsame]; exact legal ops hF⟩

/-- C101: an iterator in any state (after any calls of `next` and `remove`, at most 2^30) notices `m.copyFrom(m)`. -/
theorem C101_iterators_notice {exact : Prop} {s : Index K V} {a : Abs K V} (h : Reach exact s a)
    (it : Iter) (its : List ItOp) (hits : its.length ≤ 2 ^ 30) :
    ∃ t, reset ⟨s, it⟩ = .ok () t ∧
      let u := (runM itStep t its).2
      (u.map.capacity < 2 ^ 29 → ∃ m, copySelf u.map = .ok () m ∧
        itStep .next ⟨m, u.it⟩ = .err .concurrentModification ⟨m, u.it⟩ ∧
        itStep .remove ⟨m, u.it⟩ = .err .concurrentModification ⟨m, u.it⟩) := by
  obtain ⟨F, hF⟩ := reach_inv h
  obtain ⟨it', h1, h2⟩ := cinv_reset hF it
  have e : (2 : Nat) ^ 30 = 1073741824 := by decide
  have h3 := (cursor_run its 0 _ _ h2 (by omega) (by omega)).2
  refine ⟨_, h1, ?_⟩
  intro u hcap
  obtain ⟨G, hG⟩ := h3.1
  refine ⟨_, copySelf_of_inv hG hcap, ?_⟩
  have hne : (setMod (i32 (u.map.modificationCount + 1)) u.map).modificationCount ≠
      u.it.internalModCount := by
    rw [h3.mod]
    show i32 (u.map.modificationCount + 1) ≠ u.map.modificationCount
    unfold i32; omega
  constructor
  · simp only [itStep]
    apply JM.bind_err
    unfold Iterating.next
    rw [JM.bind_ok (JM.get_apply _), if_pos hne]; rfl
  · simp only [itStep]
    apply JM.bind_err
    unfold Iterating.remove
    rw [JM.bind_ok (JM.get_apply _), if_pos hne]; rfl

/- Non-vacuity: a grown, used map with a removed and a reserved entry. -/
example : ∃ s, exampleNew 2 1 1 = .ok s ∧
    let s := final s [Op.put 1 11, .put 9 99, .put 2 22, .remove 9, .put 17 5, .removeAtAndReserve 2, .put 25 6]
    let r := copySelf s
    s.capacity < 2 ^ 29 ∧ r.out = .ok () ∧
    (runM step r.state [Op.forEach, .forEachValue, .get 17, .getKeyAt 2, .put 9 7, .size]).1 =
    [.ok (.keys [25, 17, 1]), .ok (.vals [6, 5, 11]), .ok (.val 5), .ok (.key 2), .ok (.int 4), .ok (.int 4)] ∧
    let u := (runM itStep (reset (⟨s, exampleIter⟩ : Iterating Int Int)).state [.next]).2
    u.it.internalModCount = s.modificationCount ∧
    (itStep .next (⟨(copySelf u.map).state, u.it⟩ : Iterating Int Int)).out = .error .concurrentModification :=
  ⟨_, rfl, by decide +kernel⟩

end Verif

import Verif.Link.Set4
import Verif.Gen.Pairs
import Verif.Proofs.Bi6
/-! `Side.java`: the generated methods of one half of a two-sided collection agree with the model. -/
set_option linter.unusedSectionVars false
namespace Verif.Link.BiL
open Verif Verif.Gen

theorem ensureKey_eq : Pairs.Side.ensureKey = Side.ensureKey := by
  funext key
  apply JM_ext; intro s
  unfold Pairs.Side.ensureKey Side.ensureKey
  simp only [JM.bind_apply, JM.get_apply]
  obtain ⟨r, hr, _⟩ := ensureEntry_local Side s.heads key (-1)
  rw [hr]
  cases r with
  | error e => rfl
  | ok b =>
    cases hc : s.count with
    | none => simp [hc, ofExcept]
    | some c =>
      obtain ⟨r', hr', _⟩ := ensureEntry_local Side c key 0
      simp only [ofExcept, JM.modify_apply, hc]
      simp only [Option.isSome_some, if_true, JM.bind_apply, deref, JM.pure_apply, hr']
      cases r' <;> rfl

theorem ensureEntry_eq : Pairs.Side.ensureEntry = Side.ensureEntry := by
  funext e
  apply JM_ext; intro s
  unfold Pairs.Side.ensureEntry Side.ensureEntry
  simp only [JM.bind_apply, JM.get_apply]
  obtain ⟨r, hr, _⟩ := ensureEntry_local Side s.nexts e (-1)
  obtain ⟨r', hr', _⟩ := ensureEntry_local Side s.prevs e (-1)
  rw [hr]
  cases r with
  | error e => rfl
  | ok b =>
    simp only [ofExcept, JM.modify_apply, hr']
    cases r' <;> rfl

/-- the last statement of `insertEntry` -/
theorem inc_eq (key : Int) : (do
    let s2 ← get
    (if (s2.count.isSome) = true then do
        let v3 ← deref s2.count
        let v4 ← rdA v3 key
        let v5 := i32 (v4 + 1)
        let s6 ← get
        let v7 ← deref s6.count
        let v8 ← wrA v7 key v5
        modify fun self => { self with count := some v8 }
        pure ()
      else pure ())
    pure () : JM Side Unit) = Side.addCount key 1 := by
  apply JM_ext; intro s
  unfold Side.addCount
  cases hc : s.count with
  | none => simp [JM.bind_apply, hc]
  | some c =>
    simp only [JM.bind_apply, JM.get_apply, hc, Option.isSome_some, if_true, deref, JM.pure_apply, rdA, wrA]
    by_cases hb : 0 ≤ key ∧ key < c.len
    · simp only [if_pos hb, hc, JM.bind_apply, JM.pure_apply, JM.modify_apply, JM.get_apply, wrA]
    · simp only [if_neg hb]

/-- the last statement of `removeEntry` -/
theorem dec_eq (key : Int) : (do
    let s5 ← get
    (if (s5.count.isSome) = true then do
        let v6 ← deref s5.count
        let v7 ← rdA v6 key
        let v8 := i32 (v7 - 1)
        let s9 ← get
        let v10 ← deref s9.count
        let v11 ← wrA v10 key v8
        modify fun self => { self with count := some v11 }
        pure ()
      else pure ())
    pure () : JM Side Unit) = Side.addCount key (-1) := by
  apply JM_ext; intro s
  unfold Side.addCount
  cases hc : s.count with
  | none => simp [JM.bind_apply, hc]
  | some c =>
    simp only [JM.bind_apply, JM.get_apply, hc, Option.isSome_some, if_true, deref, JM.pure_apply, rdA, wrA]
    by_cases hb : 0 ≤ key ∧ key < c.len
    · simp only [if_pos hb, hc, JM.bind_apply, JM.pure_apply, JM.modify_apply, JM.get_apply, wrA]
      rfl
    · simp only [if_neg hb]

theorem insertEntry_eq : Pairs.Side.insertEntry = Side.insertEntry := by
  funext key e
  unfold Pairs.Side.insertEntry Side.insertEntry
  rw [ensureKey_eq]
  congr 1; funext _
  congr 1; funext h
  unfold JM.when
  by_cases hh : h = -1
  · simp only [hh, ne_eq, not_true_eq_false, decide_false, Bool.false_eq_true, if_false]
    congr 1; funext _
    congr 1; funext _
    exact inc_eq key
  · simp only [ne_eq, hh, not_false_eq_true, decide_true, if_true, ensureEntry_eq, bind_unit]
    congr 1; funext _
    congr 1; funext _
    simpa only [bind_unit] using inc_eq key

theorem removeEntry_eq : Pairs.Side.removeEntry = Side.removeEntry := by
  funext key e
  unfold Pairs.Side.removeEntry Side.removeEntry
  congr 1; funext h
  have tail : (do
      wr Verif.Side.prevs (fun self a => { self with prevs := a }) e (-1)
      wr Verif.Side.nexts (fun self a => { self with nexts := a }) e (-1)
      let s5 ← get
      (if (s5.count.isSome) = true then do
          let v6 ← deref s5.count
          let v7 ← rdA v6 key
          let v8 := i32 (v7 - 1)
          let s9 ← get
          let v10 ← deref s9.count
          let v11 ← wrA v10 key v8
          modify fun self => { self with count := some v11 }
          pure ()
        else pure ())
      pure () : JM Side Unit) = (do
        Side.wrPrevs e (-1)
        Side.wrNexts e (-1)
        Side.addCount key (-1)) := by
    congr 1; funext _
    congr 1; funext _
    exact dec_eq key
  by_cases hh : h = e
  · simp only [hh, decide_true, if_true, bind_unit, ← tail, assoc]
  · simp only [hh, decide_false, Bool.false_eq_true, if_false, bind_unit, ← tail, assoc]
    congr 1; funext prev
    congr 1; funext next
    unfold JM.when
    simp only [ne_eq, decide_eq_true_eq, decide_not, Bool.not_eq_true', decide_eq_false_iff_not]

theorem count_eq : Pairs.Side.count = Side.countOf := by
  funext key
  apply JM_ext; intro s
  unfold Pairs.Side.count Side.countOf
  simp only [JM.bind_apply, JM.get_apply]
  cases hc : s.count with
  | none => simp
  | some c =>
    by_cases hk : key < (c.len : Int)
    · simp [hc, deref, hk, JM.bind_apply, rdA]
    · simp [hc, deref, hk]

/-- The constructor. -/
theorem initSide_eq (n m : Int) (counts : Bool) (s : Side) :
    (match Pairs.Side.init n m counts s with | .ok _ t => .ok t | .err e _ => .error e) = Side.new n m counts := by
  unfold Pairs.Side.init Side.new
  by_cases hn : 0 ≤ n
  · by_cases hm : 0 ≤ m
    · have hc : ¬ (n < 0 ∨ m < 0) := by omega
      simp only [if_neg hc]
      cases counts <;> simp [JM.bind_apply, newArr, hn, hm]
    · have hc : n < 0 ∨ m < 0 := by omega
      simp only [if_pos hc]
      simp [JM.bind_apply, newArr, hn, hm]
  · have hc : n < 0 ∨ m < 0 := by omega
    simp only [if_pos hc]
    simp [JM.bind_apply, newArr, hn]

end Verif.Link.BiL

import Verif.Props.Bi
set_option linter.unusedSectionVars false
/-! Concrete cases that meet the hypotheses of the theorems in `Props/Bi.lean`. -/
namespace Verif
open Bi BiSpec

namespace Bi

/-- There are two sides. -/
def forallDir {p : Dir → Prop} [∀ d, Decidable (p d)] : Decidable (∀ d, p d) :=
  decidable_of_iff (p .left ∧ p .right)
    ⟨fun h d => by cases d <;> [exact h.1; exact h.2], fun h => ⟨h _, h _⟩⟩

instance : Decidable (IsInt k) := by unfold IsInt; infer_instance

instance : ∀ (i : Ideal) (d : Dir), Decidable (i.has d)
  | _, .left => .isTrue trivial
  | i, .right => inferInstanceAs (Decidable (i.many = true))

instance : ∀ (cap : Int) (o : Op) (i : Ideal), Decidable (Small cap o i)
  | cap, .put l r, i => by
    have : Decidable (∀ d, i.has d → 0 ≤ Assoc.key d ⟨0, l, r⟩ ∧ Assoc.key d ⟨0, l, r⟩ < 2 ^ 30) := forallDir
    unfold Small; infer_instance
  | _, .remove l r, i => by unfold Small; infer_instance
  | _, .removeAt e, i => by unfold Small; infer_instance
  | _, .removeAtAndReserve e, i => by unfold Small; infer_instance
  | _, .freeReservedEntry e, i => by unfold Small Guard; infer_instance
  | _, .contains l r, i => by unfold Small Guard; infer_instance
  | _, .lookupEntry l r, i => by unfold Small Guard; infer_instance
  | _, .size, i => .isTrue trivial
  | _, .getLeftAt _, i => .isTrue trivial
  | _, .getRightAt _, i => .isTrue trivial
  | _, .forEachEntry, i => .isTrue trivial
  | _, .withKey d _, i => by unfold Small Guard; infer_instance
  | _, .count d, i => by unfold Small Guard; infer_instance
  | _, .forEachOf d _, i => by unfold Small Guard; infer_instance
  | _, .iterator d _, i => by unfold Small Guard; infer_instance
  | _, .iterReset d _, i => by unfold Small Guard; infer_instance
  | _, .hasNext d k, i => by
    have : Decidable ((i.cursor d k).rest ≠ none) :=
      decidable_of_iff ((i.cursor d k).rest.isSome = true) (by cases (i.cursor d k).rest <;> simp)
    unfold Small Guard; infer_instance
  | _, .next d k, i => by
    have : Decidable ((i.cursor d k).rest ≠ none) :=
      decidable_of_iff ((i.cursor d k).rest.isSome = true) (by cases (i.cursor d k).rest <;> simp)
    unfold Small Guard; infer_instance

/-- Run a history beside its ideal, as long as it stays within the capacity. -/
def runBoth (cap : Int) : Bi → Ideal → List Op → Option (Bi × Ideal)
  | s, i, [] => some (s, i)
  | s, i, o :: os =>
    if Small cap o i then runBoth cap (step o s).state (after o (step o s).out i) os else none

/-- The same from the constructor. -/
def calmRun (many : Bool) (il ir cap : Int) (counts : Bool) (ops : List Op) : Option (Bi × Ideal) :=
  match Bi.new many il ir cap counts with
  | .ok s => runBoth cap s (start many il ir cap counts) ops
  | .error _ => none

theorem runBoth_calm {cap : Int} : ∀ (ops : List Op) (s : Bi) (i : Ideal) (p : Bi × Ideal),
    Calm cap s i → runBoth cap s i ops = some p → Calm cap p.1 p.2
  | [], s, i, p, h, hr => by simp only [runBoth, Option.some.injEq] at hr; subst hr; exact h
  | o :: os, s, i, p, h, hr => by
    simp only [runBoth] at hr
    split at hr
    · exact runBoth_calm os _ _ p (.call o h ‹_›) hr
    · simp at hr

theorem calmRun_calm {many : Bool} {il ir cap : Int} {counts : Bool} {ops : List Op} {p : Bi × Ideal}
    (h : calmRun many il ir cap counts ops = some p) : Calm cap p.1 p.2 := by
  unfold calmRun at h
  split at h
  · exact runBoth_calm ops _ _ p (.new ‹_›) h
  · simp at h

theorem exists_calm {many : Bool} {il ir cap : Int} {counts : Bool} {ops : List Op} {P : Ideal → Bool}
    (h : ((calmRun many il ir cap counts ops).map fun p => P p.2) = some true) :
    ∃ s i, Calm cap s i ∧ Reach s i ∧ P i = true := by
  cases hr : calmRun many il ir cap counts ops with
  | none => rw [hr] at h; simp at h
  | some p =>
    rw [hr] at h
    simp only [Option.map_some, Option.some.injEq] at h
    have hc := calmRun_calm hr
    exact ⟨p.1, p.2, hc, (calm_inv hc).2.2, h⟩

end Bi

/-- C59 - C62: a state with four associations, one reserved, keys with several associations on both
sides, reached within the capacity. -/
example : ∃ s i, Calm 6 s i ∧ Reach s i ∧
    decide (i.assocs = [⟨1, 4, 0⟩, ⟨4, 0, 9⟩, ⟨2, 3, 2⟩, ⟨0, 0, 0⟩] ∧ i.reserved = [⟨3, 3, 0⟩] ∧
      i.many = true ∧ i.counted = true) = true :=
  exists_calm (many := true) (il := 2) (ir := 2) (counts := true)
    (ops := [.put 0 0, .put 0 1, .put 3 2, .put 3 0, .put 0 9, .remove 0 1, .removeAtAndReserve 3, .put 4 0])
    (by decide +kernel)

/-- C63: in such a state the key 7 has no associations. -/
example : ∃ s i, Calm 6 s i ∧ Reach s i ∧
    decide (∀ a ∈ i.assocs, a.key .left ≠ 7 ∧ a.key .right ≠ 7) = true :=
  exists_calm (many := true) (il := 2) (ir := 2) (counts := true) (ops := [.put 0 0, .put 0 1, .put 3 2])
    (by decide +kernel)

/-- C72: an iterator in the middle of a chain of four, an entry later in the chain about to be
removed. -/
example : ∃ s i, Calm 6 s i ∧ Reach s i ∧
    decide ((i.cursor .left .value).rest = some [2, 1, 0] ∧ i.live = [3, 2, 1, 0] ∧
      Small 6 (.removeAt 1) i) = true :=
  exists_calm (many := true) (il := 2) (ir := 2) (counts := true)
    (ops := [.put 0 0, .put 0 1, .put 0 2, .put 0 3, .withKey .left 0, .iterator .left .value, .next .left .value])
    (by decide +kernel)

/-- C59_remove_refuted: constructors succeed. -/
example : (Bi.new true 2 2 5 true).isOk = true ∧ (Bi.new false 0 0 1 false).isOk = true := by decide +kernel

/-- C64_guarded_put_succeeds_partial: a put with keys beyond the initial number of keys. -/
example {s : Bi} (h : Bi.new true 2 2 1 true = .ok s) :
    Guard (.put 5 6) (start true 2 2 1 true) ∧ Reach s (start true 2 2 1 true) := by
  refine ⟨⟨by decide, by decide, fun _ => ⟨?_, by decide⟩⟩, .new h⟩
  intro d _
  cases d <;> refine ⟨by decide, by decide, ?_⟩ <;> intro x hx <;> simp [Ideal.entriesOf, Ideal.of, start] at hx

end Verif

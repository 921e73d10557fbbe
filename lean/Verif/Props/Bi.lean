import Verif.Proofs.Bi6
set_option linter.unusedSectionVars false
/-! # Properties C59 - C64, C72: the two-sided collections

`step` is the model of one call, `Ideal`, `Ok`, `after` and `Guard` the specification
(Spec/Bi.lean): the list of associations, most recent first.  `Reach s i` says that `s` was made by
the constructor and guarded calls and that `i` is what those calls and their results say; `Calm cap`
is the same for callers that never have more than `cap`, the initial mapping capacity, associations
at once.  The properties that fail outside of that are the `_refuted` theorems. -/
namespace Verif
open Bi BiSpec
variable {s : Bi} {i : Ideal}

namespace Bi

/-- A new `CompactManyToMany` with counts after a history. -/
def afterRun (il ir ic : Int) (ops : List Op) : Option Bi :=
  match Bi.new true il ir ic true with
  | .ok s => some (runM step s ops).2
  | .error _ => none

/-- The results of a history on a new collection. -/
def results (many : Bool) (il ir ic : Int) (counts : Bool) (ops : List Op) : List (Except Err Out) :=
  match Bi.new many il ir ic counts with
  | .ok s => (runM step s ops).1
  | .error e => [.error e]

/-- The pair is in the collection, as told by `contains`. -/
def Holds (s : Bi) (l r : Int) : Prop := (step (.contains l r) s).out = .ok (.bool true)

end Bi

/-! ## C59 -/

/-- **C59** Every result of every guarded history on a new collection is that of the ideal set of
pairs. -/
theorem C59_history_partial {many : Bool} {il ir ic : Int} {counts : Bool}
    (h : Bi.new many il ir ic counts = .ok s) (ops : List Op) :
    Legal (start many il ir ic counts) ops (runM step s ops).1 :=
  legal_of_inv ops s _ (new_inv h)

/-- **C59** For histories that stay within the initial capacity nothing has to be respected except
the range of keys and the liveness of entries removed by entry. -/
theorem C59_small_history_partial {many : Bool} {il ir ic : Int} {counts : Bool}
    (h : Bi.new many il ir ic counts = .ok s) (ops : List Op) :
    LegalSmall ic (start many il ir ic counts) ops (runM step s ops).1 :=
  legalSmall_of_inv ops s _ (new_inv h) (new_roomy (new_cap h))

/-- **C59** A history within the initial capacity is guarded. -/
theorem C59_small_is_guarded {cap : Int} (h : Calm cap s i) :
    Reach s i ∧ ∀ d k, i.Covered d k := by
  obtain ⟨h1, h2, h3⟩ := calm_inv h
  exact ⟨h3, roomy_covered h1 h2⟩

/-- **C59** The collection is a set of pairs: no pair is held twice, `contains` and `lookupEntry`
tell which are held, `size` how many, and no two have the same entry. -/
theorem C59_set_of_pairs_partial (h : Reach s i) :
    (i.assocs.map fun a => (a.left, a.right)).Nodup ∧ i.live.Nodup ∧
    (step .size s).out = .ok (.int i.assocs.length) ∧
    (∀ l r, IsInt l → IsInt r → (Holds s l r ↔ ∃ a ∈ i.assocs, a.left = l ∧ a.right = r)) ∧
    (∀ a ∈ i.assocs, (step (.lookupEntry a.left a.right) s).out = .ok (.int a.entry) ∧ 0 ≤ a.entry) ∧
    (∀ l r, IsInt l → IsInt r → ¬ Holds s l r → (step (.lookupEntry l r) s).out = .ok (.int (-1))) := by
  have hI := reach_inv h
  have hc : ∀ l r, IsInt l → IsInt r → (Holds s l r ↔ ∃ a ∈ i.assocs, a.left = l ∧ a.right = r) := by
    intro l r hl hr
    unfold Holds
    rw [contains_spec hI hl hr]
    constructor
    · intro hh
      simp only [Except.ok.injEq, Out.bool.injEq] at hh
      obtain ⟨a, ha⟩ := Option.isSome_iff_exists.1 hh
      exact ⟨a, find_some ha⟩
    · rintro ⟨a, ha, rfl, rfl⟩
      rw [find_mem hI ha]; rfl
  refine ⟨pairs_nodup hI, nodup_live hI, (step_spec hI .size trivial).1, hc, ?_, ?_⟩
  · intro a ha
    have hi := hI.ints a (.inl ha)
    have := (step_spec hI (.lookupEntry a.left a.right) hi).1
    simp only [Ok, find_mem hI ha] at this
    exact ⟨this, (key_at hI (.inl ha)).1⟩
  · intro l r hl hr hn
    have := (step_spec hI (.lookupEntry l r) ⟨hl, hr⟩).1
    cases hf : i.find l r with
    | none => simp only [Ok, hf] at this; exact this
    | some a => exact absurd ((hc l r hl hr).2 ⟨a, find_some hf⟩) hn

/-- **C59** The entry `lookupEntry` or `put` returns is the entry of that pair. -/
theorem C59_entry_of_pair_partial (h : Reach s i) {l r e : Int} (hl : IsInt l) (hr : IsInt r) (he : e ≠ -1)
    (ho : (step (.lookupEntry l r) s).out = .ok (.int e)) :
    (step (.getLeftAt e) s).out = .ok (.int l) ∧ (step (.getRightAt e) s).out = .ok (.int r) := by
  have hI := reach_inv h
  have h1 := (step_spec hI (.lookupEntry l r) ⟨hl, hr⟩).1
  cases hf : i.find l r with
  | none => simp only [Ok, hf] at h1; rw [h1] at ho; simp at ho; omega
  | some a =>
    simp only [Ok, hf] at h1
    rw [h1] at ho
    simp only [Except.ok.injEq, Out.int.injEq] at ho
    obtain ⟨ha, rfl, rfl⟩ := find_some hf
    exact ⟨(step_spec hI (.getLeftAt e) trivial).1 a (.inl ha) ho,
      (step_spec hI (.getRightAt e) trivial).1 a (.inl ha) ho⟩

/-- **C59** is false in general, for every initial capacity `n`: after `n + 1` puts of `(j, j)` the
last association is there but can be removed neither by its keys nor by its entry. -/
theorem C59_remove_refuted {many : Bool} {il ir : Int} {n : Nat} {counts : Bool} (hn : n + 29 < 2 ^ 29)
    (h : Bi.new many il ir n counts = .ok s) :
    ∃ s', (runM step s ((List.range (n + 1)).map fun j : Nat => Op.put j j)).2 = s' ∧
      (step .size s').out = .ok (.int (n + 1)) ∧ Holds s' n n ∧
      step (.remove n n) s' = .err .indexOutOfBounds s' ∧
      step (.removeAt n) s' = .err .indexOutOfBounds s' ∧
      ∀ k, (runM step s' [.withKey .left n, .forEachOf .left k]).1 =
        [.ok .unit, .error .indexOutOfBounds] := by
  obtain ⟨i, hi⟩ := run_singles h (n + 1) (by omega)
  have hI := hi.inv
  have hlast := hi.last (by omega)
  push_cast at hlast
  simp only [Int.add_sub_cancel] at hlast
  have hint : IsInt n := by unfold IsInt; omega
  have hf := find_mem hI hlast
  simp only at hf
  have hof : i.of .left n = [⟨n, n, n⟩] := by
    have hm : (⟨n, n, n⟩ : Assoc) ∈ i.of .left n := mem_of.2 ⟨hlast, rfl⟩
    have hall : ∀ a ∈ i.of .left n, a = ⟨n, n, n⟩ := by
      intro a ha
      obtain ⟨h1, h2⟩ := mem_of.1 ha
      simp only [Assoc.key] at h2
      have := hi.form a h1
      cases a
      simp only at this h2 ⊢
      simp [this, h2]
    have hnd : (i.of .left n).Nodup := (List.Nodup.of_map _ (nodup_live hI)).sublist List.filter_sublist
    rcases hl : i.of .left n with _ | ⟨a, _ | ⟨b, t⟩⟩
    · rw [hl] at hm; simp at hm
    · rw [hl] at hall; simp at hall; rw [hall]
    · rw [hl] at hall hnd
      have h1 := hall a (by simp)
      have h2 := hall b (by simp)
      rw [h1, h2] at hnd
      simp at hnd
  have hcells : (side .left (runM step s ((List.range (n + 1)).map fun j : Nat => Op.put j j)).2).nexts.len ≤
      (n : Int) := by rw [hi.cells]; exact Int.le_refl _
  refine ⟨_, rfl, ?_, ?_, ?_, ?_, ?_⟩
  · have := (step_spec hI .size trivial).1
    simp only [Ok, hi.len] at this
    rw [this]; push_cast; rfl
  · unfold Holds
    rw [contains_spec hI hint hint, hf]; rfl
  · exact (lone_fails hI hint hint hf (by unfold Ideal.entriesOf; rw [hof]; rfl) hcells).1
  · exact (lone_fails hI hint hint hf (by unfold Ideal.entriesOf; rw [hof]; rfl) hcells).2
  · intro k
    exact lone_walk hI (d := .left) trivial k hof hcells

/-! ## C60, C61 -/

/-- **C60** `withLeft(l).forEachEntry` hands out exactly the entries of the associations of `l`, each
once. -/
theorem C60_left_entries_partial (h : Reach s i) (l : Int) (hc : i.Covered .left l) :
    ∃ es, (runM step s [.withKey .left l, .forEachOf .left .entry]).1 = [.ok .unit, .ok (.ints es)] ∧
      es.Nodup ∧ ∀ e, e ∈ es ↔ ∃ a ∈ i.assocs, a.left = l ∧ a.entry = e := by
  have hI := reach_inv h
  refine ⟨_, walk_entries hI (d := .left) trivial l hc, entries_nodup hI _ _, fun e => ?_⟩
  rw [listOf_entry]; exact entries_mem

/-- **C60** `withLeft(l).forEachValue` hands out exactly the right keys associated with `l`, each
once, most recent association first. -/
theorem C60_left_values_partial (h : Reach s i) {l : Int} (h0 : 0 ≤ l) (hs : l < i.span .left)
    (hi : IsInt l) (hc : i.Covered .left l) :
    ∃ vs, (runM step s [.withKey .left l, .forEachOf .left .value]).1 = [.ok .unit, .ok (.ints vs)] ∧
      vs.Nodup ∧ (∀ r, IsInt r → (r ∈ vs ↔ Holds s l r)) ∧
      vs = (i.assocs.filter fun a => a.left = l).map (·.right) := by
  have hI := reach_inv h
  refine ⟨_, walk_values hI (d := .left) trivial h0 hs hc, values_nodup hI _ _, fun r hr => ?_, rfl⟩
  unfold Holds
  rw [values_mem hI, contains_spec hI hi hr]
  simp

/-- **C60** Every left key with associations is in the range `C60_left_values_partial` asks for. -/
theorem C60_left_span (h : Reach s i) : ∀ a ∈ i.assocs, 0 ≤ a.left ∧ a.left < i.span .left ∧ IsInt a.left := by
  intro a ha
  have hI := reach_inv h
  have := (hI.sides .left trivial).ks (a.left, a.entry) (List.mem_map.2 ⟨a, ha, rfl⟩)
  exact ⟨this.1, this.2, (hI.ints a (.inl ha)).1⟩

/-- **C60** Within the initial capacity, navigating from any associated left key works. -/
theorem C60_small_partial {cap : Int} (h : Calm cap s i) {l : Int} (hl : ∃ a ∈ i.assocs, a.left = l) :
    ∃ vs, (runM step s [.withKey .left l, .forEachOf .left .value]).1 = [.ok .unit, .ok (.ints vs)] ∧
      vs.Nodup ∧ ∀ r, IsInt r → (r ∈ vs ↔ Holds s l r) := by
  obtain ⟨h1, h2⟩ := C59_small_is_guarded h
  obtain ⟨a, ha, rfl⟩ := hl
  obtain ⟨g1, g2, g3⟩ := C60_left_span h1 a ha
  obtain ⟨vs, v1, v2, v3, _⟩ := C60_left_values_partial h1 g1 g2 g3 (h2 _ _)
  exact ⟨vs, v1, v2, v3⟩

/-- **C61** `withRight(r).forEachEntry`. -/
theorem C61_right_entries_partial (h : Reach s i) (hm : i.many = true) (r : Int) (hc : i.Covered .right r) :
    ∃ es, (runM step s [.withKey .right r, .forEachOf .right .entry]).1 = [.ok .unit, .ok (.ints es)] ∧
      es.Nodup ∧ ∀ e, e ∈ es ↔ ∃ a ∈ i.assocs, a.right = r ∧ a.entry = e := by
  have hI := reach_inv h
  refine ⟨_, walk_entries hI (d := .right) hm r hc, entries_nodup hI _ _, fun e => ?_⟩
  rw [listOf_entry]; exact entries_mem

/-- **C61** `withRight(r).forEachValue` hands out exactly the left keys associated with `r`, each
once, most recent association first. -/
theorem C61_right_values_partial (h : Reach s i) (hm : i.many = true) {r : Int} (h0 : 0 ≤ r)
    (hs : r < i.span .right) (hi : IsInt r) (hc : i.Covered .right r) :
    ∃ vs, (runM step s [.withKey .right r, .forEachOf .right .value]).1 = [.ok .unit, .ok (.ints vs)] ∧
      vs.Nodup ∧ (∀ l, IsInt l → (l ∈ vs ↔ Holds s l r)) ∧
      vs = (i.assocs.filter fun a => a.right = r).map (·.left) := by
  have hI := reach_inv h
  refine ⟨_, walk_values hI (d := .right) hm h0 hs hc, values_nodup hI _ _, fun l hl => ?_, rfl⟩
  unfold Holds
  rw [values_mem hI, contains_spec hI hl hi]
  simp

/-- **C61** Every right key with associations is in the range `C61_right_values_partial` asks for. -/
theorem C61_right_span (h : Reach s i) (hm : i.many = true) :
    ∀ a ∈ i.assocs, 0 ≤ a.right ∧ a.right < i.span .right ∧ IsInt a.right := by
  intro a ha
  have hI := reach_inv h
  have := (hI.sides .right hm).ks (a.right, a.entry) (List.mem_map.2 ⟨a, ha, rfl⟩)
  exact ⟨this.1, this.2, (hI.ints a (.inl ha)).2⟩

/-- **C61** The two directions agree: `r` is among the values of `withLeft(l)` iff `l` is among those
of `withRight(r)`. -/
theorem C61_directions_agree_partial {cap : Int} (h : Calm cap s i) (hm : i.many = true) {l r : Int}
    (hl : ∃ a ∈ i.assocs, a.left = l) (hr : ∃ a ∈ i.assocs, a.right = r) :
    ∃ vs us, (runM step s [.withKey .left l, .forEachOf .left .value]).1 = [.ok .unit, .ok (.ints vs)] ∧
      (runM step s [.withKey .right r, .forEachOf .right .value]).1 = [.ok .unit, .ok (.ints us)] ∧
      (r ∈ vs ↔ l ∈ us) := by
  obtain ⟨h1, h2⟩ := C59_small_is_guarded h
  obtain ⟨a, ha, rfl⟩ := hl
  obtain ⟨b, hb, rfl⟩ := hr
  obtain ⟨g1, g2, g3⟩ := C60_left_span h1 a ha
  obtain ⟨k1, k2, k3⟩ := C61_right_span h1 hm b hb
  obtain ⟨vs, v1, _, v3, _⟩ := C60_left_values_partial h1 g1 g2 g3 (h2 _ _)
  obtain ⟨us, u1, _, u3, _⟩ := C61_right_values_partial h1 hm k1 k2 k3 (h2 _ _)
  exact ⟨vs, us, v1, u1, (v3 _ k3).trans (u3 _ g3).symm⟩

/-- **C60** is false in general: with capacity 1, the second key with one association cannot be
walked although the association is there (for every capacity: `C59_remove_refuted`). -/
theorem C60_walk_refuted :
    results false 4 4 1 true [.put 0 0, .put 1 1, .contains 1 1, .withKey .left 1, .count .left,
      .forEachOf .left .value] =
    [.ok (.int 0), .ok (.int 1), .ok (.bool true), .ok .unit, .ok (.int 1),
      .error .indexOutOfBounds] := by decide +kernel

/-- **C61** likewise. -/
theorem C61_walk_refuted :
    results true 4 4 1 true [.put 0 0, .put 0 1, .contains 0 1, .withKey .left 0, .forEachOf .left .value,
      .withKey .right 1, .forEachOf .right .value] =
    [.ok (.int 0), .ok (.int 1), .ok (.bool true), .ok .unit, .ok (.ints [1, 0]), .ok .unit,
      .error .indexOutOfBounds] := by decide +kernel

/-- **C59** A `CompactOneToMany` does not keep a right key to one left key. -/
theorem C59_one_left_per_right_refuted :
    results false 4 4 4 false [.put 0 7, .put 1 7, .contains 0 7, .contains 1 7] =
    [.ok (.int 0), .ok (.int 1), .ok (.bool true), .ok (.bool true)] := by decide +kernel

/-! ## C62 -/

/-- **C62** `count` is the number of associations of the key. -/
theorem C62_count_partial (h : Reach s i) (hcnt : i.counted = true) {d : Dir} (hd : i.has d) {k : Int}
    (h0 : 0 ≤ k) :
    (runM step s [.withKey d k, .count d]).1 =
      [.ok .unit, .ok (.int (i.assocs.filter fun a => a.key d = k).length)] := by
  rw [count_key (reach_inv h) hd k, hcnt]
  simp only [Bool.true_eq_false, if_false]
  rw [if_neg (by omega)]
  rfl

/-- **C62** ... which is how many values iterating the key hands out. -/
theorem C62_count_is_length_partial (h : Reach s i) (hcnt : i.counted = true) {d : Dir} (hd : i.has d)
    {k : Int} (h0 : 0 ≤ k) (hc : i.Covered d k) :
    ∃ es : List Int, (runM step s [.withKey d k, .forEachOf d .entry]).1 = [.ok .unit, .ok (.ints es)] ∧
      (runM step s [.withKey d k, .count d]).1 = [.ok .unit, .ok (.int es.length)] := by
  refine ⟨_, walk_entries (reach_inv h) hd k hc, ?_⟩
  rw [C62_count_partial h hcnt hd h0]
  simp [Ideal.listOf, Ideal.of]

/-- **C62** Without counts `count` always throws `IllegalStateException`. -/
theorem C62_uncounted (h : Reach s i) (hcnt : i.counted = false) {d : Dir} (hd : i.has d) (k : Int) :
    (runM step s [.withKey d k, .count d]).1 = [.ok .unit, .error .illegalState] := by
  rw [count_key (reach_inv h) hd k, if_pos hcnt]

/-- **C62** is false for negative keys: they have no associations, but `count` throws. -/
theorem C62_negative_refuted (h : Reach s i) (hcnt : i.counted = true) {d : Dir} (hd : i.has d) {k : Int}
    (h0 : k < 0) :
    i.of d k = [] ∧ (runM step s [.withKey d k, .count d]).1 = [.ok .unit, .error .indexOutOfBounds] := by
  have hI := reach_inv h
  constructor
  · have := entries_out hI hd (key := k) (by omega)
    unfold Ideal.entriesOf at this
    rwa [List.map_eq_nil_iff] at this
  · rw [count_key hI hd k, hcnt]
    simp only [Bool.true_eq_false, if_false]
    rw [if_pos h0]

/-- **C62** is false if an entry is removed twice: the second `removeAt` does not throw, and the count
of the key it used to belong to drops once more. -/
theorem C62_remove_twice_refuted :
    results false 4 4 4 true [.put 0 0, .put 0 1, .put 0 2, .removeAt 0, .removeAt 0, .size,
      .withKey .left 0, .count .left, .forEachOf .left .value] =
    [.ok (.int 0), .ok (.int 1), .ok (.int 2), .ok (.int 0), .ok (.int 0), .ok (.int 2), .ok .unit,
      .ok (.int 1), .ok (.ints [2, 1])] := by decide +kernel

/-! ## C63 -/

/-- **C63** Iterating the entries of, and counting, a key without associations. -/
theorem C63_entries_and_count (h : Reach s i) {d : Dir} (hd : i.has d) {k : Int} (h0 : 0 ≤ k)
    (hn : ∀ a ∈ i.assocs, a.key d ≠ k) :
    (runM step s [.withKey d k, .forEachOf d .entry]).1 = [.ok .unit, .ok (.ints [])] ∧
    (i.counted = true → (runM step s [.withKey d k, .count d]).1 = [.ok .unit, .ok (.int 0)]) := by
  have hof : i.of d k = [] := by
    unfold Ideal.of
    rw [List.filter_eq_nil_iff]
    intro a ha; simpa using hn a ha
  have hc : i.Covered d k := by
    intro e he
    unfold Ideal.entriesOf at he
    rw [hof] at he; simp at he
  constructor
  · rw [walk_entries (reach_inv h) hd k hc]
    unfold Ideal.listOf; rw [hof]; rfl
  · intro hcnt
    rw [count_key (reach_inv h) hd k, hcnt, hof]
    simp only [Bool.true_eq_false, if_false]
    rw [if_neg (by omega)]
    rfl

/-- **C63** Iterating the values of a key without associations, if the key is below the initial number
of keys or below a key that was put. -/
theorem C63_values_partial (h : Reach s i) {d : Dir} (hd : i.has d) {k : Int} (h0 : 0 ≤ k)
    (hs : k < i.span d) (hn : ∀ a ∈ i.assocs, a.key d ≠ k) :
    (runM step s [.withKey d k, .forEachOf d .value]).1 = [.ok .unit, .ok (.ints [])] := by
  have hof : i.of d k = [] := by
    unfold Ideal.of
    rw [List.filter_eq_nil_iff]
    intro a ha; simpa using hn a ha
  have hc : i.Covered d k := by
    intro e he
    unfold Ideal.entriesOf at he
    rw [hof] at he; simp at he
  rw [walk_values (reach_inv h) hd h0 hs hc]
  unfold Ideal.listOf; rw [hof]; rfl

/-- **C63** is false for values: in every new collection, iterating the values of any left key from
the initial number of lefts on throws. -/
theorem C63_values_refuted {many : Bool} {il ir ic : Int} {counts : Bool}
    (h : Bi.new many il ir ic counts = .ok s) {k : Int} (hk : il ≤ k) :
    (runM step s [.withKey .left k, .forEachOf .left .value]).1 =
      [.ok .unit, .error .indexOutOfBounds] := by
  have hI := new_inv h
  have hheads := new_heads h
  obtain ⟨h1, h2⟩ := withKey_step hI .left k
  have hside : side .left (step (.withKey .left k) s).state = side .left s := by
    have hr : step (.withKey .left k) s = .ok .unit (setMap .left s { map .left s with key := k }) := by
      simp only [step, withKey]; rw [JM.bind_ok (JM.modify_apply _ _)]; rfl
    rw [hr]; rfl
  obtain ⟨t, ht⟩ : ∃ t, t = (step (.withKey .left k) s).state := ⟨_, rfl⟩
  rw [← ht] at h2 hside
  have hkey := h2.key .left
  simp only [if_true] at hkey
  have hi' : Inv (setCur .left .value t { cur .left .value t with key := k })
      (Ideal.setCursor _ .left .value ⟨k, none⟩) := setCur_inv h2 rfl (by intro l hl; simp at hl)
  have hit : ∃ u, iterator .left .value t = .err .indexOutOfBounds u := by
    unfold iterator
    rw [JM.bind_ok (JM.modify_apply _ _), hkey]
    rcases iterReset_value hi' (d := .left) trivial with ⟨g1, g2, _⟩ | ⟨_, g2⟩
    · rw [cur_setCur] at g2
      rw [side_setCur, hside, hheads] at g2
      simp only at g2
      omega
    · exact ⟨_, g2⟩
  obtain ⟨u, hu⟩ := hit
  have hout : (step (.forEachOf .left .value) t).out = .error .indexOutOfBounds := by
    have : forEachOf .left .value t = .err .indexOutOfBounds u := by
      unfold forEachOf; rw [JM.bind_err hu]
    simp only [step]; rw [JM.bind_err this]; rfl
  show [_, _] = _
  rw [h1, ← ht, hout]

/-! ## C64 -/

/-- **C64** A guarded put does not throw at all ... -/
theorem C64_guarded_put_succeeds_partial (h : Reach s i) {l r : Int} (hg : Guard (.put l r) i) :
    ∃ e, (step (.put l r) s).out = .ok (.int e) := by
  have := (step_spec (reach_inv h) (.put l r) hg).1
  cases hf : i.find l r with
  | none => simp only [Ok, hf] at this; exact ⟨_, this⟩
  | some a => simp only [Ok, hf] at this; exact ⟨_, this⟩

/-- **C64** ... and putting a pair that is already there changes nothing. -/
theorem C64_put_again (h : Reach s i) {a : Assoc} (ha : a ∈ i.assocs) :
    step (.put a.left a.right) s = .ok (.int a.entry) s := by
  have hI := reach_inv h
  have hi := hI.ints a (.inl ha)
  simp only [step]
  rw [JM.bind_ok (put_present hI hi.1 hi.2 (find_mem hI ha))]
  rfl

/-- **C64** is false: a put with a negative left key throws, in every state, and afterwards the pair
is contained and counted by `size`. -/
theorem C64_negative_refuted (h : Reach s i) {l r : Int} (hl : IsInt l) (hr : IsInt r) (hneg : l < 0)
    (hn : ∀ a ∈ i.assocs, ¬ (a.left = l ∧ a.right = r))
    (hlen : i.assocs.length + i.reserved.length + 29 < 2 ^ 29) :
    (step (.put l r) s).out = .error .indexOutOfBounds ∧
    (step .size (step (.put l r) s).state).out = .ok (.int (i.assocs.length + 1)) ∧
    Holds (step (.put l r) s).state l r := by
  refine put_negative (reach_inv h) hl hr hneg ?_ hlen
  unfold Ideal.find
  rw [List.find?_eq_none]
  intro a ha
  simpa using hn a ha

/-- **C64** is false for non-negative keys too: with capacity 1, putting a second pair onto a key whose
first association got entry 1, when entry 0 is free again, throws midway.  The pair is then contained,
but the count of the key is still 1. -/
theorem C64_reuse_refuted :
    results false 4 4 1 true [.put 0 0, .put 1 1, .remove 0 0, .put 1 2, .contains 1 2, .size,
      .withKey .left 1, .count .left] =
    [.ok (.int 0), .ok (.int 1), .ok (.int 0), .error .indexOutOfBounds, .ok (.bool true), .ok (.int 2),
      .ok .unit, .ok (.int 1)] := by decide +kernel

/-! ## C72 -/

/-- **C72** An edit (put, remove, ...) by a program that is in the middle of an iteration: unless it
removes the very entry the iterator is about to hand out, the iterator then hands out exactly the rest
of its entries that are still held, in the same order, and ends.  (Associations put meanwhile are not
handed out.) -/
theorem C72_edit_while_iterating_partial (h : Reach s i) {d : Dir} {k : Kind} (hd : i.has d) {o : Op}
    (hg : Guard o i) (ho : ¬ Moves d k o) {e : Int} {l : List Int}
    (hr : (i.cursor d k).rest = some (e :: l)) {i' : Ideal} (hi' : i' = after o (step o s).out i)
    (hkeep : e ∈ i'.live) (hcov : i'.Covered d (i.cursor d k).key) :
    ∃ A : List Assoc, A.map (·.entry) = e :: l.filter (fun x => decide (x ∈ i'.live)) ∧
      (∀ a ∈ A, a ∈ i'.assocs ∧ a.key d = (i.cursor d k).key) ∧
      (runM step (step o s).state (List.replicate A.length (.next d k) ++ [.hasNext d k])).1 =
        A.map (fun a => .ok (.int (a.show d k))) ++ [.ok (.bool false)] := by
  have hI := reach_inv h
  have h2 := (step_spec hI o hg).2
  rw [hi'] at hkeep
  have hcur := edit_cursor hI hd hg ho hr hkeep
  rw [← hi'] at h2 hcur
  have hhas : i'.has d := by
    have hm : i'.many = i.many := by
      rw [hi']
      cases o with
      | put a b => simp only [after]; split <;> rfl
      | remove a b => simp only [after]; split <;> rfl
      | next a b => simp only [after]; split <;> rfl
      | _ => rfl
    cases d
    · trivial
    · show i'.many = true; rw [hm]; exact hd
  obtain ⟨A, a1, a2, a3⟩ := drain (d := d) (k := k) (e :: l.filter fun x => decide (x ∈ i'.live)) _ i' h2
    hhas (by rw [hcur]) (by rw [hcur]; exact hcov)
  rw [hcur] at a2
  refine ⟨A, a1, a2, ?_⟩
  have : A.length = (e :: l.filter fun x => decide (x ∈ i'.live)).length := by rw [← a1]; simp
  rw [this]
  exact a3

/-- **C72** is false if the edit removes the entry the iterator is about to hand out: the removed
entry is still handed out and the rest is lost. -/
theorem C72_remove_next_refuted :
    results false 4 4 4 true [.put 0 0, .put 0 1, .put 0 2, .withKey .left 0, .iterator .left .entry,
      .removeAt 2, .hasNext .left .entry, .next .left .entry, .hasNext .left .entry,
      .forEachOf .left .entry] =
    [.ok (.int 0), .ok (.int 1), .ok (.int 2), .ok .unit, .ok .unit, .ok (.int 2), .ok (.bool true),
      .ok (.int 2), .ok (.bool false), .ok (.ints [1, 0])] := by decide +kernel

end Verif

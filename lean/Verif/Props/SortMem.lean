import Verif.Spec.SortMem
import Verif.Proofs.SortMem2
import Verif.Props.Sort
/-! C98–C100: the companion sort with comparators that have effects, its comparisons, and one array passed twice. -/
namespace Verif
open SortSpec SortProof SortMem SortMemProof
open CompanionSort (Arrs demo ascending)
variable {σ K V : Type}

namespace SortMem

theorem tame_two (cmp : K → K → JM σ Int) : Tame (two : Mem (Two σ K V) K V) (fun _ => 0) (onTwo cmp) := by
  intro x y s
  unfold Sat onTwo
  simp only
  cases cmp x y s.ext <;> exact ⟨rfl, by omega⟩

theorem tame_counted (cmp : K → K → JM σ Int) :
    Tame (two : Mem (Two (Nat × σ) K V) K V) (fun s => s.ext.1) (onTwo (counted cmp)) := by
  intro x y s
  unfold Sat onTwo counted
  simp only
  cases cmp x y s.ext.2 <;> exact ⟨rfl, Nat.le_refl _⟩

theorem throws_two {cmp : K → K → JM σ Int} {P : K → Prop} {e : Err}
    (h : ThrowsE (onTwo cmp : Cmp (Two σ K V) K) P e) : ∃ x y, P x ∧ P y ∧ ∃ t t', cmp x y t = .err e t' := by
  obtain ⟨x, y, hx, hy, s, t, h⟩ := h
  refine ⟨x, y, hx, hy, s.ext, ?_⟩
  unfold onTwo at h
  simp only at h
  cases hc : cmp x y s.ext with
  | ok r e' => rw [hc] at h; simp at h
  | err e' t' => rw [hc] at h; simp only [Res.err.injEq] at h; exact ⟨t', by rw [h.1]⟩

theorem keysIn_two {s : Two σ K V} {off len : Int} : KeysIn two (· ∈ keys s.arrs off len) off (off + len) s := by
  intro k hk
  exact CompanionSort.mem_keys.mpr ⟨k, hk, rfl⟩

theorem answers_two {cmp : K → K → JM σ Int} {c : K → K → Except Err Int} (h : Decided cmp c) :
    Answers (two : Mem (Two σ K V) K V) (onTwo cmp) c := by
  intro x y s
  have := h x y s.ext
  unfold Sim onTwo CompanionSort.call
  simp only
  cases hc : cmp x y s.ext with
  | ok r e => rw [hc] at this; rw [← this]; rfl
  | err r e => rw [hc] at this; rw [← this]; rfl

theorem answers_one {cmp : K → K → JM σ Int} {c : K → K → Except Err Int} (h : Decided cmp c) :
    Answers (one : Mem (One σ K) K K) (onOne cmp) c := by
  intro x y s
  have := h x y s.ext
  unfold Sim onOne CompanionSort.call
  simp only
  cases hc : cmp x y s.ext with
  | ok r e => rw [hc] at this; rw [← this]; rfl
  | err r e => rw [hc] at this; rw [← this]; rfl

theorem decided_counted {cmp : K → K → JM σ Int} {c : K → K → Except Err Int} (h : Decided cmp c) :
    Decided (counted cmp) c := by
  intro x y e
  rw [← h x y e.2]
  unfold counted
  simp only
  cases cmp x y e.2 <;> rfl

/-- A comparator that changes its mind: the `n`-th call answers the `n`-th digit of a pattern. -/
def moody : Int → Int → JM Nat Int := fun _ _ => ⟨fun n => .ok (((n * n + n / 3) % 5 : Nat) - 2 : Int) (n + 1)⟩

/-- A comparator that orders, and throws after twenty calls. -/
def tired : Int → Int → JM Nat Int := fun x y => ⟨fun n =>
  if n < 20 then .ok (if x < y then -1 else if x = y then 0 else 1) (n + 1) else .err .illegalState n⟩

end SortMem

/-- C98: whatever the comparator does between its calls (it may answer differently each time, keep a state of its
own, throw), and however small the stack is, `sort` leaves a permutation of the original pairs in the range and
everything else untouched; it can only return, rethrow what the comparator threw on two keys of the range, or
overflow the stack. -/
theorem C98_any_comparator {cmp : K → K → JM σ Int} {s : Two σ K V} {off len : Int} (depth : Nat)
    (hz : Sized s.arrs) (hs : InBoth s.arrs off len) :
    List.Perm (pairs (sort two (onTwo cmp) depth off len s).state.arrs off len) (pairs s.arrs off len) ∧
    SameOutside s.arrs (sort two (onTwo cmp) depth off len s).state.arrs off len ∧
    ((sort two (onTwo cmp) depth off len s).out = .ok () ∨
      ∃ e, (sort two (onTwo cmp) depth off len s).out = .error e ∧
        (e = .diverge ∨ ∃ x ∈ keys s.arrs off len, ∃ y ∈ keys s.arrs off len, ∃ t t', cmp x y t = .err e t')) := by
  have h := sort_sat (P := (· ∈ keys s.arrs off len)) (swaps_two fun _ => 0) (tame_two cmp) depth off len s hs hz keysIn_two
  unfold Sat at h
  cases hm : sort two (onTwo cmp) depth off len s with
  | ok a t =>
    rw [hm] at h
    exact ⟨h.1.perm, h.1.sameOutside, Or.inl rfl⟩
  | err e t =>
    rw [hm] at h
    refine ⟨h.1.perm, h.1.sameOutside, Or.inr ⟨e, rfl, ?_⟩⟩
    rcases h.2.2 with h | h
    · obtain ⟨x, y, hx, hy, h⟩ := throws_two h
      exact Or.inr ⟨x, hx, y, hy, h⟩
    · exact Or.inl h

example : Sized (Two.arrs ⟨demo 60, 7⟩ : Arrs Int Int) ∧ InBoth (demo 60) 3 50 ∧
    (sort two (onTwo moody) 51 3 50 ⟨demo 60, 7⟩).out = .ok () ∧
    (sort two (onTwo moody) 2 3 50 ⟨demo 60, 7⟩).out = .error .diverge ∧
    (sort two (onTwo tired) 51 3 50 ⟨demo 60, 7⟩).out = .error .illegalState := by
  refine ⟨by unfold Sized; decide, by unfold InBoth; decide, ?_, ?_, ?_⟩ <;> decide +kernel

/-- C98: as long as the answers depend on the keys only, other effects of the comparator do not influence the
sort: it does to the arrays what Model/Sort.lean says, which C56, C57 and C58 are about. -/
theorem C98_effects_ignored {cmp : K → K → JM σ Int} {c : K → K → Except Err Int} {s : Two σ K V} {off len : Int}
    (hd : Decided cmp c) :
    (sort two (onTwo cmp) (len.toNat + 1) off len s).out = (CompanionSort.sort c off len s.arrs).out ∧
    (sort two (onTwo cmp) (len.toNat + 1) off len s).state.arrs = (CompanionSort.sort c off len s.arrs).state := by
  have h := sort_sim (answers_two (V := V) hd) Sim.swap_two (len.toNat + 1) off len s
  unfold Sim at h
  unfold CompanionSort.sort
  cases hm : sort two (onTwo cmp) (len.toNat + 1) off len s with
  | ok a t =>
    rw [hm] at h
    have h : CompanionSort.sortF c (len.toNat + 1) off len s.arrs = .ok a t.arrs := h
    rw [h]; exact ⟨rfl, rfl⟩
  | err e t =>
    rw [hm] at h
    have h : CompanionSort.sortF c (len.toNat + 1) off len s.arrs = .err e t.arrs := h
    rw [h]; exact ⟨rfl, rfl⟩

/-- A comparator that keeps the last two keys it saw. -/
example : Decided (fun x y : Int => ⟨fun _ => .ok (if x < y then -1 else if x = y then 0 else 1) (x, y)⟩ :
    Int → Int → JM (Int × Int) Int) ascending := fun _ _ _ => rfl

/-- C99: the number of comparisons is at most `3 (len - 1)` per level of nested calls, for every comparator
(`n` calls were counted before the sort). -/
theorem C99_per_level {cmp : K → K → JM σ Int} {a : Arrs K V} {n : Nat} {e : σ} {off len : Int} (depth : Nat)
    (hz : Sized a) (hs : InBoth a off len) (hl : 1 ≤ len) :
    ((sort two (onTwo (counted cmp)) depth off len ⟨a, n, e⟩).state.ext.1 : Int) ≤ n + 3 * depth * (len - 1) := by
  have h := sort_sat (P := (· ∈ keys a off len)) (swaps_two fun t : Nat × σ => t.1) (tame_counted cmp) depth off len
    ⟨a, n, e⟩ hs hz keysIn_two
  unfold Sat at h
  rw [show max (len - 1) 0 = len - 1 by omega] at h
  cases hm : sort two (onTwo (counted cmp)) depth off len ⟨a, n, e⟩ with
  | ok x t => rw [hm] at h; exact h.2
  | err x t => rw [hm] at h; exact h.2.1

/-- C99: for a comparator whose answers depend on the keys only and with `compare(x, x) = 0`, a sort of `len` keys
makes at most `3 len (len - 1) / 2` comparisons. -/
theorem C99_quadratic {cmp : K → K → JM σ Int} {c : K → K → Except Err Int} {a : Arrs K V} {n : Nat} {e : σ}
    {off len : Int} (depth : Nat) (hz : Sized a) (hs : InBoth a off len) (hd : Decided cmp c)
    (hrefl : ∀ x ∈ keys a off len, ∀ r, c x x = .ok r → r = 0) :
    2 * ((sort two (onTwo (counted cmp)) depth off len ⟨a, n, e⟩).state.ext.1 : Int) ≤ 2 * n + 3 * (len * (len - 1)) := by
  have h := sort_bound (P := (· ∈ keys a off len)) (swaps_two fun t : Nat × σ => t.1) Sim.swap_two (tame_counted cmp)
    (answers_two (V := V) (decided_counted hd)) hrefl depth off len ⟨a, n, e⟩ hs hz keysIn_two
  unfold Sat at h
  cases hm : sort two (onTwo (counted cmp)) depth off len ⟨a, n, e⟩ with
  | ok x t => rw [hm] at h; exact h
  | err x t => rw [hm] at h; exact h

/-- `ascending` as a comparator without a state. -/
def SortMem.plain : Int → Int → JM Unit Int := fun x y => ⟨fun u => .ok (if x < y then -1 else if x = y then 0 else 1) u⟩

/-- Fifty keys: 270 comparisons on five levels, where the bounds are 735 and 3675. -/
example : Sized (demo 60) ∧ InBoth (demo 60) 3 50 ∧ Decided plain ascending ∧
    (∀ x ∈ keys (demo 60) 3 50, ∀ r, ascending x x = .ok r → r = 0) ∧
    (sort two (onTwo (counted plain)) 5 3 50 ⟨demo 60, 0, ()⟩).out = .ok () ∧
    (sort two (onTwo (counted plain)) 5 3 50 ⟨demo 60, 0, ()⟩).state.ext.1 = 270 := by
  refine ⟨by unfold Sized; decide, by unfold InBoth; decide, fun _ _ _ => rfl, ?_, by decide +kernel, by decide +kernel⟩
  intro x _ r hr
  have := Except.ok.inj hr
  simpa using this.symm

/-- C100: `sort(a, a, off, len, cmp)`, the same array as primary and companion, sorts that array: the range is in
order, holds the original values, and the rest is untouched. -/
theorem C100_same_array {cmp : K → K → JM σ Int} {c0 : K → K → Except Err Int} {c : K → K → Int} {a : Arr K} {e : σ}
    {off len : Int} (hz : a.len < 2147483648) (h0 : 0 ≤ off) (h1 : 0 ≤ len) (h2 : off + len ≤ a.len)
    (hd : Decided cmp c0) (hc : ∀ x ∈ keysOf a off len, ∀ y ∈ keysOf a off len, c0 x y = .ok (c x y))
    (ho : Orders (· ∈ keysOf a off len) c) :
    ∃ t, sort one (onOne cmp) (len.toNat + 1) off len ⟨a, e⟩ = .ok () t ∧
      (keysOf t.arr off len).Pairwise (fun x y => c x y ≤ 0) ∧
      List.Perm (keysOf t.arr off len) (keysOf a off len) ∧
      t.arr.len = a.len ∧ ∀ i, i < off ∨ off + len ≤ i → t.arr.get i = a.get i := by
  have hz' : Sized (⟨a, a⟩ : Arrs K K) := ⟨hz, hz⟩
  have hs' : InBoth (⟨a, a⟩ : Arrs K K) off len := ⟨h0, h1, h2, h2⟩
  have hrefl : ∀ x ∈ keys (⟨a, a⟩ : Arrs K K) off len, ∀ r, c0 x x = .ok r → r = 0 := by
    intro x hx r hr
    rw [hc x hx x hx] at hr
    have e := Except.ok.inj hr
    have h1 := ho.symm x x hx hx
    omega
  obtain ⟨u, eu, su⟩ := C56_sorts hz' hs' hc ho
  have hp := (C57_one_permutation hz' hs' hrefl).1
  have hout := C58_outside_untouched hz' hs' hrefl
  have h := sort_sim (answers_one hd) Sim.swap_one (len.toNat + 1) off len ⟨a, e⟩
  have eu' : CompanionSort.sortF c0 (len.toNat + 1) off len ⟨a, a⟩ = .ok () u := eu
  rw [eu] at hp hout
  unfold Sim at h
  cases hm : sort one (onOne cmp) (len.toNat + 1) off len ⟨a, e⟩ with
  | err x t =>
    rw [hm] at h
    have h : CompanionSort.sortF c0 (len.toNat + 1) off len ⟨a, a⟩ = .err x (view one t) := h
    rw [eu'] at h; simp at h
  | ok x t =>
    rw [hm] at h
    have h : CompanionSort.sortF c0 (len.toNat + 1) off len ⟨a, a⟩ = .ok x (view one t) := h
    rw [eu'] at h
    simp only [Res.ok.injEq] at h
    obtain ⟨_, rfl⟩ := h
    refine ⟨t, rfl, su, ?_, hout.1, fun i hi => (hout.2.2 i hi).1⟩
    have := hp.map Prod.fst
    unfold pairs at this
    rw [List.map_map, List.map_map] at this
    exact this

example : keysOf (sort one (onOne fun x y => (⟨fun n => match ascending x y with
      | .ok r => .ok r (n + 1)
      | .error e => .err e n⟩ : JM Nat Int)) 11 1 10 ⟨(demo 12).pri, 0⟩).state.arr 1 10 =
    [0, 1, 2, 4, 5, 6, 7, 8, 9, 10] := by decide +kernel

end Verif

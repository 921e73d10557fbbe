import Verif.Link.Sort
/-! C56, C57, C58, C98, C99 and C100 for the generated code of the companion sort. -/
namespace Verif
open SortSpec SortProof SortMem
open CompanionSort (Arrs demo ascending)
open Link.SortL (sort_eq Args)
variable {σ K V : Type}

theorem Link.SortL.args_of_inBoth {a : Arrs K V} {off len : Int} (hz : Sized a) (hs : InBoth a off len) : Args off len := by
  obtain ⟨z1, z2⟩ := hz
  obtain ⟨h1, h2, h3, h4⟩ := hs
  unfold Args
  omega

/-- C56 for the code generated from the source: for a comparator that orders the keys of the range, whatever other
effects it has, `sort` returns with the keys in comparator order. -/
theorem C56_generated_sorts {cmp : K → K → JM σ Int} {c0 : K → K → Except Err Int} {c : K → K → Int} {s : Two σ K V}
    {off len : Int} {fuel : Nat} (hfu : 2 ^ 31 < fuel) (hz : Sized s.arrs) (hs : InBoth s.arrs off len) (hd : Decided cmp c0)
    (hc : ∀ x ∈ keys s.arrs off len, ∀ y ∈ keys s.arrs off len, c0 x y = .ok (c x y))
    (ho : Orders (· ∈ keys s.arrs off len) c) :
    ∃ t, Gen.KeyValueCompanionSort.sort two (onTwo cmp) fuel (len.toNat + 1) off len s = .ok () t ∧
      (keys t.arrs off len).Pairwise (fun x y => c x y ≤ 0) := by
  rw [sort_eq two (onTwo cmp) fuel hfu _ off len s (Link.SortL.args_of_inBoth hz hs)]
  obtain ⟨h1, h2⟩ := C98_effects_ignored (V := V) (s := s) (off := off) (len := len) hd
  obtain ⟨t, h3, h4⟩ := C56_sorts hz hs hc ho
  rw [h3] at h1 h2
  cases hm : sort two (onTwo cmp) (len.toNat + 1) off len s with
  | ok a u =>
    rw [hm] at h2
    have h2 : u.arrs = t := h2
    exact ⟨u, rfl, by rw [h2]; exact h4⟩
  | err e u => rw [hm] at h1; simp [Res.out] at h1

/-- C57 and C58 for the code generated from the source: when the answers depend on the keys only and
`compare(x, x) = 0`, `sort` leaves a permutation of the original pairs in the range and the rest untouched, and
returns unless the comparator throws on two keys of the range. -/
theorem C57_generated_one_permutation {cmp : K → K → JM σ Int} {c0 : K → K → Except Err Int} {s : Two σ K V} {off len : Int}
    {fuel : Nat} (hfu : 2 ^ 31 < fuel) (hz : Sized s.arrs) (hs : InBoth s.arrs off len) (hd : Decided cmp c0)
    (hrefl : ∀ x ∈ keys s.arrs off len, ∀ r, c0 x x = .ok r → r = 0) :
    List.Perm (pairs (Gen.KeyValueCompanionSort.sort two (onTwo cmp) fuel (len.toNat + 1) off len s).state.arrs off len)
      (pairs s.arrs off len) ∧
    SameOutside s.arrs (Gen.KeyValueCompanionSort.sort two (onTwo cmp) fuel (len.toNat + 1) off len s).state.arrs off len ∧
    ((Gen.KeyValueCompanionSort.sort two (onTwo cmp) fuel (len.toNat + 1) off len s).out = .ok () ∨
      ∃ e, (Gen.KeyValueCompanionSort.sort two (onTwo cmp) fuel (len.toNat + 1) off len s).out = .error e ∧
        ∃ x ∈ keys s.arrs off len, ∃ y ∈ keys s.arrs off len, c0 x y = .error e) := by
  rw [sort_eq two (onTwo cmp) fuel hfu _ off len s (Link.SortL.args_of_inBoth hz hs)]
  obtain ⟨h1, h2⟩ := C98_effects_ignored (V := V) (s := s) (off := off) (len := len) hd
  rw [h1, h2]
  exact ⟨(C57_one_permutation hz hs hrefl).1, C58_outside_untouched hz hs hrefl, (C57_one_permutation hz hs hrefl).2⟩

/-- C58 for the code generated from the source: a range that is not inside both arrays is rejected before any
change, whatever the comparator - unless `off` and `len` are non-negative and their sum exceeds
`Integer.MAX_VALUE` (missing; see `C58_overflow_refuted`). -/
theorem C58_generated_rejects_partial {S : Type} (M : Mem S K V) (cmp : K → K → JM S Int) {s : S} {off len : Int}
    {fuel depth : Nat} (hfu : 2 ^ 31 < fuel) (hz : (M.pri s).len < 2147483648 ∧ (M.sec s).len < 2147483648)
    (hoff : -2147483648 ≤ off ∧ off < 2147483648) (hlen : -2147483648 ≤ len ∧ len < 2147483648)
    (hbad : off < 0 ∨ len < 0 ∨ (M.pri s).len < off + len ∨ (M.sec s).len < off + len)
    (hno : off < 0 ∨ len < 0 ∨ off + len < 2147483648) :
    Gen.KeyValueCompanionSort.sort M cmp fuel (depth + 1) off len s = .err .illegalArgument s := by
  rw [sort_eq M cmp fuel hfu _ off len s (by unfold Args; omega)]
  unfold sort
  rw [JM.bind_ok (JM.get_apply s)]
  split_ifs with c1 c2 c3 c4 <;> try rfl
  all_goals
    rw [i32_of_range (by omega)] at c1 c2
    omega

/-- C98 for the code generated from the source: whatever the comparator answers, throws or keeps in its own state,
and however small the stack is, `sort` leaves a permutation of the original pairs in the range and everything else
untouched; it can only return, rethrow what the comparator threw on two keys of the range, or overflow the stack. -/
theorem C98_generated_any_comparator {cmp : K → K → JM σ Int} {s : Two σ K V} {off len : Int} {fuel : Nat} (depth : Nat)
    (hfu : 2 ^ 31 < fuel) (hz : Sized s.arrs) (hs : InBoth s.arrs off len) :
    List.Perm (pairs (Gen.KeyValueCompanionSort.sort two (onTwo cmp) fuel depth off len s).state.arrs off len)
      (pairs s.arrs off len) ∧
    SameOutside s.arrs (Gen.KeyValueCompanionSort.sort two (onTwo cmp) fuel depth off len s).state.arrs off len ∧
    ((Gen.KeyValueCompanionSort.sort two (onTwo cmp) fuel depth off len s).out = .ok () ∨
      ∃ e, (Gen.KeyValueCompanionSort.sort two (onTwo cmp) fuel depth off len s).out = .error e ∧
        (e = .diverge ∨ ∃ x ∈ keys s.arrs off len, ∃ y ∈ keys s.arrs off len, ∃ t t', cmp x y t = .err e t')) := by
  rw [sort_eq two (onTwo cmp) fuel hfu _ off len s (Link.SortL.args_of_inBoth hz hs)]
  exact C98_any_comparator depth hz hs

/-- C99 for the code generated from the source: at most `3 (len - 1)` comparisons per level of nested calls for
every comparator, and at most `3 len (len - 1) / 2` in all when the answers depend on the keys only and
`compare(x, x) = 0` (`n` calls were counted before the sort). -/
theorem C99_generated_comparisons {cmp : K → K → JM σ Int} {a : Arrs K V} {n : Nat} {e : σ} {off len : Int} {fuel : Nat}
    (depth : Nat) (hfu : 2 ^ 31 < fuel) (hz : Sized a) (hs : InBoth a off len) (hl : 1 ≤ len) :
    ((Gen.KeyValueCompanionSort.sort two (onTwo (counted cmp)) fuel depth off len ⟨a, n, e⟩).state.ext.1 : Int) ≤
      n + 3 * depth * (len - 1) ∧
    ∀ c : K → K → Except Err Int, Decided cmp c → (∀ x ∈ keys a off len, ∀ r, c x x = .ok r → r = 0) →
      2 * ((Gen.KeyValueCompanionSort.sort two (onTwo (counted cmp)) fuel depth off len ⟨a, n, e⟩).state.ext.1 : Int) ≤
        2 * n + 3 * (len * (len - 1)) := by
  rw [sort_eq two (onTwo (counted cmp)) fuel hfu _ off len ⟨a, n, e⟩ (Link.SortL.args_of_inBoth hz hs)]
  exact ⟨C99_per_level depth hz hs hl, fun c hd hr => C99_quadratic depth hz hs hd hr⟩

/-- C100 for the code generated from the source: `sort(a, a, off, len, cmp)`, the same array as primary and
companion, sorts that array: the range is in order, holds the original values, and the rest is untouched. -/
theorem C100_generated_same_array {cmp : K → K → JM σ Int} {c0 : K → K → Except Err Int} {c : K → K → Int} {a : Arr K} {e : σ}
    {off len : Int} {fuel : Nat} (hfu : 2 ^ 31 < fuel) (hz : a.len < 2147483648) (h0 : 0 ≤ off) (h1 : 0 ≤ len)
    (h2 : off + len ≤ a.len) (hd : Decided cmp c0)
    (hc : ∀ x ∈ keysOf a off len, ∀ y ∈ keysOf a off len, c0 x y = .ok (c x y)) (ho : Orders (· ∈ keysOf a off len) c) :
    ∃ t, Gen.KeyValueCompanionSort.sort one (onOne cmp) fuel (len.toNat + 1) off len ⟨a, e⟩ = .ok () t ∧
      (keysOf t.arr off len).Pairwise (fun x y => c x y ≤ 0) ∧
      List.Perm (keysOf t.arr off len) (keysOf a off len) ∧
      t.arr.len = a.len ∧ ∀ i, i < off ∨ off + len ≤ i → t.arr.get i = a.get i := by
  rw [sort_eq one (onOne cmp) fuel hfu _ off len ⟨a, e⟩ (by unfold Args; omega)]
  exact C100_same_array hz h0 h1 h2 hd hc ho

/-- The generated code run by the kernel: fifty keys of sixty with the comparator that counts, and one that throws
after twenty calls. -/
example : keys (Gen.KeyValueCompanionSort.sort two (onTwo plain) 100 51 3 20 ⟨demo 60, ()⟩).state.arrs 3 20 =
      [0, 0, 1, 1, 2, 2, 3, 3, 4, 4, 5, 5, 6, 7, 7, 8, 8, 9, 9, 10] ∧
    (Gen.KeyValueCompanionSort.sort two (onTwo (counted plain)) 100 5 3 50 ⟨demo 60, 0, ()⟩).state.ext.1 = 270 ∧
    (Gen.KeyValueCompanionSort.sort two (onTwo tired) 100 51 3 50 ⟨demo 60, 7⟩).out = .error .illegalState ∧
    (Gen.KeyValueCompanionSort.sort two (onTwo plain) 100 51 3 58 ⟨demo 60, ()⟩).out = .error .illegalArgument := by
  refine ⟨?_, ?_, ?_, ?_⟩ <;> decide +kernel

end Verif

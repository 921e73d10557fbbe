import Verif.Proofs.Sort4
set_option linter.unusedSectionVars false
/-! # Properties C56 - C58: the companion sort -/
namespace Verif
open CompanionSort SortSpec SortProof
variable {K V : Type}

namespace CompanionSort

theorem mem_keys {s : Arrs K V} {off len : Int} {k : K} :
    k ∈ keys s off len ↔ ∃ i, (off ≤ i ∧ i < off + len) ∧ s.pri.get i = k := by
  unfold keys
  rw [List.mem_map]
  constructor
  · rintro ⟨i, hi, rfl⟩
    rw [List.mem_range] at hi
    exact ⟨off + i, by omega, rfl⟩
  · rintro ⟨i, hi, rfl⟩
    refine ⟨(i - off).toNat, by rw [List.mem_range]; omega, ?_⟩
    have : off + (((i - off).toNat : Nat) : Int) = i := by omega
    rw [this]

theorem sort_sat {cmp : K → K → Except Err Int} {s : Arrs K V} {off len : Int} (hz : Sized s) (hs : InBoth s off len)
    (hrefl : ∀ x ∈ keys s off len, ∀ r, cmp x x = .ok r → r = 0) :
    Sat (sort cmp off len) s
      (fun _ t => Moves off (off + len) s t ∧ ∀ c, Good cmp (· ∈ keys s off len) c → SortedOn c off (off + len) t)
      (fun e t => Moves off (off + len) s t ∧ Throws cmp (· ∈ keys s off len) e) := by
  unfold sort
  exact sortF_sat hrefl _ off len s hs hz (by have := hs.2.1; omega) (fun k hk => mem_keys.mpr ⟨k, hk, rfl⟩)

theorem keys_pairwise {c : K → K → Int} {s : Arrs K V} {off len : Int} (h : SortedOn c off (off + len) s) :
    (keys s off len).Pairwise (fun x y => c x y ≤ 0) := by
  unfold keys
  rw [List.pairwise_map]
  refine List.Pairwise.imp_of_mem ?_ List.pairwise_lt_range
  intro a b ha hb hab
  rw [List.mem_range] at ha hb
  exact h _ _ (by omega) (by omega) (by omega)

/-- Distinct arrays for the examples: key `i ↦ (7 * i + 3) % 11`, companion = original position. -/
def demo (n : Int) : Arrs Int Int := ⟨⟨n.toNat, fun i => (7 * i + 3) % 11⟩, ⟨n.toNat, fun i => i⟩⟩

/-- Ascending comparator. -/
def ascending : Int → Int → Except Err Int := fun x y => .ok (if x < y then -1 else if x = y then 0 else 1)

end CompanionSort

/-- C56: after `sort` the keys of the range are in comparator order (every earlier key compares `≤ 0` to every
later one), for every comparator that orders the keys of the range. -/
theorem C56_sorts {cmp : K → K → Except Err Int} {c : K → K → Int} {s : Arrs K V} {off len : Int}
    (hz : Sized s) (hs : InBoth s off len)
    (hc : ∀ x ∈ keys s off len, ∀ y ∈ keys s off len, cmp x y = .ok (c x y))
    (ho : Orders (· ∈ keys s off len) c) :
    ∃ t, sort cmp off len s = .ok () t ∧ (keys t off len).Pairwise (fun x y => c x y ≤ 0) := by
  have hrefl : ∀ x ∈ keys s off len, ∀ r, cmp x x = .ok r → r = 0 := by
    intro x hx r hr
    rw [hc x hx x hx] at hr
    have e := Except.ok.inj hr
    have h1 := ho.symm x x hx hx
    omega
  have h := sort_sat hz hs hrefl
  unfold Sat at h
  cases hm : sort cmp off len s with
  | ok a t =>
    rw [hm] at h
    exact ⟨t, rfl, keys_pairwise (h.2 c ⟨ho, fun x y hx hy => hc x hx y hy⟩)⟩
  | err e t =>
    exfalso
    rw [hm] at h
    obtain ⟨_, x, y, hx, hy, hxy⟩ := h
    rw [hc x hx y hy] at hxy
    exact absurd hxy (by simp)

example : Sized (demo 60) ∧ InBoth (demo 60) 3 50 ∧
    Orders (· ∈ keys (demo 60) 3 50) (fun x y => if x < y then -1 else if x = y then 0 else 1) := by
  refine ⟨by unfold Sized; decide, by unfold InBoth; decide, ⟨?_, ?_⟩⟩
  · intro a b _ _; constructor <;> intro h <;> (repeat split at h) <;> (repeat split) <;> omega
  · intro x y z _ _ _ h1 h2; (repeat split at h1) <;> (repeat split at h2) <;> (repeat split) <;> omega

example : (keys (sort ascending 1 10 (demo 12)).state 1 10) = [0, 1, 2, 4, 5, 6, 7, 8, 9, 10] := by decide +kernel

/-- C57: whatever the comparator answers on distinct keys (it need not be an order and may throw), as long as
`compare(v, v)` is `0` for the keys of the range, `sort` ends: it returns or rethrows what the comparator threw
on two keys of the range.  In both cases the pairs in the range are a permutation of the original pairs. -/
theorem C57_one_permutation {cmp : K → K → Except Err Int} {s : Arrs K V} {off len : Int}
    (hz : Sized s) (hs : InBoth s off len)
    (hrefl : ∀ x ∈ keys s off len, ∀ r, cmp x x = .ok r → r = 0) :
    List.Perm (pairs (sort cmp off len s).state off len) (pairs s off len) ∧
    ((sort cmp off len s).out = .ok () ∨
      ∃ e, (sort cmp off len s).out = .error e ∧ ∃ x ∈ keys s off len, ∃ y ∈ keys s off len, cmp x y = .error e) := by
  have h := sort_sat hz hs hrefl
  unfold Sat at h
  cases hm : sort cmp off len s with
  | ok a t =>
    rw [hm] at h
    exact ⟨h.1.perm, Or.inl rfl⟩
  | err e t =>
    rw [hm] at h
    obtain ⟨h1, x, y, hx, hy, hxy⟩ := h
    exact ⟨h1.perm, Or.inr ⟨e, rfl, x, hx, y, hy, hxy⟩⟩

/-- A comparator that never throws: `sort` always returns. -/
theorem C57_terminates {c : K → K → Int} {s : Arrs K V} {off len : Int} (hz : Sized s) (hs : InBoth s off len)
    (hrefl : ∀ x ∈ keys s off len, c x x = 0) :
    ∃ t, sort (fun x y => .ok (c x y)) off len s = .ok () t ∧ List.Perm (pairs t off len) (pairs s off len) := by
  obtain ⟨h1, h2⟩ := C57_one_permutation (cmp := fun x y => .ok (c x y)) hz hs
    (fun x hx r hr => by have := Except.ok.inj hr; rw [hrefl x hx] at this; omega)
  cases hm : sort (fun x y => .ok (c x y)) off len s with
  | ok a t => rw [hm] at h1; exact ⟨t, rfl, h1⟩
  | err e t =>
    rw [hm] at h2
    rcases h2 with h | ⟨e', _, x, _, y, _, h⟩
    · exact absurd h (by simp)
    · exact absurd h (by simp)

/-- A comparator that is not an order (everything is "less" than everything else) meets the hypotheses. -/
example : Sized (demo 20) ∧ InBoth (demo 20) 2 15 ∧
    (∀ x ∈ keys (demo 20) 2 15, (fun x y : Int => if x = y then 0 else -1) x x = 0) ∧
    pairs (sort (fun x y : Int => .ok (if x = y then (0 : Int) else -1)) 2 15 (demo 20)).state 2 15 ≠
      pairs (demo 20) 2 15 := by
  refine ⟨by unfold Sized; decide, by unfold InBoth; decide, by simp, by decide +kernel⟩

/-- A comparator that throws on some keys. -/
example : (sort (fun x y : Int => if x ≠ y ∧ x = 5 then .error Err.nullPointer else ascending x y) 0 11 (demo 11)).out =
    .error Err.nullPointer := by decide +kernel

/-- C58: both arrays keep their lengths and everything outside the range, even when the comparator throws. -/
theorem C58_outside_untouched {cmp : K → K → Except Err Int} {s : Arrs K V} {off len : Int}
    (hz : Sized s) (hs : InBoth s off len)
    (hrefl : ∀ x ∈ keys s off len, ∀ r, cmp x x = .ok r → r = 0) :
    SameOutside s (sort cmp off len s).state off len := by
  have h := sort_sat hz hs hrefl
  unfold Sat at h
  cases hm : sort cmp off len s with
  | ok a t => rw [hm] at h; exact h.1.sameOutside
  | err e t => rw [hm] at h; exact h.1.sameOutside

/-- C58: a range that is not inside both arrays is rejected before any change - unless `off` and `len` are
non-negative and their sum exceeds `Integer.MAX_VALUE` (missing; see `C58_overflow_refuted`). -/
theorem C58_rejects_partial {cmp : K → K → Except Err Int} {s : Arrs K V} {off len : Int} (hz : Sized s)
    (hoff : -2147483648 ≤ off ∧ off < 2147483648) (hlen : -2147483648 ≤ len ∧ len < 2147483648)
    (hbad : ¬ InBoth s off len) (hno : off < 0 ∨ len < 0 ∨ off + len < 2147483648) :
    sort cmp off len s = .err .illegalArgument s := by
  obtain ⟨z1, z2⟩ := hz
  unfold sort sortF
  rw [JM.bind_ok (JM.get_apply s)]
  dsimp only
  by_cases c1 : i32 (off + len) > s.pri.len
  · rw [if_pos c1]; rfl
  · rw [if_neg c1]
    by_cases c2 : i32 (off + len) > s.sec.len
    · rw [if_pos c2]; rfl
    · rw [if_neg c2]
      by_cases c3 : off < 0 ∨ len < 0
      · rw [if_pos c3]; rfl
      · exfalso
        have e : i32 (off + len) = off + len := i32_of_range (by omega)
        rw [e] at c1 c2
        apply hbad
        unfold InBoth; omega

/-- The ranges of the repository's own test, on arrays of 5 and 4. -/
example : ∀ r ∈ [((-1 : Int), (2 : Int)), (3, 3), (5, 2), (2, -1), (1, 4)],
    ¬ InBoth (⟨⟨5, fun _ => 0⟩, ⟨4, fun _ => 0⟩⟩ : Arrs Int Int) r.1 r.2 ∧
    (r.1 < 0 ∨ r.2 < 0 ∨ r.1 + r.2 < 2147483648) := by
  unfold InBoth; decide

namespace CompanionSort
variable {cmp : K → K → Except Err Int} {s : Arrs K V}

/-- An exception that is either an out-of-bounds access or the comparator's own. -/
def Oob (cmp : K → K → Except Err Int) (e : Err) : Prop := e = .indexOutOfBounds ∨ ∃ x y, cmp x y = .error e

theorem cmpAt_any (i j : Int) : Sat (cmpAt cmp i j) s
    (fun _ t => t = s ∧ 0 ≤ j ∧ j < s.pri.len) (fun e t => t = s ∧ Oob cmp e) := by
  unfold cmpAt
  by_cases hi : 0 ≤ i ∧ i < s.pri.len
  · refine Sat.ok_bind (rd_ok Arrs.pri hi) ?_
    by_cases hj : 0 ≤ j ∧ j < s.pri.len
    · refine Sat.ok_bind (rd_ok Arrs.pri hj) ?_
      exact (call_sat _ _ s).mono (fun r t h => ⟨h.1, hj⟩) (fun e t h => ⟨h.1, Or.inr ⟨_, _, h.2⟩⟩)
    · unfold Sat
      rw [JM.bind_err (show rd Arrs.pri j s = .err .indexOutOfBounds s by simp [rd, hj])]
      exact ⟨rfl, Or.inl rfl⟩
  · unfold Sat
    rw [JM.bind_err (show rd Arrs.pri i s = .err .indexOutOfBounds s by simp [rd, hi])]
    exact ⟨rfl, Or.inl rfl⟩

theorem med3_any (a b c : Int) : Sat (med3 cmp a b c) s
    (fun _ t => t = s ∧ 0 ≤ c ∧ c < s.pri.len) (fun e t => t = s ∧ Oob cmp e) := by
  unfold med3
  refine Sat.bind (cmpAt_any a b) ?_
  rintro r t ⟨rfl, _⟩
  split
  · refine Sat.bind (cmpAt_any b c) ?_
    rintro r t ⟨rfl, hc⟩
    split
    · exact Sat.pure ⟨rfl, hc⟩
    · refine Sat.bind (cmpAt_any a c) ?_
      rintro r t ⟨rfl, _⟩
      split <;> exact Sat.pure ⟨rfl, hc⟩
  · refine Sat.bind (cmpAt_any b c) ?_
    rintro r t ⟨rfl, hc⟩
    split
    · exact Sat.pure ⟨rfl, hc⟩
    · refine Sat.bind (cmpAt_any a c) ?_
      rintro r t ⟨rfl, _⟩
      split <;> exact Sat.pure ⟨rfl, hc⟩

theorem pivot_overflow {off len : Int} (hz : Sized s) (h40 : s.pri.len ≤ 2147483644)
    (hoff : off < 2147483648) (hlen : 7 ≤ len ∧ len < 2147483648) (h0 : 0 ≤ off) (hsum : 2147483648 ≤ off + len) :
    Sat (pivot cmp off len) s (fun m t => t = s ∧ ¬ (0 ≤ m ∧ m < s.pri.len)) (fun e t => t = s ∧ Oob cmp e) := by
  unfold pivot
  have hn : ¬ (0 ≤ i32 (i32 (off + len) - 1) ∧ i32 (i32 (off + len) - 1) < s.pri.len) := by unfold i32; omega
  by_cases h7 : len > 7
  · rw [if_pos h7]
    by_cases hb : len > 40
    · rw [if_pos hb]
      refine Sat.bind (med3_any _ _ _) ?_
      rintro l t ⟨rfl, _⟩
      refine Sat.bind (med3_any _ _ _) ?_
      rintro m t ⟨rfl, _⟩
      refine Sat.bind (med3_any _ _ _) ?_
      rintro n t ⟨rfl, hc⟩
      exact absurd hc hn
    · rw [if_neg hb]
      exact (med3_any _ _ _).mono (fun _ _ h => absurd h.2 hn) (fun _ _ h => h)
  · rw [if_neg h7]
    refine Sat.pure ⟨rfl, ?_⟩
    unfold i32; omega

theorem scanC_ones {b d : Int} {v : K} : ∀ (f : Nat) (c : Int), 0 ≤ b → b ≤ c + 1 → c < s.pri.len → c - b + 1 < f →
    scanC (fun _ _ => .ok 1) v b f c d s = .ok (b - 1, d) s
  | 0, c, _, _, _, h => by omega
  | f + 1, c, h1, h2, h3, h4 => by
    unfold scanC
    by_cases hc : c ≥ b
    · rw [if_pos hc, JM.bind_ok (rd_ok Arrs.pri (by omega)),
        JM.bind_ok (show (call (fun _ _ => .ok 1) _ v : JM (Arrs K V) Int) s = .ok 1 s from rfl),
        if_pos (by omega), JM.bind_ok (rd_ok Arrs.pri (by omega)),
        JM.bind_ok (show (call (fun _ _ => .ok 1) _ v : JM (Arrs K V) Int) s = .ok 1 s from rfl), if_neg (by omega)]
      exact scanC_ones f (c - 1) h1 (by omega) (by omega) (by omega)
    · rw [if_neg hc]
      have : c = b - 1 := by omega
      rw [this]; rfl

end CompanionSort

/-- FINDING (C58): when `off + len` overflows, no check rejects the range.  With `len < 7` the call returns
normally without doing anything; with a larger `len` it fails with an array access out of bounds (or with the
comparator's own exception).  Nothing is changed in any case.  Arrays are assumed a few cells shorter than
`Integer.MAX_VALUE`, as on every JVM. -/
theorem C58_overflow_refuted {cmp : K → K → Except Err Int} {s : Arrs K V} {off len : Int} (hz : Sized s)
    (hmax : s.pri.len ≤ 2147483644) (hoff : 0 ≤ off ∧ off < 2147483648) (hlen : 0 ≤ len ∧ len < 2147483648)
    (hsum : 2147483648 ≤ off + len) :
    (len < 7 → sort cmp off len s = .ok () s) ∧
    (7 ≤ len → ∃ e, sort cmp off len s = .err e s ∧ (e = .indexOutOfBounds ∨ ∃ x y, cmp x y = .error e)) := by
  have hneg : i32 (off + len) < 0 := by unfold i32; omega
  have hneg' : i32 (len + off) < 0 := by rw [Int.add_comm]; exact hneg
  constructor
  · intro h7
    unfold sort sortF
    rw [JM.bind_ok (JM.get_apply s)]
    dsimp only
    rw [if_neg (by omega), if_neg (by omega), if_neg (by omega), if_pos h7]
    unfold insertion
    rw [if_neg (by omega)]
    rfl
  · intro h7
    have hsat : Sat (sort cmp off len) s (fun _ _ => False) (fun e t => t = s ∧ Oob cmp e) := by
      unfold sort sortF
      refine Sat.ok_bind (JM.get_apply s) ?_
      dsimp only
      rw [if_neg (by omega), if_neg (by omega), if_neg (by omega), if_neg (by omega)]
      refine Sat.bind (pivot_overflow hz hmax hoff.2 ⟨h7, hlen.2⟩ hoff.1 hsum) ?_
      rintro m t ⟨rfl, hm⟩
      unfold Sat
      rw [JM.bind_err (show rd Arrs.pri m t = .err .indexOutOfBounds t by simp [rd, hm])]
      exact ⟨rfl, Or.inl rfl⟩
    unfold Sat at hsat
    cases h : sort cmp off len s with
    | ok a t => rw [h] at hsat; exact hsat.elim
    | err e t => rw [h] at hsat; obtain ⟨rfl, he⟩ := hsat; exact ⟨e, rfl, he⟩

example : Sized (demo 20) ∧ (demo 20).pri.len ≤ 2147483644 ∧ (2147483648 : Int) ≤ 2147483647 + 5 ∧
    ¬ InBoth (demo 20) 2147483647 5 ∧ (sort ascending 2147483647 5 (demo 20)).out = .ok () ∧
    (sort ascending 2147483647 50 (demo 20)).out = .error .indexOutOfBounds := by
  refine ⟨by unfold Sized; decide, by decide, by decide, by unfold InBoth; decide, by decide +kernel, by decide +kernel⟩

/-- C58: a range that is not inside both arrays never changes anything, whether or not the call is rejected. -/
theorem C58_bad_range_changes_nothing {cmp : K → K → Except Err Int} {s : Arrs K V} {off len : Int} (hz : Sized s)
    (hmax : s.pri.len ≤ 2147483644) (hoff : -2147483648 ≤ off ∧ off < 2147483648)
    (hlen : -2147483648 ≤ len ∧ len < 2147483648) (hbad : ¬ InBoth s off len) :
    (sort cmp off len s).state = s := by
  by_cases h : off < 0 ∨ len < 0 ∨ off + len < 2147483648
  · rw [C58_rejects_partial hz hoff hlen hbad h]; rfl
  · obtain ⟨h1, h2⟩ := C58_overflow_refuted (cmp := cmp) (s := s) (off := off) (len := len) hz hmax (by omega) (by omega) (by omega)
    by_cases h7 : len < 7
    · rw [h1 h7]; rfl
    · obtain ⟨e, he, _⟩ := h2 (by omega)
      rw [he]; rfl

/-- The hypothesis `compare(v, v) = 0` of C57 is needed: with a comparator that always answers `1` no number of
nested calls is enough for a range of seven or more (in Java: StackOverflowError). -/
theorem C57_irreflexive_diverges {s : Arrs K V} {off len : Int} (hz : Sized s) (hs : InBoth s off len) (h7 : 7 ≤ len) :
    ∀ f : Nat, sortF (fun _ _ => .ok 1) f off len s = .err .diverge s
  | 0 => rfl
  | f + 1 => by
    have ih := C57_irreflexive_diverges hz hs h7 f
    have hp := pivot_sat (cmp := fun _ _ => .ok 1) (P := fun _ => True) hs hz h7 (fun _ _ => trivial)
    obtain ⟨s1, s2, s3, s4⟩ := hs
    obtain ⟨z1, z2⟩ := hz
    have e0 : i32 (off + len) = off + len := i32_of_range (by omega)
    have e1 : i32 (off + len - 1) = off + len - 1 := i32_of_range (by omega)
    unfold sortF
    rw [JM.bind_ok (JM.get_apply s)]
    simp only [e0, e1]
    rw [if_neg (by omega), if_neg (by omega), if_neg (by omega), if_neg (by omega)]
    unfold Sat at hp
    cases hm : (pivot (fun _ _ => .ok 1) off len : JM (Arrs K V) Int) s with
    | err e t =>
      rw [hm] at hp
      obtain ⟨_, x, y, _, _, h⟩ := hp
      exact absurd h (by simp)
    | ok m t =>
      rw [hm] at hp
      obtain ⟨rfl, hm1, hm2⟩ := hp
      have hB : ∀ (v : K) (g : Nat), scanB (fun _ _ => .ok 1) v (off + len - 1) (g + 1) off off t = .ok (off, off) t := by
        intro v g
        unfold scanB
        rw [if_pos (by omega), JM.bind_ok (rd_ok Arrs.pri (by omega)),
          JM.bind_ok (show (call (fun _ _ => .ok 1) _ v : JM (Arrs K V) Int) t = .ok 1 t from rfl), if_neg (by omega)]
        rfl
      have hpart : ∀ v : K, partition (fun _ _ => .ok 1) v ((off + len - 1 - off).toNat + 2) off off (off + len - 1)
          (off + len - 1) t = .ok (off, off, off - 1, off + len - 1) t := by
        intro v
        unfold partition
        rw [JM.bind_ok (hB v _)]
        dsimp only
        rw [JM.bind_ok (scanC_ones _ _ (by omega) (by omega) (by omega) (by omega))]
        dsimp only
        rw [if_pos (by omega)]
        rfl
      rw [JM.bind_ok hm, JM.bind_ok (rd_ok Arrs.pri (by omega)), JM.bind_ok (hpart _)]
      dsimp only
      have m1 : min (off - off) (off - off) = 0 := by omega
      have m2 : min (off + len - 1 - (off - 1)) (off + len - (off + len - 1) - 1) = 0 := by omega
      have m3 : off + len - 1 - (off - 1) = len := by omega
      have m4 : off + len - len = off := by omega
      rw [m1, m2, m3, m4, JM.bind_ok (show vecswap off (off - 0) 0 t = .ok () t from rfl),
        JM.bind_ok (show vecswap off (off + len - 0) 0 t = .ok () t from rfl), JM.when_neg (by omega),
        JM.bind_ok (JM.pure_apply _ _), JM.when_pos (by omega)]
      exact ih

end Verif

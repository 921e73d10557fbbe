import Verif.Model.SortMem
import Verif.Proofs.Sort4
import Mathlib.Tactic.Ring
set_option linter.unusedSectionVars false
/-! The companion sort with an arbitrary comparator: pairs only move, few comparisons per nested call. -/
namespace Verif.SortMemProof
open Verif.SortMem Verif.SortSpec Verif.SortProof
open Verif.CompanionSort (Arrs)
variable {S K V : Type} {M : Mem S K V} {cnt : S → Nat} {cmp : Cmp S K} {P : K → Prop} {v : K}

/-- The two arrays as the caller sees them. -/
def view (M : Mem S K V) (s : S) : Arrs K V := ⟨M.pri s, M.sec s⟩

/-- Swapping two positions swaps them in both arrays. -/
def Swaps (M : Mem S K V) (cnt : S → Nat) : Prop :=
  ∀ s lo hi a b, InBoth (view M s) lo (hi - lo) → lo ≤ a ∧ a < hi → lo ≤ b ∧ b < hi →
    ∃ t, swap M a b s = .ok () t ∧ view M t = swapped (view M s) a b ∧ cnt t = cnt s

/-- The comparator leaves the arrays alone and counts at most one call. -/
def Tame (M : Mem S K V) (cnt : S → Nat) (cmp : Cmp S K) : Prop :=
  ∀ x y s, Sat (cmp x y) s (fun _ t => view M t = view M s ∧ cnt t ≤ cnt s + 1)
    (fun _ t => view M t = view M s ∧ cnt t ≤ cnt s + 1)

/-- The comparator itself throws `e` on keys satisfying `P`. -/
def ThrowsE (cmp : Cmp S K) (P : K → Prop) (e : Err) : Prop :=
  ∃ x y, P x ∧ P y ∧ ∃ s t, cmp x y s = .err e t

/-- All keys at `lo..hi-1` satisfy `P`. -/
def KeysIn (M : Mem S K V) (P : K → Prop) (lo hi : Int) (s : S) : Prop :=
  ∀ k, lo ≤ k ∧ k < hi → P ((view M s).pri.get k)

theorem KeysIn.moves {lo hi : Int} {s t : S} (h : KeysIn M P lo hi s) (hm : Moves lo hi (view M s) (view M t)) :
    KeysIn M P lo hi t := hm.forall h

theorem cmp_sat (ht : Tame M cnt cmp) {x y : K} (hx : P x) (hy : P y) (s : S) :
    Sat (cmp x y) s (fun _ t => view M t = view M s ∧ cnt t ≤ cnt s + 1)
      (fun e t => view M t = view M s ∧ cnt t ≤ cnt s + 1 ∧ ThrowsE cmp P e) := by
  have := ht x y s
  unfold Sat at this ⊢
  cases h : cmp x y s with
  | ok r t => rw [h] at this; exact this
  | err e t => rw [h] at this; exact ⟨this.1, this.2, x, y, hx, hy, s, t, h⟩

theorem cmpAt_sat (ht : Tame M cnt cmp) {lo hi i j : Int} {s : S} (hs : InBoth (view M s) lo (hi - lo))
    (hP : KeysIn M P lo hi s) (hi' : lo ≤ i ∧ i < hi) (hj : lo ≤ j ∧ j < hi) :
    Sat (cmpAt M cmp i j) s (fun _ t => view M t = view M s ∧ cnt t ≤ cnt s + 1)
      (fun e t => view M t = view M s ∧ cnt t ≤ cnt s + 1 ∧ ThrowsE cmp P e) := by
  obtain ⟨h0, h1, h2, h3⟩ := hs
  have h2 : lo + (hi - lo) ≤ ((M.pri s).len : Int) := h2
  unfold cmpAt
  refine Sat.ok_bind (rd_ok M.pri (by omega)) ?_
  refine Sat.ok_bind (rd_ok M.pri (by omega)) ?_
  exact cmp_sat ht (hP i hi') (hP j hj) s

theorem sink_sat (hw : Swaps M cnt) (ht : Tame M cnt cmp) {off i : Int} : ∀ (f : Nat) (j : Int) (s : S),
    InBoth (view M s) off (i + 1 - off) → off ≤ j → j ≤ i → j - off < f → KeysIn M P off (i + 1) s →
    Sat (sink M cmp off f j) s
      (fun _ t => Moves off (i + 1) (view M s) (view M t) ∧ (cnt t : Int) ≤ cnt s + (j - off))
      (fun e t => Moves off (i + 1) (view M s) (view M t) ∧ (cnt t : Int) ≤ cnt s + (j - off) ∧ ThrowsE cmp P e)
  | 0, j, s, _, h1, _, h2, _ => by omega
  | f + 1, j, s, hs, h1, h2, h3, hP => by
    unfold sink
    by_cases hj : j > off
    · rw [if_pos hj]
      refine Sat.bind ((cmpAt_sat ht hs hP (i := j - 1) (j := j) (by omega) (by omega)).mono
        (fun _ _ h => h) (fun e t h => ⟨by rw [h.1]; exact Moves.refl _ _ _, by have := h.2.1; omega, h.2.2⟩)) ?_
      rintro r t ⟨e1, c1⟩
      by_cases hr0 : r > 0
      · rw [if_pos hr0]
        obtain ⟨u, eu, vu, cu⟩ := hw t off (i + 1) j (j - 1) (by rw [e1]; exact hs) (by omega) (by omega)
        refine Sat.ok_bind eu ?_
        have hm : Moves off (i + 1) (view M s) (view M u) := by
          rw [vu, e1]; exact moves_swapped _ (by omega) (by omega)
        refine (sink_sat hw ht f (j - 1) u (hm.inBoth hs) (by omega) (by omega) (by omega) (hP.moves hm)).mono ?_ ?_
        · rintro _ w ⟨q1, q2⟩; exact ⟨hm.trans q1, by omega⟩
        · rintro e w ⟨q1, q2, q3⟩; exact ⟨hm.trans q1, by omega, q3⟩
      · rw [if_neg hr0]
        exact Sat.pure ⟨by rw [e1]; exact Moves.refl _ _ _, by omega⟩
    · rw [if_neg hj]
      exact Sat.pure ⟨Moves.refl _ _ _, by omega⟩

/-- Comparisons of the insertion sort from `i` on: half of `tri`. -/
def tri (off hi i : Int) : Int := (hi - off) * (hi - off - 1) - (i - off) * (i - off - 1)

theorem tri_succ (off hi i : Int) : tri off hi i = tri off hi (i + 1) + 2 * (i - off) := by
  unfold tri; ring

theorem tri_nonneg {off hi i : Int} (h1 : off ≤ i) (h2 : i ≤ hi) : 0 ≤ tri off hi i := by
  unfold tri
  by_cases h : i = off
  · subst h
    by_cases h' : hi = i
    · subst h'; simp
    · have : 0 ≤ (hi - i) * (hi - i - 1) := Int.mul_nonneg (by omega) (by omega)
      simpa using this
  · have : (i - off) * (i - off - 1) ≤ (hi - off) * (hi - off - 1) :=
      Int.mul_le_mul (by omega) (by omega) (by omega) (by omega)
    omega

theorem insertion_sat (hw : Swaps M cnt) (ht : Tame M cnt cmp) {off hi : Int} : ∀ (f : Nat) (i : Int) (s : S),
    InBoth (view M s) off (hi - off) → off ≤ i → i ≤ hi → hi - i < f → KeysIn M P off hi s →
    Sat (insertion M cmp off hi f i) s
      (fun _ t => Moves off hi (view M s) (view M t) ∧ 2 * (cnt t : Int) ≤ 2 * cnt s + tri off hi i)
      (fun e t => Moves off hi (view M s) (view M t) ∧ 2 * (cnt t : Int) ≤ 2 * cnt s + tri off hi i ∧ ThrowsE cmp P e)
  | 0, i, s, _, h1, _, h2, _ => by omega
  | f + 1, i, s, hs, h1, h2, h3, hP => by
    unfold insertion
    by_cases hi' : i < hi
    · rw [if_pos hi']
      have hmul := tri_succ off hi i
      have hpos := tri_nonneg (off := off) (hi := hi) (i := i + 1) (by omega) (by omega)
      have hsink := sink_sat (P := P) hw ht (off := off) (i := i) ((i - off).toNat + 1) i s
        (InBoth.narrow hs (by omega) (by omega) (by omega)) h1 (by omega) (by omega) (fun k hk => hP k (by omega))
      refine Sat.bind (hsink.mono (fun _ _ h => h)
        (fun e t h => ⟨h.1.widen (by omega) (by omega), by have := h.2.1; omega, h.2.2⟩)) ?_
      rintro _ t ⟨hm, hc⟩
      have hm' : Moves off hi (view M s) (view M t) := hm.widen (by omega) (by omega)
      refine (insertion_sat hw ht f (i + 1) t (hm'.inBoth hs) (by omega) (by omega) (by omega) (hP.moves hm')).mono ?_ ?_
      · rintro _ u ⟨q1, q2⟩; exact ⟨hm'.trans q1, by omega⟩
      · rintro e u ⟨q1, q2, q3⟩; exact ⟨hm'.trans q1, by omega, q3⟩
    · rw [if_neg hi']
      have hpos := tri_nonneg (off := off) (hi := hi) (i := i) h1 h2
      exact Sat.pure ⟨Moves.refl _ _ _, by omega⟩

theorem med3_sat (ht : Tame M cnt cmp) {lo hi a b c : Int} {s : S} (hs : InBoth (view M s) lo (hi - lo))
    (hP : KeysIn M P lo hi s)
    (ha : lo ≤ a ∧ a < hi) (hb : lo ≤ b ∧ b < hi) (hc : lo ≤ c ∧ c < hi) :
    Sat (med3 M cmp a b c) s (fun m t => view M t = view M s ∧ cnt t ≤ cnt s + 3 ∧ lo ≤ m ∧ m < hi)
      (fun e t => view M t = view M s ∧ cnt t ≤ cnt s + 3 ∧ ThrowsE cmp P e) := by
  have key : ∀ {x y : Int} (u : S) (_ : view M u = view M s) (n : Nat) (_ : cnt u ≤ cnt s + n) (_ : n < 3)
      (_ : lo ≤ x ∧ x < hi) (_ : lo ≤ y ∧ y < hi),
      Sat (cmpAt M cmp x y) u (fun _ t => view M t = view M s ∧ cnt t ≤ cnt s + (n + 1))
        (fun e t => view M t = view M s ∧ cnt t ≤ cnt s + 3 ∧ ThrowsE cmp P e) := by
    intro x y u hu n hn hn3 hx hy
    have hP' : KeysIn M P lo hi u := by unfold KeysIn; rw [hu]; exact hP
    exact (cmpAt_sat ht (hu ▸ hs) hP' hx hy).mono (fun _ _ h => ⟨h.1.trans hu, by have := h.2; omega⟩)
      (fun e t h => ⟨h.1.trans hu, by have := h.2.1; omega, h.2.2⟩)
  unfold med3
  refine Sat.bind (key s rfl 0 (by omega) (by omega) ha hb) ?_
  rintro r t ⟨e1, c1⟩
  split
  · refine Sat.bind (key t e1 1 c1 (by omega) hb hc) ?_
    rintro r u ⟨e2, c2⟩
    split
    · exact Sat.pure ⟨e2, by omega, hb⟩
    · refine Sat.bind (key u e2 2 c2 (by omega) ha hc) ?_
      rintro r w ⟨e3, c3⟩
      split
      · exact Sat.pure ⟨e3, by omega, hc⟩
      · exact Sat.pure ⟨e3, by omega, ha⟩
  · refine Sat.bind (key t e1 1 c1 (by omega) hb hc) ?_
    rintro r u ⟨e2, c2⟩
    split
    · exact Sat.pure ⟨e2, by omega, hb⟩
    · refine Sat.bind (key u e2 2 c2 (by omega) ha hc) ?_
      rintro r w ⟨e3, c3⟩
      split
      · exact Sat.pure ⟨e3, by omega, hc⟩
      · exact Sat.pure ⟨e3, by omega, ha⟩

/-- Comparisons that choose the partition element. -/
def pivotCost (len : Int) : Nat := if len > 40 then 12 else if len > 7 then 3 else 0

theorem pivot_sat (ht : Tame M cnt cmp) {off len : Int} {s : S} (hs : InBoth (view M s) off len)
    (hz : Sized (view M s)) (hl : 7 ≤ len) (hP : KeysIn M P off (off + len) s) :
    Sat (pivot M cmp off len) s (fun m t => view M t = view M s ∧ cnt t ≤ cnt s + pivotCost len ∧ off ≤ m ∧ m < off + len)
      (fun e t => view M t = view M s ∧ cnt t ≤ cnt s + pivotCost len ∧ ThrowsE cmp P e) := by
  have hs' : InBoth (view M s) off (off + len - off) := by
    have : off + len - off = len := by omega
    rw [this]; exact hs
  obtain ⟨h0, h1, h2, h3⟩ := hs
  obtain ⟨z1, z2⟩ := hz
  have key : ∀ {a b c : Int} (u : S) (_ : view M u = view M s) (n : Nat) (_ : cnt u ≤ cnt s + n) (_ : n + 3 ≤ pivotCost len)
      (_ : off ≤ a ∧ a < off + len) (_ : off ≤ b ∧ b < off + len) (_ : off ≤ c ∧ c < off + len),
      Sat (med3 M cmp a b c) u (fun m t => view M t = view M s ∧ cnt t ≤ cnt s + (n + 3) ∧ off ≤ m ∧ m < off + len)
        (fun e t => view M t = view M s ∧ cnt t ≤ cnt s + pivotCost len ∧ ThrowsE cmp P e) := by
    intro a b c u hu n hn hn9 ha hb hc
    have hP' : KeysIn M P off (off + len) u := by unfold KeysIn; rw [hu]; exact hP
    exact (med3_sat ht (hu ▸ hs') hP' ha hb hc).mono (fun _ _ h => ⟨h.1.trans hu, by have := h.2.1; omega, h.2.2⟩)
      (fun e t h => ⟨h.1.trans hu, by have := h.2.1; omega, h.2.2⟩)
  unfold pivot
  have e0 : i32 (off + len) = off + len := i32_of_range (by omega)
  have e1 : i32 (off + len - 1) = off + len - 1 := i32_of_range (by omega)
  have e2 : i32 (off + len / 2) = off + len / 2 := i32_of_range (by omega)
  have e3 : i32 (off + len / 8) = off + len / 8 := i32_of_range (by omega)
  have e4 : i32 (off + 2 * (len / 8)) = off + 2 * (len / 8) := i32_of_range (by omega)
  have e5 : i32 (off + len / 2 - len / 8) = off + len / 2 - len / 8 := i32_of_range (by omega)
  have e6 : i32 (off + len / 2 + len / 8) = off + len / 2 + len / 8 := i32_of_range (by omega)
  have e7 : i32 (off + len - 1 - 2 * (len / 8)) = off + len - 1 - 2 * (len / 8) := i32_of_range (by omega)
  have e8 : i32 (off + len - 1 - len / 8) = off + len - 1 - len / 8 := i32_of_range (by omega)
  simp only [e0, e1, e2, e3, e4, e5, e6, e7, e8]
  by_cases h7 : len > 7
  · rw [if_pos h7]
    by_cases h40 : len > 40
    · rw [if_pos h40]
      have hp : pivotCost len = 12 := if_pos h40
      rw [hp] at key ⊢
      refine Sat.bind (key s rfl 0 (by omega) (by omega) (by omega) (by omega) (by omega)) ?_
      rintro l t ⟨q1, c1, hl⟩
      refine Sat.bind (key t q1 3 c1 (by omega) (by omega) (by omega) (by omega)) ?_
      rintro m u ⟨q2, c2, hm⟩
      refine Sat.bind (key u q2 6 c2 (by omega) (by omega) (by omega) (by omega)) ?_
      rintro n w ⟨q3, c3, hn⟩
      exact key w q3 9 c3 (by omega) hl hm hn
    · rw [if_neg h40]
      have hp : pivotCost len = 3 := by unfold pivotCost; rw [if_neg h40, if_pos h7]
      rw [hp] at key ⊢
      exact key s rfl 0 (by omega) (by omega) (by omega) (by omega) (by omega)
  · rw [if_neg h7]
    exact Sat.pure ⟨rfl, by omega, by omega, by omega⟩

/-- One comparison of the partition loop. -/
theorem step_sat (ht : Tame M cnt cmp) {lo hi : Int} {s u : S} {x : K} (hx : P x) (hv : P v)
    (hm : Moves lo hi (view M s) (view M u)) {n : Int} (hn : (cnt u : Int) ≤ cnt s + n) {B : Int} (hB : n + 1 ≤ B) :
    Sat (cmp x v) u (fun _ t => view M t = view M u ∧ (cnt t : Int) ≤ cnt s + (n + 1))
      (fun e t => Moves lo hi (view M s) (view M t) ∧ (cnt t : Int) ≤ cnt s + B ∧ ThrowsE cmp P e) :=
  (cmp_sat ht hx hv u).mono (fun _ _ h => ⟨h.1, by have := h.2; omega⟩)
    (fun _ _ h => ⟨by rw [h.1]; exact hm, by have := h.2.1; omega, h.2.2⟩)

theorem scanB_sat (hw : Swaps M cnt) (ht : Tame M cnt cmp) {lo hi c : Int} (hv : P v) : ∀ (f : Nat) (a b : Int) (s : S),
    InBoth (view M s) lo (hi - lo) → KeysIn M P lo hi s → lo ≤ a → a ≤ b → b ≤ c + 1 → c < hi → c - b + 1 < f →
    Sat (scanB M cmp v c f a b) s
      (fun r t => Moves lo hi (view M s) (view M t) ∧ a ≤ r.1 ∧ r.1 ≤ r.2 ∧ b ≤ r.2 ∧ r.2 ≤ c + 1 ∧
        (cnt t : Int) ≤ cnt s + 2 * (r.2 - b) + 1 ∧ (c < r.2 → (cnt t : Int) ≤ cnt s + 2 * (r.2 - b)))
      (fun e t => Moves lo hi (view M s) (view M t) ∧ (cnt t : Int) ≤ cnt s + 2 * (c - b + 1) ∧ ThrowsE cmp P e)
  | 0, a, b, s, _, _, _, _, _, _, hf => by omega
  | f + 1, a, b, s, hs, hP, g1, g2, g3, g5, hf => by
    have hs0 := hs
    obtain ⟨s1, s2, s3, s4⟩ := hs
    have s3 : lo + (hi - lo) ≤ ((M.pri s).len : Int) := s3
    unfold scanB
    by_cases hbc : b ≤ c
    · rw [if_pos hbc]
      refine Sat.ok_bind (rd_ok M.pri (by omega)) ?_
      refine Sat.bind (step_sat ht (P := P) (lo := lo) (hi := hi) (s := s) (hP b (by omega)) hv (Moves.refl _ _ _)
        (n := 0) (by omega) (B := 2 * (c - b + 1)) (by omega)) ?_
      rintro r t ⟨e1, c1⟩
      have hst : InBoth (view M t) lo (hi - lo) := by rw [e1]; exact hs0
      have hPt : KeysIn M P lo hi t := by unfold KeysIn; rw [e1]; exact hP
      have l3 : lo + (hi - lo) ≤ ((M.pri t).len : Int) := hst.2.2.1
      have mt : Moves lo hi (view M s) (view M t) := by rw [e1]; exact Moves.refl _ _ _
      by_cases hr0 : r ≤ 0
      · rw [if_pos hr0]
        refine Sat.ok_bind (rd_ok M.pri (by omega)) ?_
        refine Sat.bind (step_sat ht (P := P) (lo := lo) (hi := hi) (s := s) (hPt b (by omega)) hv mt
          (n := 1) (by omega) (B := 2 * (c - b + 1)) (by omega)) ?_
        rintro r' u ⟨e2, c2⟩
        have hsu : InBoth (view M u) lo (hi - lo) := by rw [e2]; exact hst
        have hPu : KeysIn M P lo hi u := by unfold KeysIn; rw [e2]; exact hPt
        have mu : Moves lo hi (view M s) (view M u) := by rw [e2]; exact mt
        by_cases hz : r' = 0
        · rw [if_pos hz]
          obtain ⟨w, ew, vw, cw⟩ := hw u lo hi a b hsu (by omega) (by omega)
          refine Sat.ok_bind ew ?_
          have hm : Moves lo hi (view M u) (view M w) := by
            rw [vw]; exact moves_swapped _ (by omega) (by omega)
          have hm' := mu.trans hm
          refine (scanB_sat hw ht hv f (a + 1) (b + 1) w (hm'.inBoth hs0) (hP.moves hm') (by omega) (by omega) (by omega)
            g5 (by omega)).mono ?_ ?_
          · rintro ⟨a', b'⟩ z ⟨q1, q2, q3, q4, q5, q6, q7⟩
            exact ⟨hm'.trans q1, by omega, q3, by omega, q5, by omega, fun hc => by have := q7 hc; omega⟩
          · rintro e z ⟨q1, q2, q3⟩; exact ⟨hm'.trans q1, by omega, q3⟩
        · rw [if_neg hz]
          refine (scanB_sat hw ht hv f a (b + 1) u hsu hPu (by omega) (by omega) (by omega) g5 (by omega)).mono ?_ ?_
          · rintro ⟨a', b'⟩ z ⟨q1, q2, q3, q4, q5, q6, q7⟩
            exact ⟨mu.trans q1, by omega, q3, by omega, q5, by omega, fun hc => by have := q7 hc; omega⟩
          · rintro e z ⟨q1, q2, q3⟩; exact ⟨mu.trans q1, by omega, q3⟩
      · rw [if_neg hr0]
        exact Sat.pure ⟨mt, by omega, by omega, by omega, by omega, by omega, fun h => by omega⟩
    · rw [if_neg hbc]
      exact Sat.pure ⟨Moves.refl _ _ _, by omega, by omega, by omega, by omega, by omega, fun h => by omega⟩

theorem scanC_sat (hw : Swaps M cnt) (ht : Tame M cnt cmp) {lo hi b : Int} (hv : P v) : ∀ (f : Nat) (c d : Int) (s : S),
    InBoth (view M s) lo (hi - lo) → KeysIn M P lo hi s → lo ≤ b → b ≤ c + 1 → c ≤ d → d < hi → c - b + 1 < f →
    Sat (scanC M cmp v b f c d) s
      (fun r t => Moves lo hi (view M s) (view M t) ∧ r.2 ≤ d ∧ r.1 ≤ r.2 ∧ r.1 ≤ c ∧ b ≤ r.1 + 1 ∧
        (cnt t : Int) ≤ cnt s + 2 * (c - r.1) + 1 ∧ (r.1 < b → (cnt t : Int) ≤ cnt s + 2 * (c - r.1)))
      (fun e t => Moves lo hi (view M s) (view M t) ∧ (cnt t : Int) ≤ cnt s + 2 * (c - b + 1) ∧ ThrowsE cmp P e)
  | 0, c, d, s, _, _, _, _, _, _, hf => by omega
  | f + 1, c, d, s, hs, hP, g1, g2, g3, g5, hf => by
    have hs0 := hs
    obtain ⟨s1, s2, s3, s4⟩ := hs
    have s3 : lo + (hi - lo) ≤ ((M.pri s).len : Int) := s3
    unfold scanC
    by_cases hbc : c ≥ b
    · rw [if_pos hbc]
      refine Sat.ok_bind (rd_ok M.pri (by omega)) ?_
      refine Sat.bind (step_sat ht (P := P) (lo := lo) (hi := hi) (s := s) (hP c (by omega)) hv (Moves.refl _ _ _)
        (n := 0) (by omega) (B := 2 * (c - b + 1)) (by omega)) ?_
      rintro r t ⟨e1, c1⟩
      have hst : InBoth (view M t) lo (hi - lo) := by rw [e1]; exact hs0
      have hPt : KeysIn M P lo hi t := by unfold KeysIn; rw [e1]; exact hP
      have l3 : lo + (hi - lo) ≤ ((M.pri t).len : Int) := hst.2.2.1
      have mt : Moves lo hi (view M s) (view M t) := by rw [e1]; exact Moves.refl _ _ _
      by_cases hr0 : r ≥ 0
      · rw [if_pos hr0]
        refine Sat.ok_bind (rd_ok M.pri (by omega)) ?_
        refine Sat.bind (step_sat ht (P := P) (lo := lo) (hi := hi) (s := s) (hPt c (by omega)) hv mt
          (n := 1) (by omega) (B := 2 * (c - b + 1)) (by omega)) ?_
        rintro r' u ⟨e2, c2⟩
        have hsu : InBoth (view M u) lo (hi - lo) := by rw [e2]; exact hst
        have hPu : KeysIn M P lo hi u := by unfold KeysIn; rw [e2]; exact hPt
        have mu : Moves lo hi (view M s) (view M u) := by rw [e2]; exact mt
        by_cases hz : r' = 0
        · rw [if_pos hz]
          obtain ⟨w, ew, vw, cw⟩ := hw u lo hi c d hsu (by omega) (by omega)
          refine Sat.ok_bind ew ?_
          have hm : Moves lo hi (view M u) (view M w) := by
            rw [vw]; exact moves_swapped _ (by omega) (by omega)
          have hm' := mu.trans hm
          refine (scanC_sat hw ht hv f (c - 1) (d - 1) w (hm'.inBoth hs0) (hP.moves hm') (by omega) (by omega) (by omega)
            (by omega) (by omega)).mono ?_ ?_
          · rintro ⟨c', d'⟩ z ⟨q1, q2, q3, q4, q5, q6, q7⟩
            exact ⟨hm'.trans q1, by omega, q3, by omega, q5, by omega, fun hc => by have := q7 hc; omega⟩
          · rintro e z ⟨q1, q2, q3⟩; exact ⟨hm'.trans q1, by omega, q3⟩
        · rw [if_neg hz]
          refine (scanC_sat hw ht hv f (c - 1) d u hsu hPu (by omega) (by omega) (by omega) g5 (by omega)).mono ?_ ?_
          · rintro ⟨c', d'⟩ z ⟨q1, q2, q3, q4, q5, q6, q7⟩
            exact ⟨mu.trans q1, by omega, q3, by omega, q5, by omega, fun hc => by have := q7 hc; omega⟩
          · rintro e z ⟨q1, q2, q3⟩; exact ⟨mu.trans q1, by omega, q3⟩
      · rw [if_neg hr0]
        exact Sat.pure ⟨mt, by omega, by omega, by omega, by omega, by omega, fun h => by omega⟩
    · rw [if_neg hbc]
      exact Sat.pure ⟨Moves.refl _ _ _, by omega, by omega, by omega, by omega, by omega, fun h => by omega⟩

theorem scanB_done {c : Int} (f : Nat) {a b : Int} (h : c < b) (s : S) :
    scanB M cmp v c (f + 1) a b s = .ok (a, b) s := by
  unfold scanB; rw [if_neg (by omega)]; rfl

theorem scanC_done {b : Int} (f : Nat) {c d : Int} (h : c < b) (s : S) :
    scanC M cmp v b (f + 1) c d s = .ok (c, d) s := by
  unfold scanC; rw [if_neg (by omega)]; rfl

/-- What the partition loop leaves behind, whatever the comparator says: a comparator that changes its mind can
make the two parts share one element. -/
structure Split (lo hi a b c d : Int) : Prop where
  ha : lo ≤ a
  hab : a ≤ b
  hbc : c + 1 ≤ b
  hbc' : b ≤ c + 2
  hcd : c ≤ d
  hd : d < hi
  hb : b ≤ hi
  hc : lo ≤ c + 1
  hbd : b ≤ d + 1
  hac : a ≤ c + 1

theorem partition_sat (hw : Swaps M cnt) (ht : Tame M cnt cmp) {lo hi : Int} (hv : P v) :
    ∀ (f : Nat) (a b c d : Int) (s : S),
    InBoth (view M s) lo (hi - lo) → KeysIn M P lo hi s → lo ≤ a → a ≤ b → b ≤ c + 1 → c ≤ d → d < hi → c - b + 1 < f →
    Sat (partition M cmp v f a b c d) s
      (fun r t => Moves lo hi (view M s) (view M t) ∧ Split lo hi r.1 r.2.1 r.2.2.1 r.2.2.2 ∧
        (cnt t : Int) ≤ cnt s + 2 * (c - b + 1) + 1)
      (fun e t => Moves lo hi (view M s) (view M t) ∧ (cnt t : Int) ≤ cnt s + 2 * (c - b + 1) + 1 ∧ ThrowsE cmp P e)
  | 0, a, b, c, d, s, _, _, _, _, _, _, _, hf => by omega
  | f + 1, a, b, c, d, s, hs, hP, g1, g2, g3, g4, g5, hf => by
    unfold partition
    refine Sat.bind ((scanB_sat hw ht hv _ a b s hs hP g1 g2 g3 (by omega) (by omega)).mono (fun _ _ h => h)
      (fun e t h => ⟨h.1, by have := h.2.1; omega, h.2.2⟩)) ?_
    rintro ⟨a', b'⟩ t ⟨m1, i1, i2, i3, i4, i5, i6⟩
    dsimp only at i1 i2 i3 i4 i5 i6 ⊢
    refine Sat.bind ((scanC_sat hw ht hv _ c d t (m1.inBoth hs) (hP.moves m1) (by omega) i4 g4 g5 (by omega)).mono
      (fun _ _ h => h) (fun e u h => ⟨m1.trans h.1, ?_, h.2.2⟩)) ?_
    · have := h.2.1
      by_cases hc : c < b'
      · have := i6 hc; omega
      · omega
    rintro ⟨c', d'⟩ u ⟨m2, j1, j2, j3, j4, j5, j6⟩
    dsimp only at j1 j2 j3 j4 j5 j6 ⊢
    have m12 := m1.trans m2
    by_cases hbc : b' > c'
    · rw [if_pos hbc]
      refine Sat.pure ⟨m12, by constructor <;> dsimp only <;> omega, ?_⟩
      have := j6 (by omega)
      omega
    · rw [if_neg hbc]
      obtain ⟨w, ew, vw, cw⟩ := hw u lo hi b' c' (m12.inBoth hs) (by omega) (by omega)
      refine Sat.ok_bind ew ?_
      have m3 : Moves lo hi (view M u) (view M w) := by rw [vw]; exact moves_swapped _ (by omega) (by omega)
      have m123 := m12.trans m3
      by_cases hbe : b' = c'
      · -- `b' + 1 > c' - 1 + 1`: the loop ends in the next round
        cases f with
        | zero => omega
        | succ f =>
          unfold partition
          refine Sat.ok_bind (scanB_done _ (by omega) w) ?_
          refine Sat.ok_bind (scanC_done _ (by omega) w) ?_
          dsimp only
          rw [if_pos (by omega)]
          exact Sat.pure ⟨m123, by constructor <;> dsimp only <;> omega, by omega⟩
      · refine (partition_sat hw ht hv f _ _ _ _ w (m123.inBoth hs) (hP.moves m123) (by omega) (by omega) (by omega)
          (by omega) (by omega) (by omega)).mono ?_ ?_
        · rintro r z ⟨w1, w2, w3⟩; exact ⟨m123.trans w1, w2, by omega⟩
        · rintro e z ⟨w1, w2, w3⟩; exact ⟨m123.trans w1, by omega, w3⟩

theorem vecswapN_sat (hw : Swaps M cnt) {lo hi : Int} : ∀ (n : Nat) (a b : Int) (s : S),
    InBoth (view M s) lo (hi - lo) → (0 < n → lo ≤ a ∧ a + n ≤ hi ∧ lo ≤ b ∧ b + n ≤ hi) →
    ∃ t, vecswapN M n a b s = .ok () t ∧ Moves lo hi (view M s) (view M t) ∧ cnt t = cnt s
  | 0, a, b, s, _, _ => ⟨s, rfl, Moves.refl _ _ _, rfl⟩
  | n + 1, a, b, s, hs, h => by
    have h := h (by omega)
    obtain ⟨u, eu, vu, cu⟩ := hw s lo hi a b hs (by omega) (by omega)
    have hm : Moves lo hi (view M s) (view M u) := by rw [vu]; exact moves_swapped _ (by omega) (by omega)
    obtain ⟨t, et, mt, ct⟩ := vecswapN_sat hw n (a + 1) (b + 1) u (hm.inBoth hs) (fun hn => by omega)
    refine ⟨t, ?_, hm.trans mt, by omega⟩
    unfold vecswapN
    rw [JM.bind_ok eu]; exact et

/-- Comparisons of one nested call that does not recurse. -/
theorem level_cost {len : Int} (h : 7 ≤ len) : (pivotCost len : Int) + 2 * len + 1 ≤ 3 * (len - 1) := by
  unfold pivotCost
  split
  · omega
  · split <;> omega

theorem sort_sat (hw : Swaps M cnt) (ht : Tame M cnt cmp) : ∀ (f : Nat) (off len : Int) (s : S),
    InBoth (view M s) off len → Sized (view M s) → KeysIn M P off (off + len) s →
    Sat (sort M cmp f off len) s
      (fun _ t => Moves off (off + len) (view M s) (view M t) ∧ (cnt t : Int) ≤ cnt s + 3 * f * max (len - 1) 0)
      (fun e t => Moves off (off + len) (view M s) (view M t) ∧ (cnt t : Int) ≤ cnt s + 3 * f * max (len - 1) 0 ∧
        (ThrowsE cmp P e ∨ e = .diverge))
  | 0, off, len, s, _, _, _ => Sat.throw ⟨Moves.refl _ _ _, by simp, Or.inr rfl⟩
  | f + 1, off, len, s, hs, hz, hP => by
    have hs' : InBoth (view M s) off (off + len - off) := by
      have : off + len - off = len := by omega
      rw [this]; exact hs
    have hs0 := hs
    have hz0 := hz
    obtain ⟨s1, s2, s3, s4⟩ := hs
    obtain ⟨z1, z2⟩ := hz
    have s3 : off + len ≤ ((M.pri s).len : Int) := s3
    have s4 : off + len ≤ ((M.sec s).len : Int) := s4
    have z1 : (M.pri s).len < 2147483648 := z1
    have e0 : i32 (off + len) = off + len := i32_of_range (by omega)
    have e1 : i32 (off + len - 1) = off + len - 1 := i32_of_range (by omega)
    have e2 : i32 (len + off) = off + len := by rw [Int.add_comm]; exact e0
    unfold sort
    refine Sat.ok_bind (JM.get_apply s) ?_
    simp only [e0, e1, e2]
    rw [if_neg (by omega), if_neg (by omega), if_neg (by omega)]
    have hfm : (3 * ((f + 1 : Nat) : Int)) * max (len - 1) 0 = 3 * f * max (len - 1) 0 + 3 * max (len - 1) 0 := by
      push_cast; ring
    have hf0 : 0 ≤ 3 * (f : Int) * max (len - 1) 0 := Int.mul_nonneg (by omega) (by omega)
    rw [hfm]
    by_cases h7 : len < 7
    · rw [if_pos h7]
      have hb : tri off (off + len) off ≤ 6 * max (len - 1) 0 := by
        unfold tri
        have : len = 0 ∨ len = 1 ∨ len = 2 ∨ len = 3 ∨ len = 4 ∨ len = 5 ∨ len = 6 := by omega
        rw [show off + len - off = len by omega, show off - off = 0 by omega]
        rcases this with h | h | h | h | h | h | h <;> subst h <;> decide
      refine (insertion_sat (P := P) hw ht _ off s hs' (by omega) (by omega) (by omega) hP).mono ?_ ?_
      · rintro _ t ⟨m, hc⟩; exact ⟨m, by omega⟩
      · rintro e t ⟨m, hc, hth⟩; exact ⟨m, by omega, Or.inl hth⟩
    · rw [if_neg h7]
      have hlev := level_cost (len := len) (by omega)
      have hmax : max (len - 1) 0 = len - 1 := by omega
      rw [hmax] at hf0 ⊢
      refine Sat.bind ((pivot_sat ht hs0 hz0 (by omega) hP).mono (fun _ _ h => h)
        (fun e t h => ⟨by rw [h.1]; exact Moves.refl _ _ _, by have := h.2.1; omega, Or.inl h.2.2⟩)) ?_
      rintro m t ⟨vt, ct, hm1, hm2⟩
      have hst : InBoth (view M t) off (off + len - off) := by rw [vt]; exact hs'
      have hPt : KeysIn M P off (off + len) t := by unfold KeysIn; rw [vt]; exact hP
      have hlt : off + (off + len - off) ≤ ((M.pri t).len : Int) := hst.2.2.1
      refine Sat.ok_bind (rd_ok M.pri (by omega)) ?_
      have hPv : P ((M.pri t).get m) := hPt m ⟨hm1, hm2⟩
      generalize (M.pri t).get m = v at hPv ⊢
      have mt0 : Moves off (off + len) (view M s) (view M t) := by rw [vt]; exact Moves.refl _ _ _
      refine Sat.bind ((partition_sat hw ht hPv _ off off _ _ t hst hPt (by omega) (by omega) (by omega) (by omega)
        (by omega) (by omega)).mono (fun _ _ h => h)
        (fun e t h => ⟨mt0.trans h.1, by have := h.2.1; omega, Or.inl h.2.2⟩)) ?_
      rintro ⟨a, b, c, d⟩ u ⟨mu, iu, cu⟩
      dsimp only at iu cu ⊢
      obtain ⟨k1, k2, k3, k4, k5, k6, k7, k8, k9, k10⟩ := iu
      have mu' := mt0.trans mu
      unfold vecswap
      obtain ⟨w, ew, mw, cw⟩ := vecswapN_sat hw (lo := off) (hi := off + len) (min (a - off) (b - a)).toNat off
        (b - min (a - off) (b - a)) u (mu.inBoth hst) (fun hn => by omega)
      refine Sat.ok_bind ew ?_
      have mw' := mu'.trans mw
      obtain ⟨x, ex, mx, cx⟩ := vecswapN_sat hw (lo := off) (hi := off + len) (min (d - c) (off + len - d - 1)).toNat b
        (off + len - min (d - c) (off + len - d - 1)) w (mw'.inBoth hs') (fun hn => by omega)
      refine Sat.ok_bind ex ?_
      have mx' := mw'.trans mx
      have cx' : (cnt x : Int) ≤ cnt s + 3 * (len - 1) := by omega
      have hsx : InBoth (view M x) off len := mx'.inBoth hs0
      have hzx : Sized (view M x) := by unfold Sized; rw [mx'.1, mx'.2.1]; exact hz0
      have hPx := hP.moves mx'
      -- the cost of the two calls
      have hp : 3 * (f : Int) * max (b - a - 1) 0 + 3 * f * max (d - c - 1) 0 ≤ 3 * f * (len - 1) := by
        rw [← Int.mul_add]
        exact Int.mul_le_mul_of_nonneg_left (by omega) (by omega)
      have hp1 : 0 ≤ 3 * (f : Int) * max (b - a - 1) 0 := Int.mul_nonneg (by omega) (by omega)
      have hp2 : 0 ≤ 3 * (f : Int) * max (d - c - 1) 0 := Int.mul_nonneg (by omega) (by omega)
      have call1 : Sat (JM.when (b - a > 1) (sort M cmp f off (b - a))) x
          (fun _ y => Moves off (off + len) (view M s) (view M y) ∧ (cnt y : Int) ≤ cnt x + 3 * f * max (b - a - 1) 0)
          (fun e y => Moves off (off + len) (view M s) (view M y) ∧
            (cnt y : Int) ≤ cnt s + (3 * f * (len - 1) + 3 * (len - 1)) ∧ (ThrowsE cmp P e ∨ e = .diverge)) := by
        by_cases hb : b - a > 1
        · rw [JM.when_pos hb]
          have hx1 : InBoth (view M x) off (b - a) := by unfold InBoth at *; omega
          refine (sort_sat hw ht f off (b - a) x hx1 hzx (fun k hk => hPx k (by omega))).mono
            (fun _ _ h => ⟨mx'.trans (h.1.widen (by omega) (by omega)), h.2⟩)
            (fun e y h => ⟨mx'.trans (h.1.widen (by omega) (by omega)), by have := h.2.1; omega, h.2.2⟩)
        · rw [JM.when_neg hb]
          exact Sat.pure ⟨mx', by omega⟩
      refine Sat.bind call1 ?_
      rintro _ y ⟨my, cy⟩
      have hsy : InBoth (view M y) off len := my.inBoth hs0
      have hzy : Sized (view M y) := by unfold Sized; rw [my.1, my.2.1]; exact hz0
      have hPy := hP.moves my
      by_cases hb : d - c > 1
      · rw [JM.when_pos hb]
        have hx1 : InBoth (view M y) (off + len - (d - c)) (d - c) := by unfold InBoth at *; omega
        have ee : off + len - (d - c) + (d - c) = off + len := by omega
        have := sort_sat hw ht f (off + len - (d - c)) (d - c) y hx1 hzy (fun k hk => hPy k (by omega))
        rw [ee] at this
        refine this.mono
          (fun _ _ h => ⟨my.trans (h.1.widen (by omega) (by omega)), by have := h.2; omega⟩)
          (fun e y h => ⟨my.trans (h.1.widen (by omega) (by omega)), by have := h.2.1; omega, h.2.2⟩)
      · rw [JM.when_neg hb]
        exact Sat.pure ⟨my, by omega⟩

end Verif.SortMemProof

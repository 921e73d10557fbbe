import Verif.Proofs.Sort1
set_option linter.unusedSectionVars false
/-! The insertion sort and the choice of the partition element. -/
namespace Verif.SortProof
open Verif.CompanionSort Verif.SortSpec
variable {K V : Type} {cmp : K → K → Except Err Int} {P : K → Prop}

/-- The comparator itself throws `e` on keys satisfying `P`. -/
def Throws (cmp : K → K → Except Err Int) (P : K → Prop) (e : Err) : Prop :=
  ∃ x y, P x ∧ P y ∧ cmp x y = .error e

/-- The comparator never throws on keys satisfying `P` and orders them. -/
def Good (cmp : K → K → Except Err Int) (P : K → Prop) (c : K → K → Int) : Prop :=
  Orders P c ∧ ∀ x y, P x → P y → cmp x y = .ok (c x y)

def SortedOn (c : K → K → Int) (lo hi : Int) (s : Arrs K V) : Prop :=
  ∀ p q, lo ≤ p → p < q → q < hi → c (s.pri.get p) (s.pri.get q) ≤ 0

theorem call_sat (x y : K) (s : Arrs K V) :
    Sat (call cmp x y) s (fun r t => t = s ∧ cmp x y = .ok r) (fun e t => t = s ∧ cmp x y = .error e) := by
  unfold call
  cases h : cmp x y with
  | ok r => exact Sat.pure ⟨rfl, rfl⟩
  | error e => exact Sat.throw ⟨rfl, rfl⟩

theorem cmpAt_sat {s : Arrs K V} {lo hi i j : Int} (hs : InBoth s lo (hi - lo))
    (hi' : lo ≤ i ∧ i < hi) (hj : lo ≤ j ∧ j < hi) :
    Sat (cmpAt cmp i j) s (fun r t => t = s ∧ cmp (s.pri.get i) (s.pri.get j) = .ok r)
      (fun e t => t = s ∧ cmp (s.pri.get i) (s.pri.get j) = .error e) := by
  obtain ⟨h0, h1, h2, h3⟩ := hs
  unfold cmpAt
  refine Sat.ok_bind (rd_ok Arrs.pri (by omega)) ?_
  refine Sat.ok_bind (rd_ok Arrs.pri (by omega)) ?_
  exact call_sat _ _ s

theorem sink_sat {off i : Int} : ∀ (f : Nat) (j : Int) (s : Arrs K V),
    InBoth s off (i + 1 - off) → off ≤ j → j ≤ i → j - off < f →
    (∀ k, off ≤ k ∧ k < i + 1 → P (s.pri.get k)) →
    Sat (sink cmp off f j) s
      (fun _ t => Moves off (i + 1) s t ∧ ∀ c, Good cmp P c →
        (∀ p q, off ≤ p → p < q → q < i + 1 → q ≠ j → c (s.pri.get p) (s.pri.get q) ≤ 0) → SortedOn c off (i + 1) t)
      (fun e t => Moves off (i + 1) s t ∧ Throws cmp P e)
  | 0, j, s, _, h1, _, h2, _ => by omega
  | f + 1, j, s, hs, h1, h2, h3, hP => by
    unfold sink
    by_cases hj : j > off
    · rw [if_pos hj]
      refine Sat.bind ((cmpAt_sat (cmp := cmp) hs (i := j - 1) (j := j) (by omega) (by omega)).mono
        (fun _ _ h => h) (fun e t h => ⟨by rw [h.1]; exact Moves.refl _ _ _, _, _, hP _ (by omega), hP _ (by omega), h.2⟩)) ?_
      rintro r t ⟨rfl, hr⟩
      by_cases hr0 : r > 0
      · rw [if_pos hr0]
        refine Sat.ok_bind (swap_ok hs (by omega) (by omega)) ?_
        have hm := moves_swapped t (lo := off) (hi := i + 1) (a := j) (b := j - 1) (by omega) (by omega)
        refine (sink_sat f (j - 1) _ (hm.inBoth hs) (by omega) (by omega) (by omega) (hm.forall hP)).mono ?_ ?_
        · rintro _ u ⟨hu, hsort⟩
          refine ⟨hm.trans hu, fun c hc hsorted => hsort c hc ?_⟩
          have hcr : 0 < c (t.pri.get (j - 1)) (t.pri.get j) := by
            have := hc.2 _ _ (hP (j - 1) (by omega)) (hP j (by omega))
            rw [this] at hr; cases hr; exact hr0
          have hback : c (t.pri.get j) (t.pri.get (j - 1)) ≤ 0 :=
            (hc.1.symm _ _ (hP j (by omega)) (hP (j - 1) (by omega))).mpr (by omega)
          intro p q hp hpq hq hqj
          rw [swapped_pri, swapped_pri]
          rw [if_neg hqj]
          by_cases hqj' : q = j
          · rw [if_pos hqj']
            by_cases hp1 : p = j - 1
            · rw [if_pos hp1]; exact hback
            · rw [if_neg hp1, if_neg (by omega)]
              exact hsorted p (j - 1) hp (by omega) (by omega) (by omega)
          · rw [if_neg hqj']
            by_cases hp1 : p = j - 1
            · rw [if_pos hp1]; exact hsorted j q (by omega) (by omega) hq hqj'
            · rw [if_neg hp1]
              by_cases hp2 : p = j
              · rw [if_pos hp2]; exact hsorted (j - 1) q (by omega) (by omega) hq hqj'
              · rw [if_neg hp2]; exact hsorted p q hp hpq hq hqj'
        · rintro e u ⟨hu, he⟩
          exact ⟨hm.trans hu, he⟩
      · rw [if_neg hr0]
        refine Sat.pure ⟨Moves.refl _ _ _, fun c hc hsorted => ?_⟩
        have hcr : c (t.pri.get (j - 1)) (t.pri.get j) ≤ 0 := by
          have := hc.2 _ _ (hP (j - 1) (by omega)) (hP j (by omega))
          rw [this] at hr; cases hr; omega
        intro p q hp hpq hq
        by_cases hqj : q = j
        · rw [hqj]
          by_cases hp1 : p = j - 1
          · rw [hp1]; exact hcr
          · exact hc.1.trans _ _ _ (hP p (by omega)) (hP (j - 1) (by omega)) (hP j (by omega))
              (hsorted p (j - 1) hp (by omega) (by omega) (by omega)) hcr
        · exact hsorted p q hp hpq hq hqj
    · rw [if_neg hj]
      refine Sat.pure ⟨Moves.refl _ _ _, fun c hc hsorted => ?_⟩
      intro p q hp hpq hq
      exact hsorted p q hp hpq hq (by omega)

theorem insertion_sat {off hi : Int} : ∀ (f : Nat) (i : Int) (s : Arrs K V),
    InBoth s off (hi - off) → off ≤ i → i ≤ hi → hi - i < f →
    (∀ k, off ≤ k ∧ k < hi → P (s.pri.get k)) →
    Sat (insertion cmp off hi f i) s
      (fun _ t => Moves off hi s t ∧ ∀ c, Good cmp P c → SortedOn c off i s → SortedOn c off hi t)
      (fun e t => Moves off hi s t ∧ Throws cmp P e)
  | 0, i, s, _, h1, _, h2, _ => by omega
  | f + 1, i, s, hs, h1, h2, h3, hP => by
    unfold insertion
    by_cases hi' : i < hi
    · rw [if_pos hi']
      have hsink := sink_sat (cmp := cmp) (P := P) (off := off) (i := i) ((i - off).toNat + 1) i s
        (InBoth.narrow hs (by omega) (by omega) (by omega)) h1 (by omega) (by omega) (fun k hk => hP k (by omega))
      refine Sat.bind (hsink.mono (fun _ _ h => h) (fun e t h => ⟨h.1.widen (by omega) (by omega), h.2⟩)) ?_
      rintro _ t ⟨hm, hsort⟩
      have hm' : Moves off hi s t := hm.widen (by omega) (by omega)
      refine (insertion_sat f (i + 1) t (hm'.inBoth hs) (by omega) (by omega) (by omega) (hm'.forall hP)).mono ?_ ?_
      · rintro _ u ⟨hu, hs'⟩
        refine ⟨hm'.trans hu, fun c hc h => hs' c hc (hsort c hc ?_)⟩
        intro p q hp hpq hq hqi
        exact h p q hp hpq (by omega)
      · rintro e u ⟨hu, he⟩
        exact ⟨hm'.trans hu, he⟩
    · rw [if_neg hi']
      refine Sat.pure ⟨Moves.refl _ _ _, fun c hc h => ?_⟩
      have : i = hi := by omega
      rw [← this]; exact h

theorem med3_sat {s : Arrs K V} {lo hi a b c : Int} (hs : InBoth s lo (hi - lo))
    (hP : ∀ k, lo ≤ k ∧ k < hi → P (s.pri.get k))
    (ha : lo ≤ a ∧ a < hi) (hb : lo ≤ b ∧ b < hi) (hc : lo ≤ c ∧ c < hi) :
    Sat (med3 cmp a b c) s (fun m t => t = s ∧ lo ≤ m ∧ m < hi) (fun e t => t = s ∧ Throws cmp P e) := by
  have key : ∀ {x y : Int} (_ : lo ≤ x ∧ x < hi) (_ : lo ≤ y ∧ y < hi),
      Sat (cmpAt cmp x y) s (fun _ t => t = s) (fun e t => t = s ∧ Throws cmp P e) := by
    intro x y hx hy
    exact (cmpAt_sat (cmp := cmp) hs hx hy).mono (fun _ _ h => h.1)
      (fun e t h => ⟨h.1, _, _, hP _ hx, hP _ hy, h.2⟩)
  unfold med3
  refine Sat.bind (key ha hb) ?_
  rintro r t rfl
  split
  · refine Sat.bind (key hb hc) ?_
    rintro r t rfl
    split
    · exact Sat.pure ⟨rfl, hb⟩
    · refine Sat.bind (key ha hc) ?_
      rintro r t rfl
      split
      · exact Sat.pure ⟨rfl, hc⟩
      · exact Sat.pure ⟨rfl, ha⟩
  · refine Sat.bind (key hb hc) ?_
    rintro r t rfl
    split
    · exact Sat.pure ⟨rfl, hb⟩
    · refine Sat.bind (key ha hc) ?_
      rintro r t rfl
      split
      · exact Sat.pure ⟨rfl, hc⟩
      · exact Sat.pure ⟨rfl, ha⟩

theorem pivot_sat {s : Arrs K V} {off len : Int} (hs : InBoth s off len) (hz : Sized s) (hl : 7 ≤ len)
    (hP : ∀ k, off ≤ k ∧ k < off + len → P (s.pri.get k)) :
    Sat (pivot cmp off len) s (fun m t => t = s ∧ off ≤ m ∧ m < off + len) (fun e t => t = s ∧ Throws cmp P e) := by
  have hs' : InBoth s off (off + len - off) := by
    have : off + len - off = len := by omega
    rw [this]; exact hs
  obtain ⟨h0, h1, h2, h3⟩ := hs
  obtain ⟨z1, z2⟩ := hz
  unfold pivot
  have e0 : i32 (off + len) = off + len := i32_of_range (by omega)
  have e1 : i32 (off + len - 1) = off + len - 1 := i32_of_range (by omega)
  have e2 : i32 (off + len / 2) = off + len / 2 := i32_of_range (by omega)
  have e3 : i32 (off + len / 8) = off + len / 8 := i32_of_range (by omega)
  have e4 : i32 (off + 2 * (len / 8)) = off + 2 * (len / 8) := i32_of_range (by omega)
  have e5 : i32 (off + len / 2 - len / 8) = off + len / 2 - len / 8 := i32_of_range (by omega)
  have e6 : i32 (off + len / 2 + len / 8) = off + len / 2 + len / 8 := i32_of_range (by omega)
  have e7 : i32 (off + len - 1 - 2 * (len / 8)) = off + len - 1 - 2 * (len / 8) := i32_of_range (by omega)
  have e8 : i32 (off + len - 1 - len / 8) = off + len - 1 - len / 8 := i32_of_range (by omega)
  simp only [e0, e1, e2, e3, e4, e5, e6, e7, e8]
  by_cases h7 : len > 7
  · rw [if_pos h7]
    by_cases h40 : len > 40
    · rw [if_pos h40]
      refine Sat.bind (med3_sat hs' hP (by omega) (by omega) (by omega)) ?_
      rintro l t ⟨rfl, hl⟩
      refine Sat.bind (med3_sat hs' hP (by omega) (by omega) (by omega)) ?_
      rintro m t ⟨rfl, hm⟩
      refine Sat.bind (med3_sat hs' hP (by omega) (by omega) (by omega)) ?_
      rintro n t ⟨rfl, hn⟩
      exact med3_sat hs' hP hl hm hn
    · rw [if_neg h40]
      exact med3_sat hs' hP (by omega) (by omega) (by omega)
  · rw [if_neg h7]
    exact Sat.pure ⟨rfl, by omega, by omega⟩

end Verif.SortProof

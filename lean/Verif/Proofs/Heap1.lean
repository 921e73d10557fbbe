import Verif.Spec.Heap
import Verif.Props.Arrays
import Verif.Trace
set_option linter.unusedSectionVars false
/-! Sifting in a complete binary tree, as pure functions on the map from positions to entries. -/
namespace Verif.HeapProof
open Verif.HeapSpec

/-- Parent position. -/
abbrev par (p : Int) : Int := (p - 1) / 2

/-- Exchange two positions. -/
def swap (T : Int → Int) (i j : Int) : Int → Int := fun p => if p = i then T j else if p = j then T i else T p

/-- Sift up from `c`. -/
def up (ce : Int → Int → Int) : Nat → (Int → Int) → Int → (Int → Int) × Int
  | 0, T, c => (T, c)
  | f + 1, T, c =>
    if c = 0 then (T, c)
    else if ce (T c) (T (par c)) ≥ 0 then (T, c)
    else up ce f (swap T c (par c)) (par c)

/-- The child sifting down would exchange with. -/
def child (ce : Int → Int → Int) (n : Int) (T : Int → Int) (c : Int) : Int :=
  if 2 * c + 1 + 1 < n then
    if ce (T (2 * c + 1)) (T (2 * c + 1 + 1)) > 0 then 2 * c + 1 + 1 else 2 * c + 1
  else 2 * c + 1

/-- Sift down from `c` below `n`. -/
def down (ce : Int → Int → Int) (n : Int) : Nat → (Int → Int) → Int → (Int → Int) × Int
  | 0, T, c => (T, c)
  | f + 1, T, c =>
    if 2 * c + 1 < n then
      if ce (T c) (T (child ce n T c)) < 0 then (T, c)
      else down ce n f (swap T c (child ce n T c)) (child ce n T c)
    else (T, c)

theorem swap_self_left (T : Int → Int) (i j : Int) : swap T i j i = T j := by simp [swap]
theorem swap_self_right (T : Int → Int) (i j : Int) : swap T i j j = T i := by
  unfold swap; split <;> simp_all
theorem swap_other (T : Int → Int) {i j p : Int} (h1 : p ≠ i) (h2 : p ≠ j) : swap T i j p = T p := by
  simp [swap, h1, h2]

/-- `T'` has the same entries as `T` in the first `n` positions. -/
def SameImage (T T' : Int → Int) (n : Int) : Prop :=
  ∀ e, (∃ p, 0 ≤ p ∧ p < n ∧ T' p = e) ↔ (∃ p, 0 ≤ p ∧ p < n ∧ T p = e)

theorem SameImage.refl (T : Int → Int) (n : Int) : SameImage T T n := fun _ => Iff.rfl
theorem SameImage.trans {T T' T'' : Int → Int} {n : Int} (h : SameImage T T' n) (g : SameImage T' T'' n) :
    SameImage T T'' n := fun e => (g e).trans (h e)

theorem sameImage_swap (T : Int → Int) {i j n : Int} (hi : 0 ≤ i ∧ i < n) (hj : 0 ≤ j ∧ j < n) :
    SameImage T (swap T i j) n := by
  intro e
  constructor
  · rintro ⟨p, h0, h1, h2⟩
    unfold swap at h2
    split at h2
    · exact ⟨j, hj.1, hj.2, h2⟩
    · split at h2
      · exact ⟨i, hi.1, hi.2, h2⟩
      · exact ⟨p, h0, h1, h2⟩
  · rintro ⟨p, h0, h1, h2⟩
    by_cases hpi : p = i
    · exact ⟨j, hj.1, hj.2, by rw [swap_self_right, ← hpi]; exact h2⟩
    · by_cases hpj : p = j
      · exact ⟨i, hi.1, hi.2, by rw [swap_self_left, ← hpj]; exact h2⟩
      · exact ⟨p, h0, h1, by rw [swap_other T hpi hpj]; exact h2⟩

theorem up_basic (ce : Int → Int → Int) : ∀ (f : Nat) (T : Int → Int) (c : Int), 0 ≤ c →
    (0 ≤ (up ce f T c).2 ∧ (up ce f T c).2 ≤ c) ∧
    (up ce f T c).1 (up ce f T c).2 = T c ∧
    (∀ p, c < p → (up ce f T c).1 p = T p) ∧
    (∀ n, c < n → SameImage T (up ce f T c).1 n)
  | 0, T, c, h => by
    refine ⟨⟨h, Int.le_refl _⟩, rfl, fun p _ => rfl, fun n _ => SameImage.refl _ _⟩
  | f + 1, T, c, h => by
    unfold up
    split
    · exact ⟨⟨h, Int.le_refl _⟩, rfl, fun p _ => rfl, fun n _ => SameImage.refl _ _⟩
    · split
      · exact ⟨⟨h, Int.le_refl _⟩, rfl, fun p _ => rfl, fun n _ => SameImage.refl _ _⟩
      · have hq : 0 ≤ par c ∧ par c < c := by simp only [par]; omega
        obtain ⟨⟨h1, h2⟩, h3, h4, h5⟩ := up_basic ce f (swap T c (par c)) (par c) hq.1
        refine ⟨⟨h1, by omega⟩, ?_, ?_, ?_⟩
        · rw [h3, swap_self_right]
        · intro p hp
          rw [h4 p (by omega), swap_other T (by omega) (by omega)]
        · intro n hn
          exact (sameImage_swap T ⟨h, hn⟩ ⟨hq.1, by omega⟩).trans (h5 n (by omega))

theorem child_range (ce : Int → Int → Int) {n : Int} (T : Int → Int) {c : Int} (h : 0 ≤ c)
    (hn : 2 * c + 1 < n) : c < child ce n T c ∧ child ce n T c < n ∧ par (child ce n T c) = c := by
  unfold child par
  split
  · split <;> omega
  · omega

theorem down_basic (ce : Int → Int → Int) (n : Int) : ∀ (f : Nat) (T : Int → Int) (c : Int),
    0 ≤ c → c < n →
    (c ≤ (down ce n f T c).2 ∧ (down ce n f T c).2 < n) ∧
    (down ce n f T c).1 (down ce n f T c).2 = T c ∧
    (∀ p, n ≤ p → (down ce n f T c).1 p = T p) ∧
    SameImage T (down ce n f T c).1 n
  | 0, T, c, h, hn => ⟨⟨Int.le_refl _, hn⟩, rfl, fun p _ => rfl, SameImage.refl _ _⟩
  | f + 1, T, c, h, hn => by
    unfold down
    split
    · rename_i h1
      split
      · exact ⟨⟨Int.le_refl _, hn⟩, rfl, fun p _ => rfl, SameImage.refl _ _⟩
      · obtain ⟨g1, g2, _⟩ := child_range ce T h h1
        obtain ⟨⟨k1, k2⟩, k3, k4, k5⟩ :=
          down_basic ce n f (swap T c (child ce n T c)) (child ce n T c) (by omega) g2
        refine ⟨⟨by omega, k2⟩, ?_, ?_, ?_⟩
        · rw [k3, swap_self_right]
        · intro p hp
          rw [k4 p hp, swap_other T (by omega) (by omega)]
        · exact (sameImage_swap T ⟨h, hn⟩ ⟨by omega, g2⟩).trans k5
    · exact ⟨⟨Int.le_refl _, hn⟩, rfl, fun p _ => rfl, SameImage.refl _ _⟩

/-! Order -/

/-- `ce` is a total preorder on the entries satisfying `P`. -/
structure Pre (P : Int → Prop) (ce : Int → Int → Int) : Prop where
  symm : ∀ a b, P a → P b → (ce a b ≤ 0 ↔ 0 ≤ ce b a)
  trans : ∀ x y z, P x → P y → P z → ce x y ≤ 0 → ce y z ≤ 0 → ce x z ≤ 0

variable {P : Int → Prop} {ce : Int → Int → Int}

/-- All of the first `n` positions hold entries satisfying `P`. -/
def Within (P : Int → Prop) (T : Int → Int) (n : Int) : Prop := ∀ p, 0 ≤ p → p < n → P (T p)

/-- Heap order below `n`. -/
def Ord (ce : Int → Int → Int) (T : Int → Int) (n : Int) : Prop :=
  ∀ p, 0 < p → p < n → ce (T (par p)) (T p) ≤ 0

/-- Heap order except between `c` and its parent. -/
def UpOk (ce : Int → Int → Int) (T : Int → Int) (c n : Int) : Prop :=
  (∀ p, 0 < p → p < n → p ≠ c → ce (T (par p)) (T p) ≤ 0) ∧
  (∀ p, 0 < p → p < n → par p = c → 0 < c → ce (T (par c)) (T p) ≤ 0)

/-- Heap order except between `c` and its children. -/
def DownOk (ce : Int → Int → Int) (T : Int → Int) (c n : Int) : Prop :=
  (∀ p, 0 < p → p < n → par p ≠ c → ce (T (par p)) (T p) ≤ 0) ∧
  (∀ p, 0 < p → p < n → par p = c → 0 < c → ce (T (par c)) (T p) ≤ 0)

/-- Heap order except around `c`. -/
def Hole (ce : Int → Int → Int) (T : Int → Int) (c n : Int) : Prop :=
  (∀ p, 0 < p → p < n → p ≠ c → par p ≠ c → ce (T (par p)) (T p) ≤ 0) ∧
  (∀ p, 0 < p → p < n → par p = c → 0 < c → ce (T (par c)) (T p) ≤ 0)

theorem within_swap {T : Int → Int} {i j n : Int} (h : Within P T n) (hi : 0 ≤ i ∧ i < n)
    (hj : 0 ≤ j ∧ j < n) : Within P (swap T i j) n := by
  intro p h0 h1
  unfold swap
  split
  · exact h j hj.1 hj.2
  · split
    · exact h i hi.1 hi.2
    · exact h p h0 h1

/-- One exchange of sifting up. -/
theorem up_step {T : Int → Int} {c n : Int} (hp : Pre P ce) (hw : Within P T n) (hc : 0 < c) (hcn : c < n)
    (hlt : ce (T c) (T (par c)) < 0) (h : Hole ce T c n) : UpOk ce (swap T c (par c)) (par c) n := by
  have hq : 0 ≤ par c ∧ par c < c := by simp only [par]; omega
  have hswap : ∀ p, par p = par c → 0 < p → p < n → p ≠ c → ce (T (par c)) (T p) ≤ 0 := by
    intro p h1 h2 h3 h4
    have := h.1 p h2 h3 h4 (by omega)
    rwa [h1] at this
  constructor
  · intro p h0 h1 hpc
    by_cases e1 : p = c
    · subst e1
      rw [swap_self_left, swap_self_right]; omega
    · rw [swap_other T e1 hpc]
      by_cases e2 : par p = c
      · rw [e2, swap_self_left]
        exact h.2 p h0 h1 e2 hc
      · by_cases e3 : par p = par c
        · rw [e3, swap_self_right]
          exact hp.trans _ _ _ (hw c (by omega) hcn) (hw _ hq.1 (by omega)) (hw p (by omega) h1) (by omega)
            (hswap p e3 h0 h1 e1)
        · rw [swap_other T e2 e3]
          exact h.1 p h0 h1 e1 e2
  · intro p h0 h1 e hq0
    have hqq : par (par c) ≠ c ∧ par (par c) ≠ par c := by
      constructor
      · have : par (par c) < par c := by simp only [par] at *; omega
        omega
      · have : par (par c) < par c := by simp only [par] at *; omega
        omega
    rw [swap_other T hqq.1 hqq.2]
    have h2 : ce (T (par (par c))) (T (par c)) ≤ 0 := h.1 _ hq0 (by omega) (by omega) hqq.1
    by_cases e1 : p = c
    · subst e1; rw [swap_self_left]; exact h2
    · have e2 : p ≠ par c := by
        intro hc'; subst hc'; simp only [par] at *; omega
      rw [swap_other T e1 e2]
      have hr : 0 ≤ par (par c) ∧ par (par c) < n := by simp only [par] at *; omega
      exact hp.trans _ _ _ (hw _ hr.1 hr.2) (hw _ hq.1 (by omega)) (hw p (by omega) h1) h2
        (hswap p e h0 h1 e1)

theorem UpOk.hole {T : Int → Int} {c n : Int} (h : UpOk ce T c n) : Hole ce T c n :=
  ⟨fun p h0 h1 h2 _ => h.1 p h0 h1 h2, h.2⟩

/-- Sifting up restores the order. -/
theorem up_ord (hp : Pre P ce) {n : Int} : ∀ (f : Nat) (T : Int → Int) (c : Int), 0 ≤ c → c < n → c ≤ f →
    Within P T n → UpOk ce T c n → Ord ce (up ce f T c).1 n
  | 0, T, c, h, _, hf, _, ho => by
    have : c = 0 := by omega
    subst this
    intro p h0 h1
    exact ho.1 p h0 h1 (by omega)
  | f + 1, T, c, h, hn, hf, hw, ho => by
    unfold up
    split
    · rename_i hc; subst hc
      intro p h0 h1
      exact ho.1 p h0 h1 (by omega)
    · rename_i hc
      have hq : 0 ≤ par c ∧ par c < c := by simp only [par]; omega
      split
      · rename_i hge
        intro p h0 h1
        by_cases e : p = c
        · subst e
          exact (hp.symm _ _ (hw _ hq.1 (by omega)) (hw p h hn)).2 hge
        · exact ho.1 p h0 h1 e
      · rename_i hlt
        exact up_ord hp f _ _ hq.1 (by omega) (by omega) (within_swap hw ⟨h, hn⟩ ⟨hq.1, by omega⟩)
          (up_step hp hw (by omega) hn (by omega) ho.hole)

theorem Ord.downOk {T : Int → Int} {c n : Int} (hp : Pre P ce) (hw : Within P T n) (h : Ord ce T n)
    (hc : 0 ≤ c) (hcn : c < n) : DownOk ce T c n := by
  refine ⟨fun p h0 h1 _ => h p h0 h1, fun p h0 h1 e hc0 => ?_⟩
  have h2 := h c hc0 hcn
  have h3 := h p h0 h1
  rw [e] at h3
  have hr : 0 ≤ par c ∧ par c < n := by simp only [par] at *; omega
  exact hp.trans _ _ _ (hw _ hr.1 hr.2) (hw c hc hcn) (hw p (by omega) h1) h2 h3

/-- Sifting up from a hole leaves at most the children of the final position out of order. -/
theorem up_hole (hp : Pre P ce) {n : Int} (f : Nat) (T : Int → Int) (c : Int) (h : 0 ≤ c) (hn : c < n)
    (hf : c ≤ f) (hw : Within P T n) (ho : Hole ce T c n) :
    DownOk ce (up ce f T c).1 (up ce f T c).2 n := by
  have hsame : (c = 0 ∨ ce (T (par c)) (T c) ≤ 0) → DownOk ce T c n := by
    intro hx
    refine ⟨fun p h0 h1 e => ?_, ho.2⟩
    by_cases e1 : p = c
    · subst e1
      rcases hx with hx | hx
      · omega
      · exact hx
    · exact ho.1 p h0 h1 e1 e
  cases f with
  | zero => exact hsame (.inl (by omega))
  | succ f =>
    have hb := up_basic ce (f + 1) T c h
    unfold up at hb ⊢
    split
    · rename_i hc; exact hsame (.inl hc)
    · rename_i hc
      have hq : 0 ≤ par c ∧ par c < c := by simp only [par]; omega
      split
      · rename_i hge
        exact hsame (.inr ((hp.symm _ _ (hw _ hq.1 (by omega)) (hw c h hn)).2 hge))
      · rename_i hlt
        have hw' := within_swap hw ⟨h, hn⟩ ⟨hq.1, by omega⟩ (P := P) (T := T) (i := c) (j := par c)
        have hu := up_step hp hw (by omega) hn (by omega) ho
        have ho' := up_ord hp f _ _ hq.1 (by omega) (by omega) hw' hu
        obtain ⟨⟨b1, b2⟩, b3, b4, b5⟩ := up_basic ce f (swap T c (par c)) (par c) hq.1
        refine Ord.downOk hp ?_ ho' b1 (by omega)
        intro p h0 h1
        obtain ⟨p', g0, g1, g2⟩ := (b5 n (by omega) _).1 ⟨p, h0, h1, rfl⟩
        rw [← g2]; exact hw' p' g0 g1

theorem within_of_same {T T' : Int → Int} {n : Int} (h : SameImage T T' n) (hw : Within P T n) :
    Within P T' n := by
  intro p h0 h1
  obtain ⟨p', g0, g1, g2⟩ := (h _).1 ⟨p, h0, h1, rfl⟩
  rw [← g2]; exact hw p' g0 g1

/-- The chosen child comes first. -/
theorem child_min (hp : Pre P ce) {T : Int → Int} {c n : Int} (hw : Within P T n) (hc : 0 ≤ c)
    (hn : 2 * c + 1 < n) {p : Int} (h0 : 0 < p) (h1 : p < n) (he : par p = c) :
    ce (T (child ce n T c)) (T p) ≤ 0 := by
  have hp2 : p = 2 * c + 1 ∨ p = 2 * c + 1 + 1 := by simp only [par] at he; omega
  have hrefl : ∀ q, 0 ≤ q → q < n → ce (T q) (T q) ≤ 0 := by
    intro q g0 g1
    have := hp.symm _ _ (hw q g0 g1) (hw q g0 g1)
    omega
  unfold child
  split
  · rename_i hr
    have w1 := hw (2 * c + 1) (by omega) hn
    have w2 := hw (2 * c + 1 + 1) (by omega) hr
    split
    · rename_i hgt
      rcases hp2 with rfl | rfl
      · exact (hp.symm _ _ w2 w1).2 (by omega)
      · exact hrefl _ (by omega) hr
    · rename_i hle
      rcases hp2 with rfl | rfl
      · exact hrefl _ (by omega) hn
      · omega
  · rcases hp2 with rfl | rfl
    · exact hrefl _ (by omega) hn
    · omega

/-- One exchange of sifting down. -/
theorem down_step (hp : Pre P ce) {T : Int → Int} {c n : Int} (hw : Within P T n) (hc : 0 ≤ c)
    (hn : 2 * c + 1 < n) (hge : ¬ ce (T c) (T (child ce n T c)) < 0) (h : DownOk ce T c n) :
    DownOk ce (swap T c (child ce n T c)) (child ce n T c) n := by
  have hmin := fun p => child_min hp hw hc hn (p := p)
  obtain ⟨g1, g2, g3⟩ := child_range ce T hc hn
  generalize hh : child ce n T c = h' at *
  constructor
  · intro p h0 h1 hpne
    by_cases e1 : p = h'
    · subst e1
      rw [g3, swap_self_left, swap_self_right]
      exact (hp.symm _ _ (hw _ (by omega) g2) (hw c hc (by omega))).2 (by omega)
    · by_cases e2 : p = c
      · subst e2
        have : par p ≠ p := by simp only [par]; omega
        have e3 : par p ≠ h' := hpne
        rw [swap_self_left, swap_other T this e3]
        exact h.2 h' (by omega) g2 g3 h0
      · rw [swap_other T e2 e1]
        by_cases e3 : par p = c
        · rw [e3, swap_self_left]; exact hmin p h0 h1 e3
        · rw [swap_other T e3 hpne]; exact h.1 p h0 h1 e3
  · intro p h0 h1 e hpos
    rw [g3, swap_self_left]
    have e1 : p ≠ c := by intro hx; subst hx; simp only [par] at *; omega
    have e2 : p ≠ h' := by intro hx; subst hx; simp only [par] at *; omega
    rw [swap_other T e1 e2]
    have := h.1 p h0 h1 (by rw [e]; omega)
    rwa [e] at this

/-- Sifting down restores the order. -/
theorem down_ord (hp : Pre P ce) {n : Int} : ∀ (f : Nat) (T : Int → Int) (c : Int), 0 ≤ c → c < n →
    n - c ≤ f → Within P T n → DownOk ce T c n → Ord ce (down ce n f T c).1 n
  | 0, T, c, h, hn, hf, _, _ => by omega
  | f + 1, T, c, h, hn, hf, hw, ho => by
    have hdone : (∀ p, 0 < p → p < n → par p = c → ce (T c) (T p) ≤ 0) → Ord ce T n := by
      intro hx p h0 h1
      by_cases e : par p = c
      · rw [e]; exact hx p h0 h1 e
      · exact ho.1 p h0 h1 e
    unfold down
    split
    · rename_i hch
      obtain ⟨g1, g2, g3⟩ := child_range ce T h hch
      split
      · rename_i hlt
        refine hdone fun p h0 h1 e => ?_
        exact hp.trans _ _ _ (hw c h hn) (hw _ (by omega) g2) (hw p (by omega) h1) (by omega)
          (child_min hp hw h hch h0 h1 e)
      · rename_i hge
        exact down_ord hp f _ _ (by omega) g2 (by omega)
          (within_swap hw ⟨h, hn⟩ ⟨by omega, g2⟩) (down_step hp hw h hch hge ho)
    · rename_i hch
      refine hdone fun p h0 h1 e => ?_
      simp only [par] at e; omega

/-- In an ordered tree the root comes first. -/
theorem ord_root (hp : Pre P ce) {T : Int → Int} {n : Int} (hw : Within P T n) (h : Ord ce T n) :
    ∀ (k : Nat) (p : Int), p ≤ k → 0 ≤ p → p < n → ce (T 0) (T p) ≤ 0 := by
  intro k
  induction k with
  | zero =>
    intro p h1 h2 h3
    have : p = 0 := by omega
    subst this
    have := hp.symm _ _ (hw 0 h2 h3) (hw 0 h2 h3)
    omega
  | succ k ih =>
    intro p h1 h2 h3
    by_cases h0 : p = 0
    · subst h0; exact ih 0 (by omega) h2 h3
    · have hq : 0 ≤ par p ∧ par p < p := by simp only [par]; omega
      exact hp.trans _ _ _ (hw 0 (by omega) (by omega)) (hw _ hq.1 (by omega)) (hw p h2 h3)
        (ih _ (by omega) hq.1 (by omega)) (h p (by omega) h3)

end Verif.HeapProof

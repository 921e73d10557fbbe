import Verif.Props.Index
import Verif.Proofs.IndexCap
import Mathlib.Tactic.Ring
/-! # Property C102: how much an indexed collection grows -/
set_option linter.unusedSectionVars false
namespace Verif
open Index IndexSpec
variable {K V : Type} [Inhabited K] [Inhabited V]

theorem cap_history {exact : Prop} (c0 : Int) (num den : Nat) (ops : List (Op K V)) :
    ∀ {s : Index K V} {a : Abs K V} {F : List Int} {p : Int}, Inv exact s a F → Guarded a s ops →
    s.lfNum = num → s.lfDen = den → a.next ≤ p + 29 → (exact → a.next ≤ p) → peak a s ops ≤ p →
    c0 ≤ s.capacity → (s.capacity = c0 ∨ s.capacity * num < 2 * (p + 29) * den) →
    (exact → s.capacity = c0 ∨ s.capacity * num < 2 * p * den) →
    c0 ≤ (final s ops).capacity ∧
    ((final s ops).capacity = c0 ∨ (final s ops).capacity * num < 2 * (p + 29) * den) ∧
    (exact → (final s ops).capacity = c0 ∨ (final s ops).capacity * num < 2 * p * den) := by
  induction ops with
  | nil => intro s a F p _ _ _ _ _ _ _ h1 h2 h3; exact ⟨h1, h2, h3⟩
  | cons o os ih =>
    intro s a F p h hg hnum hden h1 h2 hp g1 g2 g3
    obtain ⟨F', hF'⟩ := (step_spec h o hg.1).2.2
    have hp' : peak (after o (step o s).out a) (step o s).state os ≤ p :=
      Int.le_trans (Int.le_max_right _ _) hp
    have hu := used_le_peak os (after o (step o s).out a) (step o s).state
    have hn1 : (after o (step o s).out a).next ≤ p + 29 := by
      rcases next_step h o hg.1 with h3 | ⟨h3, _⟩ <;> omega
    have hn2 : exact → (after o (step o s).out a).next ≤ p := by
      intro hx
      have := h2 hx
      rcases next_step h o hg.1 with h3 | ⟨_, h3⟩
      · omega
      · have := h3 hx; omega
    rcases step_cap h o hg.1 with hc | ⟨hc, ht⟩
    · exact ih hF' hg.2 (hc.2.2.1.trans hnum) (hc.2.2.2.trans hden) hn1 hn2 hp' (by rw [hc.1]; exact g1)
        (by rw [hc.1]; exact g2) (by rw [hc.1]; exact g3)
    · have hgrow : ∀ q : Int, (after o (step o s).out a).next ≤ q →
          (s.capacity = c0 ∨ s.capacity * num < 2 * q * den) →
          ((step o s).state.capacity = c0 ∨ (step o s).state.capacity * num < 2 * q * den) := by
        intro q hq hold
        rcases h.thr with hthr | ⟨hfull, _⟩
        · right
          have hd : (0 : Int) < den := by have := h.lf; omega
          rw [hthr, hnum, hden] at ht
          unfold threshold at ht
          have h5 : s.capacity * num < (after o (step o s).out a).next * den :=
            (Int.ediv_lt_iff_lt_mul hd).1 ht
          have h6 : (after o (step o s).out a).next * den ≤ q * den :=
            Int.mul_le_mul_of_nonneg_right hq (by omega)
          have h7 : (step o s).state.capacity * num ≤ 2 * s.capacity * num :=
            Int.mul_le_mul_of_nonneg_right hc.2.1 (by omega)
          have h8 : 2 * s.capacity * num = 2 * (s.capacity * num) := by ring
          have h9 : 2 * q * den = 2 * (q * den) := by ring
          omega
        · have := hF'.cap_pos
          have he : (step o s).state.capacity = s.capacity := by have := hc.1; omega
          rw [he]; exact hold
      exact ih hF' hg.2 (hc.2.2.1.trans hnum) (hc.2.2.2.trans hden) hn1 hn2 hp'
        (Int.le_trans g1 hc.1) (hgrow _ hn1 g2) (fun hx => hgrow _ (hn2 hx) (g3 hx))

/-- C102: after every history, the capacity is the initial one (the next power of two of the capacity
asked for), or it is larger and `capacity * loadFactor` is less than twice the peak number of entries in
use (plus 29 if `capacity * loadFactor < 1/2` at construction). -/
theorem C102_capacity (hash : K → BitVec 32) (eq : K → K → Bool) {ic : Int} {num den : Nat}
    {s : Index K V} (hnew : Index.new hash eq ic num den = .ok s) (ops : List (Op K V))
    (hg : Guarded (empty hash eq) s ops) :
    ∃ c, result .capacity (final s ops) = .ok (.int c) ∧ nextPowerOf2 ic ≤ c ∧
      (c = nextPowerOf2 ic ∨ c * num < 2 * (peak (empty hash eq) s ops + 29) * den) ∧
      ((den : Int) ≤ 2 * nextPowerOf2 ic * num →
        c = nextPowerOf2 ic ∨ c * num < 2 * peak (empty hash eq) s ops * den) := by
  have hI : Inv ((den : Int) ≤ 2 * nextPowerOf2 ic * num) s (empty hash eq) [] := new_inv hash eq hnew
  have hpk := used_le_peak ops (empty hash eq) s
  have h0 : (empty hash eq : Abs K V).used = 0 := by simp [empty, Abs.used]
  have hz : (empty hash eq : Abs K V).next = 0 := rfl
  rw [h0] at hpk
  have hs : s.capacity = nextPowerOf2 ic ∧ s.lfNum = num ∧ s.lfDen = den := by
    unfold Index.new at hnew
    split at hnew
    · cases hnew
    · split at hnew
      · cases hnew
      · injection hnew with hnew; subst hnew; exact ⟨rfl, rfl, rfl⟩
  obtain ⟨h1, h2, h3⟩ := cap_history (nextPowerOf2 ic) num den ops hI hg hs.2.1 hs.2.2
    (p := peak (empty hash eq) s ops) (by rw [hz]; omega) (by intro _; rw [hz]; omega) (Int.le_refl _)
    (by omega) (.inl hs.1) (fun _ => .inl hs.1)
  exact ⟨_, rfl, h1, h2, h3⟩

/-- C102: a call never makes the capacity smaller, and at most doubles it. -/
theorem C102_never_shrinks {exact : Prop} {s : Index K V} {a : Abs K V} (h : Reach exact s a)
    (o : Op K V) (hg : Guard o a) :
    ∃ c c', result .capacity s = .ok (.int c) ∧ result .capacity (step o s).state = .ok (.int c') ∧
      c ≤ c' ∧ c' ≤ 2 * c := by
  obtain ⟨F, hF⟩ := reach_inv h
  have hp := hF.cap_pos
  refine ⟨_, _, rfl, rfl, ?_⟩
  rcases step_cap hF o hg with hc | ⟨hc, _⟩
  · rw [hc.1]; omega
  · exact ⟨hc.1, hc.2.1⟩

/- Non-vacuity: 3 entries in use at the peak, load factor 1/2, capacity 8 after many calls. -/
example : ∃ s, exampleNew 2 1 2 = .ok s ∧
    let ops : List (Op Int Int) := [.put 1 11, .put 9 99, .put 2 22, .remove 9, .put 17 5, .remove 1,
      .put 25 6, .remove 2, .put 33 7]
    result .capacity (final s ops) = .ok (.int 8) ∧
    peak (empty (fun k : Int => BitVec.ofInt 32 k) (fun a b => a == b)) s ops = 3 :=
  ⟨_, rfl, by decide +kernel⟩

end Verif

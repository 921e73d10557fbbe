import Verif.Proofs.Heap5
set_option linter.unusedSectionVars false
/-! `removeAt` of an entry that was never handed out. -/
namespace Verif.HeapProof
open Verif.HeapSpec Verif.Heap
variable {K V : Type}

theorem firstLoop_any {s : Heap K V} (h : Good s s.size) (k : K) : ∀ (n : Nat) (i : Int), 0 ≤ i → i + n = s.size →
    (∃ p, i ≤ p ∧ p < s.size ∧ s.comp.compare k (s.keys.get (s.tree.get p)) = 0 ∧ firstLoop k n i s = .ok (s.tree.get p) s) ∨
    ((∀ p, i ≤ p → p < s.size → s.comp.compare k (s.keys.get (s.tree.get p)) ≠ 0) ∧ firstLoop k n i s = .ok (-1) s)
  | 0, i, h0, hn => .inr ⟨fun p p0 p1 => by omega, rfl⟩
  | n + 1, i, h0, hn => by
    have hml := h.ml
    have hkl := h.kl
    have hr := (h.at' i h0 (by omega)).1
    rw [firstLoop, JM.bind_ok (rd_ok _ (by omega)), JM.bind_ok (rd_ok _ (by omega)), JM.bind_ok (JM.get_apply _)]
    by_cases hc : s.comp.compare k (s.keys.get (s.tree.get i)) = 0
    · rw [if_pos hc]
      exact .inl ⟨i, by omega, by omega, hc, rfl⟩
    · rw [if_neg hc]
      rcases firstLoop_any h k n (i + 1) (by omega) (by omega) with ⟨p, p0, p1, p2⟩ | ⟨hx, hy⟩
      · exact .inl ⟨p, by omega, p1, p2⟩
      · refine .inr ⟨fun p p0 p1 => ?_, hy⟩
        by_cases hp : p = i
        · rw [hp]; exact hc
        · exact hx p (by omega) p1

/-- What is left in the tree after `removeAt` of an entry that was never handed out: all but the root. -/
structure Lost (s s' : Heap K V) (a : Abs K V) : Prop where
  good : Good s' s'.size
  sz : s'.size = s.size - 1
  cmp : s'.comp = a.cmp
  mem : ∀ e, (e ∈ a.live ∧ e ≠ s.tree.get 0) ↔ ∃ p, 0 ≤ p ∧ p < s'.size ∧ s'.tree.get p = e
  keys : ∀ e ∈ a.live, s'.keys.get e = a.keyOf e

theorem removeAt_unused {s : Heap K V} {a : Abs K V} (h : Inv s a) {e : Int} (he : used a ≤ e) (hc : e < a.cap)
    (hl : a.live ≠ []) : ∃ s', removeAt e s = .ok () s' ∧ Lost s s' a := by
  have hul := h.used_le
  have hil := h.good.il
  have hkl := h.good.kl
  have hvl := h.vl
  have hsl := h.size_le
  have hsz := h.sz
  have hcap := h.cap
  have hln := live_nil h
  have hs0 : s.size ≠ 0 := fun hx => hl (hln.2 hx)
  have hinv := h.unused e he (by omega)
  have hr := h.tree_rng (p := s.size - 1) (by omega) (by omega)
  have hpre : removeAt e s =
      if (0 : Int) = s.size - 1 then .ok () (unplaced s e)
      else (do
        let at' ← filterUp 0 ((s.keys.set e s.defaultKey).get (s.tree.get (s.size - 1))) (s.tree.get (s.size - 1))
        filterDown at' ((s.keys.set e s.defaultKey).get (s.tree.get (s.size - 1)))
          (s.tree.get (s.size - 1)) : JM (Heap K V) Unit) (unplaced s e) := by
    unfold removeAt
    rw [JM.bind_ok (JM.get_apply _), if_neg (by omega), JM.bind_ok (rd_ok _ (by omega)), hinv, if_neg (by omega)]
    rw [JM.bind_ok (wr_ok _ _ (by omega))]
    unfold clearValueAt
    rw [JM.bind_ok (s' := { s with
        keys := s.keys.set e s.defaultKey
        values := s.values.set e s.defaultValue }) (a := ()) (by
      rw [JM.bind_ok (JM.get_apply _)]
      exact wr_ok _ _ (by show 0 ≤ e ∧ e < (s.values.len : Int); omega))]
    rw [JM.bind_ok (JM.modify_apply _ _)]
    simp only
    rw [JM.bind_ok (rd_ok _ (by show 0 ≤ s.size - 1 ∧ s.size - 1 < (s.tree.len : Int); omega))]
    rw [JM.bind_ok (rd_ok _ (by
      show 0 ≤ s.tree.get (s.size - 1) ∧ s.tree.get (s.size - 1) < (s.keys.len : Int); omega))]
    rw [JM.bind_ok (JM.modify_apply _ _)]
    rw [JM.bind_ok (wr_ok _ _ (by show 0 ≤ s.size - 1 ∧ s.size - 1 < (s.tree.len : Int); omega))]
    rw [JM.bind_ok (wr_ok _ _ (by show 0 ≤ e ∧ e < (s.inverse.len : Int); omega))]
    split <;> rfl
  have hne : ∀ p, 0 ≤ p → p < s.size → s.tree.get p ≠ e := fun p p0 p1 => by
    have := h.tree_rng p0 (by omega : p < used a); omega
  have hT : ∀ p, p ≠ s.size - 1 → (unplaced s e).tree.get p = s.tree.get p := fun p hp => Arr.get_set_ne _ _ hp
  have hI : ∀ x, x ≠ e → (unplaced s e).inverse.get x = s.inverse.get x := fun x hx => Arr.get_set_ne _ _ hx
  have hK : ∀ x ∈ a.live, (unplaced s e).keys.get x = a.keyOf x := by
    intro x hx
    have := h.rng x (.inl hx)
    rw [← h.keys x this.1 (by omega)]
    exact Arr.get_set_ne _ _ (by omega)
  have hsu : (unplaced s e).size = s.size - 1 := rfl
  rw [hpre]
  by_cases hlast : (0 : Int) = s.size - 1
  · rw [if_pos hlast]
    refine ⟨_, rfl, ⟨⟨hil, hkl, by rw [hsu]; show _ ≤ (s.tree.len : Int); omega, fun p p0 p1 => by rw [hsu] at p1; omega⟩,
      hsu, h.cmp, fun x => ?_, hK⟩⟩
    constructor
    · rintro ⟨hx, hx0⟩
      obtain ⟨p, p0, p1, p2⟩ := (h.mem x).1 hx
      have : p = 0 := by omega
      rw [this] at p2
      exact absurd p2.symm hx0
    · rintro ⟨p, p0, p1, -⟩
      rw [hsu] at p1
      omega
  · rw [if_neg hlast]
    have hpos : Pos (unplaced s e) (s.size - 1) 0 (s.tree.get (s.size - 1)) := by
      refine ⟨hil, hkl, by show _ ≤ (s.tree.len : Int); omega, by show _ ∧ _ < (s.tree.len : Int); omega, fun p p0 p1 hp => ?_⟩
      show (0 ≤ (unplaced s e).tree.get p ∧ (unplaced s e).tree.get p < (s.tree.len : Int)) ∧ _
      rw [hT p (by omega), hI _ (hne p p0 (by omega))]
      obtain ⟨g1, g2⟩ := h.good.at' p p0 (by omega)
      exact ⟨g1, g2, fun hx => by have := h.inj ⟨p0, by omega⟩ ⟨by omega, by omega⟩ hx; omega⟩
    obtain ⟨s', e1, ⟨hsh, tl, il, frm⟩, e3, e4, e5, e6⟩ :=
      sift_spec (by have := h.big; omega) (unplaced s e) hpos (by omega) (by rw [hsu]; omega) (by rw [hsu]; exact Int.le_refl _)
    rw [hsu] at e4
    obtain ⟨A, I, hs'⟩ := hsh
    have hz' : s'.size = s.size - 1 := by rw [hs']; rfl
    refine ⟨s', e1, ⟨by rw [hz']; exact e3, hz', by rw [hs']; exact h.cmp, fun x => ?_, fun x hx => by rw [hs']; exact hK x hx⟩⟩
    rw [hz', e4 x]
    constructor
    · rintro ⟨hx, hx0⟩
      obtain ⟨p, p0, p1, p2⟩ := (h.mem x).1 hx
      have hp0 : p ≠ 0 := by rintro rfl; exact hx0 p2.symm
      by_cases hps : p = s.size - 1
      · exact ⟨0, by omega, by omega, by unfold upd; rw [if_pos rfl, ← p2, hps]⟩
      · exact ⟨p, p0, by omega, by unfold upd; rw [if_neg hp0, hT p hps]; exact p2⟩
    · rintro ⟨p, p0, p1, p2⟩
      unfold upd at p2
      split at p2
      · rw [← p2]
        exact ⟨h.live_at (by omega) (by omega), fun hx => by
          have := h.inj (p := s.size - 1) (q := 0) ⟨by omega, by omega⟩ ⟨by omega, by omega⟩ hx; omega⟩
      · rename_i hp
        rw [hT p (by omega)] at p2
        rw [← p2]
        exact ⟨h.live_at p0 (by omega), fun hx => by
          have := h.inj (p := p) (q := 0) ⟨by omega, by omega⟩ ⟨by omega, by omega⟩ hx; omega⟩

end Verif.HeapProof

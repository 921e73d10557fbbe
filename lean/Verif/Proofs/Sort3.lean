import Verif.Proofs.Sort2
set_option linter.unusedSectionVars false
/-! The partition. -/
namespace Verif.SortProof
open Verif.CompanionSort Verif.SortSpec
variable {K V : Type} {cmp : K → K → Except Err Int} {P : K → Prop} {v : K}

def Lt (cmp : K → K → Except Err Int) (v x : K) : Prop := ∃ r, cmp x v = .ok r ∧ r < 0
def Eq0 (cmp : K → K → Except Err Int) (v x : K) : Prop := cmp x v = .ok 0
def Gt (cmp : K → K → Except Err Int) (v x : K) : Prop := ∃ r, cmp x v = .ok r ∧ 0 < r

/-- KeyValueCompanionSort.ftl:55 "Invariant: v* (<v)* (>v)* v*", while the middle is not classified yet. -/
structure PInv (cmp : K → K → Except Err Int) (v : K) (lo hi a b c d : Int) (s : Arrs K V) : Prop where
  ha : lo ≤ a
  hab : a ≤ b
  hbc : b ≤ c + 1
  hcd : c ≤ d
  hd : d < hi
  left : ∀ k, lo ≤ k → k < a → Eq0 cmp v (s.pri.get k)
  less : ∀ k, a ≤ k → k < b → Lt cmp v (s.pri.get k)
  more : ∀ k, c < k → k ≤ d → Gt cmp v (s.pri.get k)
  right : ∀ k, d < k → k < hi → Eq0 cmp v (s.pri.get k)

theorem PInv.inc_a {lo hi a b c d : Int} {s : Arrs K V} (h : PInv cmp v lo hi a b c d s) (hb : b ≤ c)
    (he : Eq0 cmp v (s.pri.get b)) : PInv cmp v lo hi (a + 1) (b + 1) c d (swapped s a b) := by
  obtain ⟨h1, h2, h3, h4, h5, hl, hm, hg, hr⟩ := h
  refine ⟨by omega, by omega, by omega, h4, h5, ?_, ?_, ?_, ?_⟩ <;> intro k hk1 hk2 <;> rw [swapped_pri]
  · by_cases e1 : k = b
    · rw [if_pos e1]
      have : a = b := by omega
      rw [this]; exact he
    · rw [if_neg e1]
      by_cases e2 : k = a
      · rw [if_pos e2]; exact he
      · rw [if_neg e2]; exact hl k hk1 (by omega)
  · by_cases e1 : k = b
    · rw [if_pos e1]; exact hm a (by omega) (by omega)
    · rw [if_neg e1, if_neg (by omega)]; exact hm k (by omega) (by omega)
  · rw [if_neg (by omega), if_neg (by omega)]; exact hg k hk1 hk2
  · rw [if_neg (by omega), if_neg (by omega)]; exact hr k hk1 hk2

theorem PInv.inc_b {lo hi a b c d : Int} {s : Arrs K V} (h : PInv cmp v lo hi a b c d s) (hb : b ≤ c)
    (he : Lt cmp v (s.pri.get b)) : PInv cmp v lo hi a (b + 1) c d s := by
  obtain ⟨h1, h2, h3, h4, h5, hl, hm, hg, hr⟩ := h
  refine ⟨h1, by omega, by omega, h4, h5, hl, ?_, hg, hr⟩
  intro k hk1 hk2
  by_cases e : k = b
  · rw [e]; exact he
  · exact hm k hk1 (by omega)

theorem PInv.dec_d {lo hi a b c d : Int} {s : Arrs K V} (h : PInv cmp v lo hi a b c d s) (hb : b ≤ c)
    (he : Eq0 cmp v (s.pri.get c)) : PInv cmp v lo hi a b (c - 1) (d - 1) (swapped s c d) := by
  obtain ⟨h1, h2, h3, h4, h5, hl, hm, hg, hr⟩ := h
  refine ⟨by omega, by omega, by omega, by omega, by omega, ?_, ?_, ?_, ?_⟩ <;> intro k hk1 hk2 <;> rw [swapped_pri]
  · rw [if_neg (by omega), if_neg (by omega)]; exact hl k hk1 hk2
  · rw [if_neg (by omega), if_neg (by omega)]; exact hm k hk1 hk2
  · rw [if_neg (by omega)]
    by_cases e2 : k = c
    · rw [if_pos e2]; exact hg d (by omega) (by omega)
    · rw [if_neg e2]; exact hg k (by omega) (by omega)
  · by_cases e1 : k = d
    · rw [if_pos e1]; exact he
    · rw [if_neg e1, if_neg (by omega)]; exact hr k (by omega) hk2

theorem PInv.dec_c {lo hi a b c d : Int} {s : Arrs K V} (h : PInv cmp v lo hi a b c d s) (hb : b ≤ c)
    (he : Gt cmp v (s.pri.get c)) : PInv cmp v lo hi a b (c - 1) d s := by
  obtain ⟨h1, h2, h3, h4, h5, hl, hm, hg, hr⟩ := h
  refine ⟨h1, by omega, by omega, by omega, h5, hl, hm, ?_, hr⟩
  intro k hk1 hk2
  by_cases e : k = c
  · rw [e]; exact he
  · exact hg k (by omega) hk2

theorem PInv.exchange {lo hi a b c d : Int} {s : Arrs K V} (h : PInv cmp v lo hi a b c d s) (hb : b ≤ c)
    (hg' : Gt cmp v (s.pri.get b)) (hl' : Lt cmp v (s.pri.get c)) :
    PInv cmp v lo hi a (b + 1) (c - 1) d (swapped s b c) := by
  have hne : b < c := by
    rcases Int.lt_or_eq_of_le hb with h | h
    · exact h
    · exfalso
      rw [h] at hg'
      obtain ⟨r, e1, e2⟩ := hg'
      obtain ⟨r', e1', e2'⟩ := hl'
      rw [e1] at e1'; cases e1'; omega
  obtain ⟨h1, h2, h3, h4, h5, hl, hm, hg, hr⟩ := h
  refine ⟨by omega, by omega, by omega, by omega, by omega, ?_, ?_, ?_, ?_⟩ <;> intro k hk1 hk2 <;> rw [swapped_pri]
  · rw [if_neg (by omega), if_neg (by omega)]; exact hl k hk1 hk2
  · rw [if_neg (by omega)]
    by_cases e2 : k = b
    · rw [if_pos e2]; exact hl'
    · rw [if_neg e2]; exact hm k hk1 (by omega)
  · by_cases e1 : k = c
    · rw [if_pos e1]; exact hg'
    · rw [if_neg e1, if_neg (by omega)]; exact hg k (by omega) hk2
  · rw [if_neg (by omega), if_neg (by omega)]; exact hr k hk1 hk2

theorem scanB_sat {lo hi c d : Int} (hv : P v) : ∀ (f : Nat) (a b : Int) (s : Arrs K V),
    InBoth s lo (hi - lo) → (∀ k, lo ≤ k ∧ k < hi → P (s.pri.get k)) →
    PInv cmp v lo hi a b c d s → c - b + 1 < f →
    Sat (scanB cmp v c f a b) s
      (fun r t => Moves lo hi s t ∧ PInv cmp v lo hi r.1 r.2 c d t ∧ b ≤ r.2 ∧ (r.2 ≤ c → Gt cmp v (t.pri.get r.2)))
      (fun e t => Moves lo hi s t ∧ Throws cmp P e)
  | 0, a, b, s, _, _, h, hf => by have := h.hbc; omega
  | f + 1, a, b, s, hs, hP, h, hf => by
    have g1 := h.ha; have g2 := h.hab; have g3 := h.hbc; have g4 := h.hcd; have g5 := h.hd
    obtain ⟨s1, s2, s3, s4⟩ := hs
    unfold scanB
    by_cases hbc : b ≤ c
    · rw [if_pos hbc]
      have hPb : P (s.pri.get b) := hP b (by omega)
      refine Sat.ok_bind (rd_ok Arrs.pri (by omega)) ?_
      refine Sat.bind ((call_sat (cmp := cmp) _ v s).mono (fun _ _ h => h)
        (fun e t h => ⟨by rw [h.1]; exact Moves.refl _ _ _, _, _, hPb, hv, h.2⟩)) ?_
      rintro r t ⟨rfl, hr⟩
      by_cases hr0 : r ≤ 0
      · rw [if_pos hr0]
        refine Sat.ok_bind (rd_ok Arrs.pri (by omega)) ?_
        refine Sat.bind ((call_sat (cmp := cmp) _ v t).mono (fun _ _ h => h)
          (fun e u h => ⟨by rw [h.1]; exact Moves.refl _ _ _, _, _, hPb, hv, h.2⟩)) ?_
        rintro r' u ⟨rfl, hr'⟩
        have : r' = r := by rw [hr] at hr'; cases hr'; rfl
        subst this
        by_cases hz : r' = 0
        · rw [if_pos hz]
          refine Sat.ok_bind (swap_ok (lo := lo) (hi := hi) ⟨s1, s2, s3, s4⟩ (by omega) (by omega)) ?_
          have hm := moves_swapped u (lo := lo) (hi := hi) (a := a) (b := b) (by omega) (by omega)
          refine (scanB_sat hv f (a + 1) (b + 1) _ (hm.inBoth ⟨s1, s2, s3, s4⟩) (hm.forall hP)
            (h.inc_a hbc (by rw [hz] at hr; exact hr)) (by omega)).mono ?_ ?_
          · rintro r t ⟨q1, q2, q3, q4⟩
            exact ⟨hm.trans q1, q2, by omega, q4⟩
          · rintro e t ⟨q1, q2⟩; exact ⟨hm.trans q1, q2⟩
        · rw [if_neg hz]
          refine (scanB_sat hv f a (b + 1) _ ⟨s1, s2, s3, s4⟩ hP
            (h.inc_b hbc ⟨r', hr, by omega⟩) (by omega)).mono ?_ (fun _ _ h => h)
          rintro r t ⟨q1, q2, q3, q4⟩
          exact ⟨q1, q2, by omega, q4⟩
      · rw [if_neg hr0]
        exact Sat.pure ⟨Moves.refl _ _ _, h, Int.le_refl _, fun _ => ⟨r, hr, by omega⟩⟩
    · rw [if_neg hbc]
      exact Sat.pure ⟨Moves.refl _ _ _, h, Int.le_refl _, fun hh => absurd hh hbc⟩

theorem scanC_sat {lo hi a b : Int} (hv : P v) : ∀ (f : Nat) (c d : Int) (s : Arrs K V),
    InBoth s lo (hi - lo) → (∀ k, lo ≤ k ∧ k < hi → P (s.pri.get k)) →
    PInv cmp v lo hi a b c d s → c - b + 1 < f →
    Sat (scanC cmp v b f c d) s
      (fun r t => Moves lo hi s t ∧ PInv cmp v lo hi a b r.1 r.2 t ∧ r.1 ≤ c ∧
        (b ≤ r.1 → Lt cmp v (t.pri.get r.1) ∧ t.pri.get b = s.pri.get b))
      (fun e t => Moves lo hi s t ∧ Throws cmp P e)
  | 0, c, d, s, _, _, h, hf => by have := h.hbc; omega
  | f + 1, c, d, s, hs, hP, h, hf => by
    have g1 := h.ha; have g2 := h.hab; have g3 := h.hbc; have g4 := h.hcd; have g5 := h.hd
    obtain ⟨s1, s2, s3, s4⟩ := hs
    unfold scanC
    by_cases hbc : c ≥ b
    · rw [if_pos hbc]
      have hPc : P (s.pri.get c) := hP c (by omega)
      refine Sat.ok_bind (rd_ok Arrs.pri (by omega)) ?_
      refine Sat.bind ((call_sat (cmp := cmp) _ v s).mono (fun _ _ h => h)
        (fun e t h => ⟨by rw [h.1]; exact Moves.refl _ _ _, _, _, hPc, hv, h.2⟩)) ?_
      rintro r t ⟨rfl, hr⟩
      by_cases hr0 : r ≥ 0
      · rw [if_pos hr0]
        refine Sat.ok_bind (rd_ok Arrs.pri (by omega)) ?_
        refine Sat.bind ((call_sat (cmp := cmp) _ v t).mono (fun _ _ h => h)
          (fun e u h => ⟨by rw [h.1]; exact Moves.refl _ _ _, _, _, hPc, hv, h.2⟩)) ?_
        rintro r' u ⟨rfl, hr'⟩
        have : r' = r := by rw [hr] at hr'; cases hr'; rfl
        subst this
        by_cases hz : r' = 0
        · rw [if_pos hz]
          refine Sat.ok_bind (swap_ok (lo := lo) (hi := hi) ⟨s1, s2, s3, s4⟩ (by omega) (by omega)) ?_
          have hm := moves_swapped u (lo := lo) (hi := hi) (a := c) (b := d) (by omega) (by omega)
          refine (scanC_sat hv f (c - 1) (d - 1) _ (hm.inBoth ⟨s1, s2, s3, s4⟩) (hm.forall hP)
            (h.dec_d hbc (by rw [hz] at hr; exact hr)) (by omega)).mono ?_ ?_
          · rintro r t ⟨q1, q2, q3, q4⟩
            refine ⟨hm.trans q1, q2, by omega, fun hb => ⟨(q4 hb).1, ?_⟩⟩
            rw [(q4 hb).2, swapped_pri, if_neg (by omega), if_neg (by omega)]
          · rintro e t ⟨q1, q2⟩; exact ⟨hm.trans q1, q2⟩
        · rw [if_neg hz]
          refine (scanC_sat hv f (c - 1) d _ ⟨s1, s2, s3, s4⟩ hP
            (h.dec_c hbc ⟨r', hr, by omega⟩) (by omega)).mono ?_ (fun _ _ h => h)
          rintro r t ⟨q1, q2, q3, q4⟩
          exact ⟨q1, q2, by omega, q4⟩
      · rw [if_neg hr0]
        exact Sat.pure ⟨Moves.refl _ _ _, h, Int.le_refl _, fun _ => ⟨⟨r, hr, by omega⟩, rfl⟩⟩
    · rw [if_neg hbc]
      exact Sat.pure ⟨Moves.refl _ _ _, h, Int.le_refl _, fun hh => absurd hh hbc⟩

theorem partition_sat {lo hi : Int} (hv : P v) : ∀ (f : Nat) (a b c d : Int) (s : Arrs K V),
    InBoth s lo (hi - lo) → (∀ k, lo ≤ k ∧ k < hi → P (s.pri.get k)) →
    PInv cmp v lo hi a b c d s → c - b + 1 < f →
    Sat (partition cmp v f a b c d) s
      (fun r t => Moves lo hi s t ∧ PInv cmp v lo hi r.1 r.2.1 r.2.2.1 r.2.2.2 t ∧ r.2.2.1 < r.2.1)
      (fun e t => Moves lo hi s t ∧ Throws cmp P e)
  | 0, a, b, c, d, s, _, _, h, hf => by have := h.hbc; omega
  | f + 1, a, b, c, d, s, hs, hP, h, hf => by
    unfold partition
    have h3 := h.hbc
    refine Sat.bind (scanB_sat hv _ a b s hs hP h (by omega)) ?_
    rintro ⟨a', b'⟩ t ⟨m1, i1, p1, q1⟩
    have h4 := i1.hbc
    dsimp only at i1 p1 q1 h4 ⊢
    refine Sat.bind ((scanC_sat hv _ c d t (m1.inBoth hs) (m1.forall hP) i1 (by omega)).mono (fun _ _ h => h)
      (fun e u h => ⟨m1.trans h.1, h.2⟩)) ?_
    rintro ⟨c', d'⟩ u ⟨m2, i2, p2, q2⟩
    dsimp only at i2 p2 q2 ⊢
    have m12 := m1.trans m2
    by_cases hbc : b' > c'
    · rw [if_pos hbc]
      exact Sat.pure ⟨m12, i2, by dsimp only; omega⟩
    · rw [if_neg hbc]
      have i3 := i2.exchange (by omega) (by rw [(q2 (by omega)).2]; exact q1 (by omega)) (q2 (by omega)).1
      have g1 := i2.ha; have g2 := i2.hab; have g4 := i2.hcd; have g5 := i2.hd
      refine Sat.ok_bind (swap_ok (m12.inBoth hs) (by omega) (by omega)) ?_
      have m3 := moves_swapped u (lo := lo) (hi := hi) (a := b') (b := c') (by omega) (by omega)
      have m123 := m12.trans m3
      refine (partition_sat hv f _ _ _ _ _ (m123.inBoth hs) (m123.forall hP) i3 (by omega)).mono ?_ ?_
      · rintro r w ⟨w1, w2, w3⟩; exact ⟨m123.trans w1, w2, w3⟩
      · rintro e w ⟨w1, w2⟩; exact ⟨m123.trans w1, w2⟩

theorem vecswapN_ok {lo hi : Int} : ∀ (n : Nat) (a b : Int) (s : Arrs K V), InBoth s lo (hi - lo) →
    lo ≤ a → a + n ≤ b → b + n ≤ hi →
    ∃ t, vecswapN n a b s = .ok () t ∧ Moves lo hi s t ∧
      ∀ i, t.pri.get i = if a ≤ i ∧ i < a + n then s.pri.get (i - a + b)
        else if b ≤ i ∧ i < b + n then s.pri.get (i - b + a) else s.pri.get i
  | 0, a, b, s, _, _, _, _ => by
    refine ⟨s, rfl, Moves.refl _ _ _, fun i => ?_⟩
    rw [if_neg (by omega), if_neg (by omega)]
  | n + 1, a, b, s, hs, h1, h2, h3 => by
    have hm := moves_swapped s (lo := lo) (hi := hi) (a := a) (b := b) (by omega) (by omega)
    obtain ⟨t, e, m, hget⟩ := vecswapN_ok n (a + 1) (b + 1) (swapped s a b) (hm.inBoth hs) (by omega) (by omega) (by omega)
    refine ⟨t, ?_, hm.trans m, fun i => ?_⟩
    · unfold vecswapN
      rw [JM.bind_ok (swap_ok hs (by omega) (by omega))]
      exact e
    · rw [hget i]
      simp only [swapped_pri]
      by_cases c1 : i = a
      · rw [if_neg (by omega), if_neg (by omega), if_neg (by omega), if_pos c1, if_pos (by omega)]
        congr 1; omega
      · by_cases c2 : i = b
        · rw [if_neg (by omega), if_neg (by omega), if_pos c2, if_neg (by omega), if_pos (by omega)]
          congr 1; omega
        · by_cases c3 : a ≤ i ∧ i < a + (n + 1 : Nat)
          · rw [if_pos (by omega), if_neg (by omega), if_neg (by omega), if_pos c3]
            congr 1; omega
          · rw [if_neg (by omega), if_neg c3]
            by_cases c4 : b ≤ i ∧ i < b + (n + 1 : Nat)
            · rw [if_pos (by omega), if_neg (by omega), if_neg (by omega), if_pos c4]
              congr 1; omega
            · rw [if_neg (by omega), if_neg c2, if_neg c1, if_neg c4]

end Verif.SortProof

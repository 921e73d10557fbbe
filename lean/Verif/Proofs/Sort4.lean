import Verif.Proofs.Sort3
set_option linter.unusedSectionVars false
/-! The whole sort. -/
namespace Verif.SortProof
open Verif.CompanionSort Verif.SortSpec
variable {K V : Type} {cmp : K → K → Except Err Int} {P : K → Prop} {v : K}

/-- Partition elements swapped back to the middle: `(<v)* v* (>v)*`. -/
structure Parts (cmp : K → K → Except Err Int) (v : K) (lo p q hi : Int) (s : Arrs K V) : Prop where
  less : ∀ k, lo ≤ k → k < p → Lt cmp v (s.pri.get k)
  same : ∀ k, p ≤ k → k < q → Eq0 cmp v (s.pri.get k)
  more : ∀ k, q ≤ k → k < hi → Gt cmp v (s.pri.get k)

theorem back_sat {lo hi a b c d : Int} {s : Arrs K V} (hs : InBoth s lo (hi - lo)) (h : PInv cmp v lo hi a b c d s)
    (hbc : c < b) :
    ∃ t u, vecswap lo (b - min (a - lo) (b - a)) (min (a - lo) (b - a)) s = .ok () t ∧
      vecswap b (hi - min (d - c) (hi - d - 1)) (min (d - c) (hi - d - 1)) t = .ok () u ∧
      Moves lo hi s t ∧ Moves lo hi s u ∧ Parts cmp v lo (lo + (b - a)) (hi - (d - c)) hi u := by
  obtain ⟨h1, h2, h3, h4, h5, hl, hm, hg, hr⟩ := h
  have hb : b = c + 1 := by omega
  unfold vecswap
  generalize hx : min (a - lo) (b - a) = x
  generalize hy : min (d - c) (hi - d - 1) = y
  have x1 : x ≤ a - lo ∧ x ≤ b - a ∧ (x = a - lo ∨ x = b - a) := by omega
  have y1 : y ≤ d - c ∧ y ≤ hi - d - 1 ∧ (y = d - c ∨ y = hi - d - 1) := by omega
  obtain ⟨t, e1, m1, g1⟩ := vecswapN_ok (lo := lo) (hi := hi) x.toNat lo (b - x) s hs (by omega) (by omega) (by omega)
  obtain ⟨u, e2, m2, g2⟩ := vecswapN_ok (lo := lo) (hi := hi) y.toNat b (hi - y) t (m1.inBoth hs) (by omega) (by omega) (by omega)
  have hxn : ((x.toNat : Nat) : Int) = x := by omega
  have hyn : ((y.toNat : Nat) : Int) = y := by omega
  rw [hxn] at g1
  rw [hyn] at g2
  refine ⟨t, u, e1, e2, m1, m1.trans m2, ?_, ?_, ?_⟩
  · intro k k1 k2
    rw [g2, if_neg (by omega), if_neg (by omega), g1]
    by_cases z1 : lo ≤ k ∧ k < lo + x
    · rw [if_pos z1]; exact hm _ (by omega) (by omega)
    · rw [if_neg z1, if_neg (by omega)]; exact hm _ (by omega) (by omega)
  · intro k k1 k2
    by_cases kb : k < b
    · rw [g2, if_neg (by omega), if_neg (by omega), g1, if_neg (by omega)]
      by_cases z1 : b - x ≤ k ∧ k < b - x + x
      · rw [if_pos z1]; exact hl _ (by omega) (by omega)
      · rw [if_neg z1]; exact hl _ (by omega) (by omega)
    · rw [g2]
      by_cases z1 : b ≤ k ∧ k < b + y
      · rw [if_pos z1, g1, if_neg (by omega), if_neg (by omega)]; exact hr _ (by omega) (by omega)
      · rw [if_neg z1, if_neg (by omega), g1, if_neg (by omega), if_neg (by omega)]; exact hr _ (by omega) (by omega)
  · intro k k1 k2
    rw [g2, if_neg (by omega)]
    by_cases z1 : hi - y ≤ k ∧ k < hi - y + y
    · rw [if_pos z1, g1, if_neg (by omega), if_neg (by omega)]; exact hg _ (by omega) (by omega)
    · rw [if_neg z1, g1, if_neg (by omega), if_neg (by omega)]; exact hg _ (by omega) (by omega)

/-- Some element compares equal to the partition element. -/
theorem some_equal {lo hi a b c d : Int} {s t : Arrs K V} (hm : Moves lo hi s t) (h : PInv cmp v lo hi a b c d t)
    (hbc : c < b) (hrefl : ∀ r, cmp v v = .ok r → r = 0) {m : Int} (hmr : lo ≤ m ∧ m < hi) (hv : s.pri.get m = v) :
    b - a + (d - c) < hi - lo := by
  obtain ⟨j, hj, h1, _⟩ := hm.to m hmr
  rw [hv] at h1
  obtain ⟨g1, g2, g3, g4, g5, hl, hm', hg, hr⟩ := h
  by_cases z1 : j < a
  · omega
  · by_cases z2 : j < b
    · obtain ⟨r, e1, e2⟩ := hm' j (by omega) z2
      rw [h1] at e1
      have := hrefl r e1
      omega
    · by_cases z3 : j ≤ d
      · obtain ⟨r, e1, e2⟩ := hg j (by omega) z3
        rw [h1] at e1
        have := hrefl r e1
        omega
      · omega

theorem sorted_of_parts {c : K → K → Int} (hc : Good cmp P c) (hv : P v) {lo p q hi : Int} {s : Arrs K V}
    (hP : ∀ k, lo ≤ k ∧ k < hi → P (s.pri.get k)) (h : Parts cmp v lo p q hi s) (hp : lo ≤ p) (hpq : p ≤ q) (hq : q ≤ hi)
    (h1 : SortedOn c lo p s) (h2 : SortedOn c q hi s) : SortedOn c lo hi s := by
  have le : ∀ k, lo ≤ k → k < q → c (s.pri.get k) v ≤ 0 := by
    intro k k1 k2
    have e := hc.2 _ _ (hP k (by omega)) hv
    by_cases kp : k < p
    · obtain ⟨r, e1, e2⟩ := h.less k k1 kp
      rw [e] at e1; cases e1; omega
    · have e1 : cmp _ v = .ok 0 := h.same k (by omega) k2
      rw [e] at e1; have := Except.ok.inj e1; omega
  have ge : ∀ k, p ≤ k → k < hi → c v (s.pri.get k) ≤ 0 := by
    intro k k1 k2
    rw [hc.1.symm _ _ hv (hP k (by omega))]
    have e := hc.2 _ _ (hP k (by omega)) hv
    by_cases kp : q ≤ k
    · obtain ⟨r, e1, e2⟩ := h.more k kp k2
      rw [e] at e1; cases e1; omega
    · have e1 : cmp _ v = .ok 0 := h.same k (by omega) (by omega)
      rw [e] at e1; have := Except.ok.inj e1; omega
  intro i j hi1 hij hj
  by_cases z1 : j < p
  · exact h1 i j hi1 hij z1
  · by_cases z2 : q ≤ i
    · exact h2 i j z2 hij hj
    · exact hc.1.trans _ _ _ (hP i (by omega)) hv (hP j (by omega)) (le i hi1 (by omega)) (ge j (by omega) hj)

/-- Changing only part of the range by moving pairs keeps the classification. -/
theorem Parts.moves {lo p q hi lo' hi' : Int} {s t : Arrs K V} (h : Parts cmp v lo p q hi s) (hm : Moves lo' hi' s t)
    (hr : (lo ≤ lo' ∧ hi' ≤ p) ∨ (q ≤ lo' ∧ hi' ≤ hi)) (hpq : p ≤ q) (hp : lo ≤ p) (hq : q ≤ hi) : Parts cmp v lo p q hi t := by
  refine ⟨?_, ?_, ?_⟩ <;> intro k k1 k2
  · by_cases z : lo' ≤ k ∧ k < hi'
    · obtain ⟨j, hj, e, _⟩ := hm.from k z
      rw [e]; exact h.less j (by omega) (by omega)
    · rw [(hm.outside k (by omega)).1]; exact h.less k k1 k2
  · rw [(hm.outside k (by omega)).1]; exact h.same k k1 k2
  · by_cases z : lo' ≤ k ∧ k < hi'
    · obtain ⟨j, hj, e, _⟩ := hm.from k z
      rw [e]; exact h.more j (by omega) (by omega)
    · rw [(hm.outside k (by omega)).1]; exact h.more k k1 k2

theorem SortedOn.outside {c : K → K → Int} {lo hi lo' hi' : Int} {s t : Arrs K V} (h : SortedOn c lo hi s)
    (hm : Moves lo' hi' s t) (hd : hi ≤ lo' ∨ hi' ≤ lo) : SortedOn c lo hi t := by
  intro i j h1 h2 h3
  rw [(hm.outside i (by omega)).1, (hm.outside j (by omega)).1]
  exact h i j h1 h2 h3

theorem sortF_sat (hrefl : ∀ x, P x → ∀ r, cmp x x = .ok r → r = 0) : ∀ (f : Nat) (off len : Int) (s : Arrs K V),
    InBoth s off len → Sized s → len < f → (∀ k, off ≤ k ∧ k < off + len → P (s.pri.get k)) →
    Sat (sortF cmp f off len) s
      (fun _ t => Moves off (off + len) s t ∧ ∀ c, Good cmp P c → SortedOn c off (off + len) t)
      (fun e t => Moves off (off + len) s t ∧ Throws cmp P e)
  | 0, off, len, s, hs, _, hf, _ => by have := hs.2.1; omega
  | f + 1, off, len, s, hs, hz, hf, hP => by
    have hs' : InBoth s off (off + len - off) := by
      have : off + len - off = len := by omega
      rw [this]; exact hs
    have hs0 := hs
    have hz0 := hz
    obtain ⟨s1, s2, s3, s4⟩ := hs
    obtain ⟨z1, z2⟩ := hz
    have e0 : i32 (off + len) = off + len := i32_of_range (by omega)
    have e1 : i32 (off + len - 1) = off + len - 1 := i32_of_range (by omega)
    have e2 : i32 (len + off) = off + len := by rw [Int.add_comm]; exact e0
    unfold sortF
    refine Sat.ok_bind (JM.get_apply s) ?_
    simp only [e0, e1, e2]
    rw [if_neg (by omega), if_neg (by omega), if_neg (by omega)]
    by_cases h7 : len < 7
    · rw [if_pos h7]
      refine (insertion_sat (cmp := cmp) (P := P) (off := off) (hi := off + len) _ off s hs' (by omega) (by omega) (by omega) hP).mono ?_
        (fun _ _ h => h)
      rintro _ t ⟨m, hsort⟩
      refine ⟨m, fun c hc => hsort c hc ?_⟩
      intro p q _ _ _; omega
    · rw [if_neg h7]
      refine Sat.bind ((pivot_sat (cmp := cmp) hs0 hz0 (by omega) hP).mono (fun _ _ h => h)
        (fun e t h => ⟨by rw [h.1]; exact Moves.refl _ _ _, h.2⟩)) ?_
      rintro m t ⟨rfl, hm1, hm2⟩
      refine Sat.ok_bind (rd_ok Arrs.pri (by omega)) ?_
      generalize hv : t.pri.get m = v
      have hPv : P v := by rw [← hv]; exact hP m ⟨hm1, hm2⟩
      have i0 : PInv cmp v off (off + len) off off (off + len - 1) (off + len - 1) t :=
        ⟨by omega, by omega, by omega, by omega, by omega, fun k _ _ => by omega, fun k _ _ => by omega,
          fun k _ _ => by omega, fun k _ _ => by omega⟩
      refine Sat.bind (partition_sat hPv _ off off _ _ t hs' hP i0 (by omega)) ?_
      rintro ⟨a, b, c, d⟩ u ⟨mu, iu, hcb⟩
      dsimp only at iu hcb ⊢
      have hlt := some_equal mu iu hcb (hrefl v hPv) ⟨hm1, hm2⟩ hv
      obtain ⟨w, x, ew, ex, mw, mx, hx⟩ := back_sat (mu.inBoth hs') iu hcb
      refine Sat.ok_bind ew ?_
      refine Sat.ok_bind ex ?_
      have g1 := iu.ha; have g2 := iu.hab; have g3 := iu.hbc; have g4 := iu.hcd; have g5 := iu.hd
      have mtx := mu.trans mx
      have hPx := mtx.forall hP
      have hzx : Sized x := by unfold Sized; rw [mtx.1, mtx.2.1]; exact hz0
      have hpq : off + (b - a) ≤ off + len - (d - c) := by omega
      -- the first recursive call
      have call1 : Sat (JM.when (b - a > 1) (sortF cmp f off (b - a))) x
          (fun _ y => Moves off (off + (b - a)) x y ∧ ∀ c, Good cmp P c → SortedOn c off (off + (b - a)) y)
          (fun e y => Moves off (off + len) t y ∧ Throws cmp P e) := by
        by_cases hb : b - a > 1
        · rw [JM.when_pos hb]
          have hx1 : InBoth x off (b - a) := by
            have := mtx.inBoth hs0
            unfold InBoth at *; omega
          refine (sortF_sat hrefl f off (b - a) x hx1 hzx (by omega) (fun k hk => hPx k (by omega))).mono
            (fun _ _ h => h) (fun e y h => ⟨mtx.trans (h.1.widen (by omega) (by omega)), h.2⟩)
        · rw [JM.when_neg hb]
          exact Sat.pure ⟨Moves.refl _ _ _, fun c _ p q _ _ _ => by omega⟩
      refine Sat.bind call1 ?_
      rintro _ y ⟨my, hsy⟩
      have mty := mtx.trans (my.widen (lo' := off) (hi' := off + len) (by omega) (by omega))
      have hPy := mty.forall hP
      have hzy : Sized y := by unfold Sized; rw [mty.1, mty.2.1]; exact hz0
      have hy := hx.moves my (Or.inl ⟨by omega, by omega⟩) hpq (by omega) (by omega)
      have call2 : Sat (JM.when (d - c > 1) (sortF cmp f (off + len - (d - c)) (d - c))) y
          (fun _ w => Moves (off + len - (d - c)) (off + len) y w ∧
            ∀ o, Good cmp P o → SortedOn o (off + len - (d - c)) (off + len) w)
          (fun e w => Moves off (off + len) t w ∧ Throws cmp P e) := by
        have ee : off + len - (d - c) + (d - c) = off + len := by omega
        by_cases hb : d - c > 1
        · rw [JM.when_pos hb]
          have hx1 : InBoth y (off + len - (d - c)) (d - c) := by
            have := mty.inBoth hs0
            unfold InBoth at *; omega
          have := sortF_sat hrefl f (off + len - (d - c)) (d - c) y hx1 hzy (by omega) (fun k hk => hPy k (by omega))
          rw [ee] at this
          refine this.mono (fun _ _ h => h) (fun e y h => ⟨mty.trans (h.1.widen (by omega) (by omega)), h.2⟩)
        · rw [JM.when_neg hb]
          exact Sat.pure ⟨Moves.refl _ _ _, fun o _ p q _ _ _ => by omega⟩
      refine call2.mono ?_ (fun _ _ h => h)
      rintro _ w ⟨mw', hsw⟩
      have mtw := mty.trans (mw'.widen (lo' := off) (hi' := off + len) (by omega) (by omega))
      refine ⟨mtw, fun o ho => ?_⟩
      have hw := hy.moves mw' (Or.inr ⟨by omega, by omega⟩) hpq (by omega) (by omega)
      exact sorted_of_parts ho hPv (mtw.forall hP) hw (by omega) hpq (by omega)
        ((hsy o ho).outside mw' (Or.inl (by omega))) (hsw o ho)

end Verif.SortProof

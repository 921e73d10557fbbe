import Verif.Proofs.Index2
/-! Proofs about the indexed map, part 3: rehash. -/
set_option linter.unusedSectionVars false
namespace Verif
namespace Index
open IndexSpec
variable {K V : Type} [Inhabited K] [Inhabited V]

theorem cast_pow2 (k : Nat) : ((2 ^ k : Nat) : Int) = (2 : Int) ^ k := by push_cast; rfl

theorem pow2_le {k n : Nat} (hk : k ≤ n) : (2 : Int) ^ k ≤ 2 ^ n := by
  have := Nat.pow_le_pow_right (n := 2) (by decide) hk
  rw [← cast_pow2, ← cast_pow2]; omega

theorem pow2_lt {k n : Nat} (hk : k < n) : (2 : Int) ^ k < 2 ^ n := by
  have := Nat.pow_lt_pow_right (a := 2) (by decide) hk
  rw [← cast_pow2, ← cast_pow2]; omega

theorem pow2_29 : (2 : Int) ^ 29 = 536870912 := by decide

theorem register_ok {s : Index K V} {i e : Int} (hi0 : 0 ≤ i) (hi1 : i < s.heads.len)
    (he0 : 0 ≤ e) (he1 : e < s.nexts.len) :
    registerNewEntryForHead i e s = .ok () { s with
      heads := s.heads.set i e
      nexts := s.nexts.set e (if s.heads.get i ≥ 0 then s.heads.get i else -i - 1) } := by
  unfold registerNewEntryForHead
  rw [JM.bind_ok (rd_ok _ ⟨hi0, hi1⟩)]
  by_cases h : s.heads.get i ≥ 0
  · rw [if_pos h, if_pos h, JM.bind_ok (wr_ok _ _ ⟨he0, he1⟩)]
    exact wr_ok Index.heads (fun t a => { t with heads := a }) ⟨hi0, hi1⟩
  · rw [if_neg h, if_neg h, JM.bind_ok (wr_ok _ _ ⟨he0, he1⟩)]
    exact wr_ok Index.heads (fun t a => { t with heads := a }) ⟨hi0, hi1⟩

theorem rehashChain_spec (oldNexts : Arr Int) (oldKeys : Arr K) (hash : K → BitVec 32) (N M : Nat)
    (hN1 : 1 ≤ N) (hN2 : N ≤ 2 ^ 29) (hkl : oldKeys.len = oldNexts.len) (hM : oldNexts.len ≤ M) :
    ∀ (fuel : Nat) (entry : Int) (l : List Int) (t : Int), Path oldNexts entry l t → l.length < fuel →
    ∀ (s : Index K V) (S : List Int), s.hashFunc = hash → s.heads.len = N → s.nexts.len = M →
      Chained s.heads s.nexts (fun e => headOf hash N (oldKeys.get e)) S → (∀ e ∈ l, e ∉ S) →
      ∃ h n m, rehashChain oldNexts oldKeys fuel entry s =
          .ok () { s with heads := h, nexts := n, maxHead := m } ∧
        h.len = N ∧ n.len = M ∧
        Chained h n (fun e => headOf hash N (oldKeys.get e)) (l.reverse ++ S) ∧
        s.maxHead ≤ m ∧ (∀ e ∈ l, headOf hash N (oldKeys.get e) ≤ m) ∧
        ∀ x, x ∉ l → n.get x = s.nexts.get x
  | 0, _, _, _, _, h => by omega
  | fuel + 1, entry, [], t, hp, _ => by
    intro s S _ hh hn hch _
    have h1 := hp.1; have h2 := hp.2
    refine ⟨s.heads, s.nexts, s.maxHead, ?_, hh, hn, by simpa using hch, Int.le_refl _, by simp,
      fun _ _ => rfl⟩
    rw [rehashChain, if_neg (by omega)]; rfl
  | fuel + 1, entry, e :: l, t, hp, hf => by
    intro s S hhash hh hn hch hdis
    obtain ⟨rfl, h0, h1, h2⟩ := hp
    have hnd := (List.nodup_cons.1 (Path.nodup (x := entry) (l := entry :: l) ⟨rfl, h0, h1, h2⟩)).1
    have hhr := headOf_range hash hN1 hN2 (oldKeys.get entry)
    rw [rehashChain, if_pos h0, JM.bind_ok (rdA_ok _ ⟨h0, by omega⟩)]
    have hc : computeHead (oldKeys.get entry) s = .ok (headOf hash N (oldKeys.get entry)) s := by
      rw [← hhash, ← hh]; rfl
    rw [JM.bind_ok hc, JM.bind_ok (register_ok hhr.1 (by omega) h0 (by omega))]
    have hu : ∀ (t : Index K V) (i : Int), updateMaxHead i t =
        .ok () { t with maxHead := if i > t.maxHead then i else t.maxHead } := fun _ _ => rfl
    rw [JM.bind_ok (hu _ _), JM.bind_ok (rdA_ok _ ⟨h0, by omega⟩)]
    have hch' := hch.register (e := entry) (i := headOf hash N (oldKeys.get entry))
      (hdis entry (by simp)) h0 (by omega) hhr.1 (by omega) rfl
    obtain ⟨h, n, m, g1, g2, g3, g4, g5, g6, g7⟩ :=
      rehashChain_spec oldNexts oldKeys hash N M hN1 hN2 hkl hM fuel _ l t h2 (by simpa using hf)
        { s with
          heads := s.heads.set (headOf hash N (oldKeys.get entry)) entry
          nexts := s.nexts.set entry (if s.heads.get (headOf hash N (oldKeys.get entry)) ≥ 0 then
            s.heads.get (headOf hash N (oldKeys.get entry)) else
            -headOf hash N (oldKeys.get entry) - 1)
          maxHead := if headOf hash N (oldKeys.get entry) > s.maxHead then
            headOf hash N (oldKeys.get entry) else s.maxHead }
        (entry :: S) hhash hh hn hch' (by
          intro x hx hx'
          rcases List.mem_cons.1 hx' with rfl | hx'
          · exact hnd hx
          · exact hdis x (by simp [hx]) hx')
    refine ⟨h, n, m, g1, g2, g3, ?_, ?_, ?_, ?_⟩
    · refine g4.congr (fun x => ?_) (fun _ _ => rfl)
      simp only [List.reverse_cons, List.mem_append, List.mem_reverse, List.mem_cons,
        List.not_mem_nil, or_false]
      tauto
    · simp only at g5; split at g5 <;> omega
    · intro x hx
      rcases List.mem_cons.1 hx with rfl | hx
      · simp only at g5; split at g5 <;> omega
      · exact g6 x hx
    · intro x hx
      simp only [List.mem_cons, not_or] at hx
      rw [g7 x hx.2]
      exact Arr.get_set_ne _ _ hx.1

theorem rehashHeads_spec (oldHeads oldNexts : Arr Int) (oldKeys : Arr K) (hash : K → BitVec 32)
    (hdOld : Int → Int) (Sold : List Int) (N M : Nat)
    (hN1 : 1 ≤ N) (hN2 : N ≤ 2 ^ 29) (hkl : oldKeys.len = oldNexts.len) (hM : oldNexts.len ≤ M)
    (hold : Chained oldHeads oldNexts hdOld Sold) :
    ∀ (c : Nat) (i : Int), 0 ≤ i → i + c ≤ oldHeads.len →
    ∀ (s : Index K V), s.hashFunc = hash → s.heads.len = N → s.nexts.len = M → 0 ≤ s.maxHead →
      Chained s.heads s.nexts (fun e => headOf hash N (oldKeys.get e))
        (Sold.filter fun e => hdOld e < i ∧ 0 ≤ hdOld e) →
      (∀ e ∈ Sold, hdOld e < i → 0 ≤ hdOld e → headOf hash N (oldKeys.get e) ≤ s.maxHead) →
      ∃ h n m, rehashHeads oldHeads oldNexts oldKeys c i s =
          .ok () { s with heads := h, nexts := n, maxHead := m } ∧
        h.len = N ∧ n.len = M ∧ 0 ≤ m ∧
        Chained h n (fun e => headOf hash N (oldKeys.get e))
          (Sold.filter fun e => hdOld e < i + c ∧ 0 ≤ hdOld e) ∧
        (∀ e ∈ Sold, hdOld e < i + c → 0 ≤ hdOld e → headOf hash N (oldKeys.get e) ≤ m) ∧
        ∀ x, x ∉ Sold → n.get x = s.nexts.get x
  | 0, i, _, _ => by
    intro s _ hh hn hmh hch hmax
    refine ⟨s.heads, s.nexts, s.maxHead, rfl, hh, hn, hmh, by simpa using hch, by simpa using hmax,
      fun _ _ => rfl⟩
  | c + 1, i, hi0, hi1 => by
    intro s hhash hh hn hmh hch hmax
    obtain ⟨l, t, hp, _, hm⟩ := hold i hi0 (by omega)
    have hl := hp.length_le
    obtain ⟨h, n, m, g1, g2, g3, g4, g5, g6, g7⟩ :=
      rehashChain_spec oldNexts oldKeys hash N M hN1 hN2 hkl hM (oldNexts.len + 1) _ l t hp
        (by omega) s (Sold.filter fun e => hdOld e < i ∧ 0 ≤ hdOld e) hhash hh hn hch (by
          intro e he he'
          simp only [List.mem_filter, decide_eq_true_eq] at he'
          have := ((hm e).1 he).2
          omega)
    have hch' : Chained h n (fun e => headOf hash N (oldKeys.get e))
        (Sold.filter fun e => hdOld e < (i + 1) ∧ 0 ≤ hdOld e) := by
      refine g4.congr (fun x => ?_) (fun _ _ => rfl)
      simp only [List.mem_append, List.mem_reverse, List.mem_filter, decide_eq_true_eq, hm]
      constructor
      · rintro ⟨a1, a2⟩
        by_cases hx : hdOld x = i
        · exact .inl ⟨a1, hx⟩
        · exact .inr ⟨a1, by omega⟩
      · rintro (⟨a1, a2⟩ | ⟨a1, a2⟩)
        · exact ⟨a1, by omega⟩
        · exact ⟨a1, by omega⟩
    have hmax' : ∀ e ∈ Sold, hdOld e < i + 1 → 0 ≤ hdOld e → headOf hash N (oldKeys.get e) ≤ m := by
      intro e he h1 h2
      by_cases hx : hdOld e = i
      · exact g6 e ((hm e).2 ⟨he, hx⟩)
      · have := hmax e he (by omega) h2; omega
    obtain ⟨h', n', m', k1, k2, k3, k4, k5, k6, k7⟩ :=
      rehashHeads_spec oldHeads oldNexts oldKeys hash hdOld Sold N M hN1 hN2 hkl hM hold c (i + 1)
        (by omega) (by omega) { s with heads := h, nexts := n, maxHead := m } hhash g2 g3
        (by simp only; omega) hch' hmax'
    have e1 : i + 1 + (c : Int) = i + ((c + 1 : Nat) : Int) := by omega
    rw [e1] at k5 k6
    refine ⟨h', n', m', ?_, k2, k3, k4, k5, k6, ?_⟩
    · rw [rehashHeads, JM.bind_ok (rdA_ok _ ⟨hi0, by omega⟩), JM.bind_ok g1, k1]
    · intro x hx
      rw [k7 x hx]
      exact g7 x (fun hxl => hx ((hm x).1 hxl).1)

/-- Growing a power-of-two array to at most twice its length. -/
theorem ensureSize_pow2 {σ α : Type} {a : Arr α} {k : Nat} {c : Int} (d : α) {s : σ}
    (hk : k ≤ 29) (hl : (a.len : Int) = 2 ^ k) (hc : c = 2 ^ k ∨ c = 2 * 2 ^ k) :
    (ensureSize a c d : JM σ (Arr α)) s = .ok (a.copyOf c d) s ∨
      (c = a.len ∧ (ensureSize a c d : JM σ (Arr α)) s = .ok a s) := by
  have hp : (1 : Int) ≤ 2 ^ k := Int.pow_pos (by decide)
  have hp2 : (2 : Int) ^ k ≤ 536870912 := by
    have := pow2_le hk; rw [pow2_29] at this; exact this
  unfold ensureSize
  rcases hc with rfl | rfl
  · right
    refine ⟨hl.symm, ?_⟩
    rw [if_neg (by omega)]; rfl
  · left
    rw [if_pos (by omega)]
    have hg : (grow (2 * 2 ^ k) (a.len : Int) : JM σ Int) s = .ok (2 * 2 ^ k) s := by
      unfold grow
      simp only
      rw [hl, if_neg (by omega), growLoop, if_pos (by omega), shl32_one (by omega), growLoop,
        if_neg (by omega)]
    rw [JM.bind_ok hg, copyOf_ok _ _ (by omega)]

theorem calcNewCapacity_ok {s : Index K V} {k : Nat} (hcap : s.capacity = 2 ^ k) (hk : k ≤ 29)
    (hlf : 0 < s.lfNum ∧ s.lfNum ≤ s.lfDen)
    (hmax : s.capacity < 2 ^ 29 ∨ s.capThreshold ≠ 2 ^ 29) :
    ∃ k' t, k ≤ k' ∧ k' ≤ 29 ∧ calcNewCapacity s = .ok () { s with capacity := 2 ^ k', capThreshold := t } ∧
      ((k' = k + 1 ∧ t = threshold (2 ^ k') s.lfNum s.lfDen) ∨ (k' = k ∧ k = 29 ∧ t = 2 ^ 29)) := by
  have hp : (1 : Int) ≤ 2 ^ k := Int.pow_pos (by decide)
  have hp2 : (2 : Int) ^ k ≤ 536870912 := by
    have := pow2_le hk; rw [pow2_29] at this; exact this
  have e29 : (2 : Int) ^ 29 = 536870912 := by decide
  by_cases hlt : s.capacity < 2 ^ 29
  · have hk29 : k < 29 := by
      rcases Nat.lt_or_ge k 29 with h | h
      · exact h
      · have : k = 29 := by omega
        subst this
        rw [hcap] at hlt; omega
    have hpk : (2 : Int) ^ (k + 1) = 2 * 2 ^ k := by rw [Int.pow_succ]; omega
    have hp3 : (2 : Int) ^ (k + 1) ≤ 536870912 := by
      have := pow2_le (show k + 1 ≤ 29 by omega); rw [pow2_29] at this; exact this
    refine ⟨k + 1, threshold (2 ^ (k + 1)) s.lfNum s.lfDen, by omega, by omega, ?_, .inl ⟨rfl, rfl⟩⟩
    unfold calcNewCapacity
    rw [JM.bind_ok (JM.get_apply _)]
    have hc : (calculateNewCapacity s.capacity s.capThreshold : JM (Index K V) Int) s =
        .ok (2 ^ (k + 1)) s := by
      rw [calculateNewCapacity_ok (by omega) (by omega)]
      rw [hcap, hpk]
      try rw [MAX_CAPACITY_eq]
      try (congr 1; omega)
    rw [JM.bind_ok hc, if_neg (by omega)]
    simp only [JM.modify_apply]
    congr 2
    rw [MAX_CAPACITY_eq]
    apply Int.min_eq_left
    unfold threshold
    have hd : (0 : Int) < s.lfDen := by omega
    apply Int.ediv_le_of_le_mul hd
    have : (2 : Int) ^ (k + 1) * s.lfNum ≤ 2 ^ (k + 1) * s.lfDen :=
      Int.mul_le_mul_of_nonneg_left (by omega) (by omega)
    have h2 : (2 : Int) ^ (k + 1) * s.lfDen ≤ 536870912 * s.lfDen :=
      Int.mul_le_mul_of_nonneg_right hp3 (by omega)
    omega
  · have hk29 : k = 29 := by
      rcases Nat.lt_or_ge k 29 with h | h
      · exfalso
        have : (2 : Int) ^ k < 2 ^ 29 := pow2_lt h
        omega
      · omega
    have hthr : s.capThreshold ≠ 2 ^ 29 := by tauto
    subst hk29
    refine ⟨29, 2 ^ 29, by omega, by omega, ?_, .inr ⟨rfl, rfl, rfl⟩⟩
    unfold calcNewCapacity
    rw [JM.bind_ok (JM.get_apply _)]
    have hc : (calculateNewCapacity s.capacity s.capThreshold : JM (Index K V) Int) s =
        .ok (2 ^ 29) s := by
      unfold calculateNewCapacity
      rw [if_pos (by rw [MAX_CAPACITY_eq]; omega), if_neg (by rw [MAX_CAPACITY_eq]; omega), hcap]
      rfl
    rw [JM.bind_ok hc, if_pos hcap]
    simp only [JM.modify_apply]
    congr 2

/-- What `rehash` does to a table whose registered entries are `S`. -/
theorem rehash_spec {s : Index K V} {S : List Int} {k : Nat} (hcap : s.capacity = 2 ^ k) (hk : k ≤ 29)
    (hlf : 0 < s.lfNum ∧ s.lfNum ≤ s.lfDen)
    (hmax : s.capacity < 2 ^ 29 ∨ s.capThreshold ≠ 2 ^ 29)
    (nlen : (s.nexts.len : Int) = s.capacity) (klen : (s.keys.len : Int) = s.capacity)
    (vlen : (s.values.len : Int) = s.capacity) (hlen : 1 ≤ s.heads.len ∧ s.heads.len ≤ 2 ^ 29)
    (hch : Chained s.heads s.nexts (hdAt s) S)
    (hmh : 0 ≤ s.maxHead ∧ ∀ e ∈ S, hdAt s e ≤ s.maxHead) :
    ∃ k' t h n m ks vs, k ≤ k' ∧ k' ≤ 29 ∧
      rehash s = .ok () { s with
        capacity := 2 ^ k', capThreshold := t, heads := h, nexts := n, maxHead := m
        keys := ks, values := vs, modificationCount := i32 (s.modificationCount + 1) } ∧
      ((k' = k + 1 ∧ t = threshold (2 ^ k') s.lfNum s.lfDen) ∨ (k' = k ∧ k = 29 ∧ t = 2 ^ 29)) ∧
      (n.len : Int) = 2 ^ k' ∧ (ks.len : Int) = 2 ^ k' ∧ (vs.len : Int) = 2 ^ k' ∧ h.len = n.len ∧
      (∀ e : Int, e < s.nexts.len → ks.get e = s.keys.get e ∧ vs.get e = s.values.get e) ∧
      Chained h n (fun e => headOf s.hashFunc h.len (s.keys.get e)) S ∧
      0 ≤ m ∧ (∀ e ∈ S, headOf s.hashFunc h.len (s.keys.get e) ≤ m) ∧
      ∀ x, x ∉ S → n.get x = -1 := by
  obtain ⟨k', t, hkk, hk29, hcalc, hkt⟩ := calcNewCapacity_ok hcap hk hlf hmax
  have hp : (1 : Int) ≤ 2 ^ k' := Int.pow_pos (by decide)
  have hp2 : (2 : Int) ^ k' ≤ 536870912 := by
    have := pow2_le hk29; rw [pow2_29] at this; exact this
  have hle : (2 : Int) ^ k ≤ 2 ^ k' := pow2_le hkk
  have hc : (2 : Int) ^ k' = 2 ^ k ∨ (2 : Int) ^ k' = 2 * 2 ^ k := by
    rcases hkt with ⟨h1, _⟩ | ⟨h1, _⟩
    · right; rw [h1, Int.pow_succ]; omega
    · left; rw [h1]
  have e29 : (2 : Nat) ^ 29 = 536870912 := by decide
  obtain ⟨ks, hks, hkl, hkg⟩ : ∃ ks : Arr K, (∀ s' : Index K V,
      (ensureSize s.keys (2 ^ k') default : JM (Index K V) (Arr K)) s' = .ok ks s') ∧
      (ks.len : Int) = 2 ^ k' ∧ ∀ e : Int, e < s.nexts.len → ks.get e = s.keys.get e := by
    rcases hc with hc' | hc'
    · refine ⟨s.keys, fun s' => ?_, by omega, fun _ _ => rfl⟩
      unfold ensureSize
      rw [if_neg (by omega)]; rfl
    · refine ⟨s.keys.copyOf (2 ^ k') default, fun s' => ?_, by simp; omega, fun e he => ?_⟩
      · rcases ensureSize_pow2 (a := s.keys) (k := k) (c := 2 ^ k') (default : K) (s := s') hk
          (by omega) (.inr hc') with hh | ⟨hh, _⟩
        · exact hh
        · exfalso; have : (1 : Int) ≤ 2 ^ k := Int.pow_pos (by decide)
          omega
      · rw [Arr.get_copyOf, if_pos (by omega)]
  obtain ⟨vs, hvs, hvl, hvg⟩ : ∃ vs : Arr V, (∀ s' : Index K V,
      (ensureSize s.values (2 ^ k') default : JM (Index K V) (Arr V)) s' = .ok vs s') ∧
      (vs.len : Int) = 2 ^ k' ∧ ∀ e : Int, e < s.nexts.len → vs.get e = s.values.get e := by
    rcases hc with hc' | hc'
    · refine ⟨s.values, fun s' => ?_, by omega, fun _ _ => rfl⟩
      unfold ensureSize
      rw [if_neg (by omega)]; rfl
    · refine ⟨s.values.copyOf (2 ^ k') default, fun s' => ?_, by simp; omega, fun e he => ?_⟩
      · rcases ensureSize_pow2 (a := s.values) (k := k) (c := 2 ^ k') (default : V) (s := s') hk
          (by omega) (.inr hc') with hh | ⟨hh, _⟩
        · exact hh
        · exfalso; have : (1 : Int) ≤ 2 ^ k := Int.pow_pos (by decide)
          omega
      · rw [Arr.get_copyOf, if_pos (by omega)]
  have hNlen : (Arr.create (2 ^ k' : Int) (-1 : Int)).len = 2 ^ k' := by
    simp only [Arr.len_create]
    have : ((2 : Int) ^ k').toNat = 2 ^ k' := by
      have h1 : ((2 ^ k' : Nat) : Int) = (2 : Int) ^ k' := by push_cast; rfl
      omega
    exact this
  have hN1 : 1 ≤ 2 ^ k' := Nat.pow_pos (by decide)
  have hN2 : 2 ^ k' ≤ 2 ^ 29 := Nat.pow_le_pow_right (by decide) hk29
  have hcast : ((2 ^ k' : Nat) : Int) = (2 : Int) ^ k' := by push_cast; rfl
  -- the loop
  have hspec := rehashHeads_spec (V := V) s.heads s.nexts s.keys s.hashFunc (hdAt s) S (2 ^ k') (2 ^ k')
    hN1 hN2 (by omega) (by omega) hch (min (s.maxHead + 1) s.heads.len).toNat 0 (by omega)
    (by omega)
    { s with
      capacity := 2 ^ k', capThreshold := t, heads := Arr.create (2 ^ k') (-1)
      nexts := Arr.create (2 ^ k') (-1), keys := ks, values := vs, maxHead := 0 }
    rfl hNlen hNlen (Int.le_refl _)
    (by
      have : (S.filter fun e => decide (hdAt s e < 0 ∧ 0 ≤ hdAt s e)) = [] := by
        rw [List.filter_eq_nil_iff]; intro x _; simp
      rw [this]
      exact Chained.empty (by intro i _ _; simp))
    (by intro e _ h1 h2; omega)
  obtain ⟨h, n, m, g1, g2, g3, g4, g5, g6, g7⟩ := hspec
  have hlim : ∀ e ∈ S, hdAt s e < 0 + ((min (s.maxHead + 1) s.heads.len).toNat : Int) ∧ 0 ≤ hdAt s e := by
    intro e he
    have h1 := hmh.2 e he
    have h2 : 0 ≤ hdAt s e ∧ hdAt s e < s.heads.len :=
      headOf_range s.hashFunc hlen.1 hlen.2 (s.keys.get e)
    omega
  refine ⟨k', t, h, n, m, ks, vs, hkk, hk29, ?_, hkt, by omega, hkl, hvl, by omega, ?_, ?_, g4, ?_, ?_⟩
  · unfold rehash
    rw [JM.bind_ok (JM.get_apply _), JM.bind_ok hcalc, JM.bind_ok (JM.get_apply _),
      JM.bind_ok (newArr_ok _ (by simp only; omega)), JM.bind_ok (JM.modify_apply _ _),
      JM.bind_ok (newArr_ok _ (by simp only; omega)), JM.bind_ok (JM.modify_apply _ _),
      JM.bind_ok (hks _), JM.bind_ok (JM.modify_apply _ _),
      JM.bind_ok (hvs _), JM.bind_ok (JM.modify_apply _ _)]
    simp only
    rw [JM.bind_ok (JM.modify_apply _ _), JM.bind_ok g1]
    rfl
  · intro e he; exact ⟨hkg e he, hvg e he⟩
  · rw [g2]
    refine g5.congr (fun x => ?_) (fun _ _ => rfl)
    simp only [List.mem_filter, decide_eq_true_eq]
    exact ⟨fun hx => ⟨hx, hlim x hx⟩, fun hx => hx.1⟩
  · intro e he; rw [g2]; exact g6 e he (hlim e he).1 (hlim e he).2
  · intro x hx; rw [g7 x hx]; simp

end Index
end Verif

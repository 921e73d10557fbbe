import Verif.Proofs.IndexEff
import Verif.Proofs.IndexCap
set_option linter.unusedSectionVars false
/-! The questions asked, part 2: the public calls. -/
namespace Verif.IndexEffProof
open Verif.Index Verif.IndexEff Verif.IndexEffSpec Verif.IndexSpec
variable {σ K V α β : Type} [Inhabited K] [Inhabited V]
variable {tight : Prop} {s : Index K V} {a : Abs K V} {F : List Int}

/-! ### Order and buckets -/

theorem keysOf_eq (h : Inv tight s a F) : keysOf s = (order s).map s.keys.get := by
  unfold keysOf Index.step
  rw [JM.bind_ok (forEach_spec h)]; rfl

theorem orderFrom_split (s : Index K V) : ∀ (n m : Nat) (i : Int),
    orderFrom s (n + m) i = orderFrom s n i ++ orderFrom s m (i + n)
  | 0, m, i => by simp [orderFrom]
  | n + 1, m, i => by
    rw [show n + 1 + m = (n + m) + 1 by omega, orderFrom, orderFrom, orderFrom_split s n m (i + 1), List.append_assoc,
      show i + 1 + (n : Int) = i + ((n + 1 : Nat) : Int) by omega]

theorem oldOrder_eq (s : Index K V) : ∀ (n : Nat) (i : Int), oldOrder s.heads s.nexts n i = orderFrom s n i
  | 0, _ => rfl
  | n + 1, i => by rw [oldOrder, orderFrom, oldOrder_eq s n (i + 1)]

theorem order_short (h : Inv tight s a F) {n : Nat} (h1 : n ≤ s.heads.len) (h2 : ∀ e ∈ a.live, hdAt s e < n) :
    orderFrom s n 0 = order s := by
  obtain ⟨m, hm⟩ := Nat.exists_eq_add_of_le h1
  unfold order
  rw [hm, orderFrom_split]
  have : orderFrom s m (0 + n) = [] := by
    rw [List.eq_nil_iff_forall_not_mem]
    intro e he
    have := ((orderFrom_spec h m (0 + n) (by omega) (by omega)).2 e).1 he
    have := h2 e this.1
    omega
  rw [this, List.append_nil]

theorem orderFrom_filter (h : Inv tight s a F) {j : Int} : ∀ (n : Nat) (i : Int), 0 ≤ i → i + n = s.heads.len →
    (orderFrom s n i).filter (fun e => hdAt s e = j) =
      if i ≤ j ∧ j < i + n then chainFrom s.nexts (s.nexts.len + 1) (s.heads.get j) else []
  | 0, i, _, _ => by rw [if_neg (by omega)]; rfl
  | n + 1, i, h0, h1 => by
    obtain ⟨t, hp, hm⟩ := chain_at h h0 (by omega)
    rw [orderFrom, List.filter_append, orderFrom_filter h n (i + 1) (by omega) (by omega)]
    by_cases hj : j = i
    · subst hj
      rw [if_neg (by omega), if_pos (by omega), List.append_nil, List.filter_eq_self.2]
      intro e he
      simpa using ((hm e).1 he).2
    · have : (chainFrom s.nexts (s.nexts.len + 1) (s.heads.get i)).filter (fun e => hdAt s e = j) = [] := by
        rw [List.filter_eq_nil_iff]
        intro e he
        have := ((hm e).1 he).2
        simp only [decide_eq_true_eq]; omega
      rw [this, List.nil_append]
      by_cases hh : i + 1 ≤ j ∧ j < i + 1 + n
      · rw [if_pos hh, if_pos (by omega)]
      · rw [if_neg hh, if_neg (by omega)]

theorem bucket_eq (h : Inv tight s a F) (k : K) : bucket s k =
    (chainFrom s.nexts (s.nexts.len + 1) (s.heads.get (headOf s.hashFunc s.heads.len k))).map s.keys.get := by
  have hr := h.hd_range k
  unfold bucket
  rw [keysOf_eq h, List.filter_map]
  congr 1
  have := orderFrom_filter h (j := headOf s.hashFunc s.heads.len k) s.heads.len 0 (by omega) (by omega)
  rw [if_pos (by omega)] at this
  rw [← this]
  rfl

/-! ### Searching -/

variable {eff : Effects σ K} {r : Res (Index K V) β} {Q Q' : List (Ask K)}

/-- The beginning of `lookupEntry` and `add`. -/
theorem search_first (hE : Honest eff) (h : Inv tight s a F) (k : K) {f : Int → Int → JM (IndexObs σ K V) β}
    (hf : First eff s.hashFunc s.equalFunc (f (headOf s.hashFunc s.heads.len k) (entryOf a k)) r s Q Q') :
    First eff s.hashFunc s.equalFunc (do
      let head ← IndexEff.computeHead eff k
      let e ← lift (rd Index.heads head)
      let t ← lift get
      let x ← IndexEff.lookupLoop eff k (t.nexts.len + 1) e
      f head x) r s (search s k ++ Q) Q' := by
  have hr := h.hd_range k
  obtain ⟨t, hp, hm⟩ := chain_at h hr.1 hr.2
  obtain ⟨l, t', hp', hfe⟩ := chain_find h k
  obtain ⟨rfl, -⟩ := hp.unique hp'
  unfold search
  rw [bucket_eq h, List.cons_append]
  refine .head hE rfl k (.read (rd_ok _ hr) (.read (JM.get_apply _) ?_))
  refine lookup_first hE rfl (klen_eq h) _ _ _ t hp (by have := hp.length_le; omega) ?_
  rw [hfe]
  exact hf

theorem lookupEntry_first (hE : Honest eff) (h : Inv tight s a F) (k : K) {f : Int → JM (IndexObs σ K V) β}
    (hf : First eff s.hashFunc s.equalFunc (f (entryOf a k)) r s Q Q') :
    First eff s.hashFunc s.equalFunc (IndexEff.lookupEntry eff k >>= f) r s (search s k ++ Q) Q' := by
  have := search_first (f := fun _ x => f x) hE h k hf
  unfold IndexEff.lookupEntry
  simp only [jm_assoc]
  exact this

theorem done {m : JM (Index K V) β} {h : K → BitVec 32} {q : K → K → Bool} (hm : m s = r) :
    First eff h q (lift m) r s [] [] := .now (.done hm)

theorem findKey_total (k : K) (hk : s.keys.len = s.nexts.len) : ∀ (fuel : Nat) (p e : Int) (l : List Int) (t : Int),
    Path s.nexts e l t → l.length < fuel → ∃ x, Index.findKeyLoop k fuel p e s = .ok x s
  | 0, _, _, _, _, _, h => by omega
  | fuel + 1, p, e, [], t, hp, _ => by
    have h1 := hp.1; have h2 := hp.2
    rw [Index.findKeyLoop, if_neg (by omega)]; exact ⟨_, rfl⟩
  | fuel + 1, p, e, x :: l, t, hp, hl => by
    obtain ⟨rfl, h0, h1, h2⟩ := hp
    rw [Index.findKeyLoop, if_pos h0, JM.bind_ok (rd_ok _ ⟨h0, by omega⟩), JM.bind_ok (JM.get_apply _)]
    split
    · exact ⟨_, rfl⟩
    · rw [JM.bind_ok (rd_ok _ ⟨h0, h1⟩)]
      exact findKey_total k hk fuel _ _ l t h2 (by simpa using hl)

theorem removeKey_first (hE : Honest eff) (h : Inv tight s a F) (k : K) (free : Bool) :
    First eff s.hashFunc s.equalFunc (IndexEff.removeKey eff k free) (Index.removeKey k free s) s (search s k) [] := by
  have hr := h.hd_range k
  obtain ⟨t, hp, hm⟩ := chain_at h hr.1 hr.2
  have hl := hp.length_le
  unfold search
  rw [bucket_eq h]
  have hc : Index.computeHead k s = .ok (headOf s.hashFunc s.heads.len k) s := rfl
  refine .head hE rfl k (.read (rd_ok _ hr) ?_)
  by_cases hneg : s.heads.get (headOf s.hashFunc s.heads.len k) < 0
  · have hnil := (hp.neg_nil hneg).1
    rw [if_pos hneg, hnil]
    refine done (m := pure (-1)) ?_
    unfold Index.removeKey
    rw [JM.bind_ok hc, JM.bind_ok (rd_ok _ hr), if_pos hneg]
  · rw [if_neg hneg]
    refine .read (JM.get_apply _) ?_
    obtain ⟨x, hx⟩ := findKey_total k (klen_eq h) (s.nexts.len + 1) (-1) _ _ t hp (by omega)
    rw [← List.append_nil (List.map (Ask.eq k) _)]
    refine findKey_first hE rfl (klen_eq h) _ _ _ _ t hp (by omega) x hx (done ?_)
    unfold Index.removeKey
    rw [JM.bind_ok hc, JM.bind_ok (rd_ok _ hr), if_neg hneg, JM.bind_ok (JM.get_apply _), JM.bind_ok hx]
    cases x <;> rfl

/-! ### Growing -/

theorem rehash_asks (hE : Honest eff) {s1 s2 : Index K V} {h : K → BitVec 32} {q : K → K → Bool} {k : Nat}
    (hcap : s1.capacity = 2 ^ k) (hk : k ≤ 29)
    (hlf : 0 < s1.lfNum ∧ s1.lfNum ≤ s1.lfDen) (nlen : (s1.nexts.len : Int) = s1.capacity)
    (klen : (s1.keys.len : Int) = s1.capacity) (hs : s1.hashFunc = h)
    (hch : ∀ i : Int, 0 ≤ i → i < s1.heads.len →
      ∃ t, Path s1.nexts (s1.heads.get i) (chainFrom s1.nexts (s1.nexts.len + 1) (s1.heads.get i)) t)
    (hmh : 0 ≤ s1.maxHead)
    (hre : Index.rehash s1 = .ok () s2) {f : Unit → JM (IndexObs σ K V) β}
    (hf : s2.hashFunc = h → Asks eff h q (f ()) r s2 Q) :
    Asks eff h q (IndexEff.rehash eff >>= f) r s1
      (((orderFrom s1 (min (s1.maxHead + 1) s1.heads.len).toNat 0).map s1.keys.get).map .hash ++ Q) := by
  unfold Index.rehash at hre
  rw [JM.bind_ok (JM.get_apply _)] at hre
  obtain ⟨_, t1, hc, hre⟩ := jm_bind_inv hre
  have hmax : s1.capacity < 2 ^ 29 ∨ s1.capThreshold ≠ 2 ^ 29 := by
    by_contra hcon
    have e29 := pow2_29
    have hle : s1.capacity ≤ 2 ^ 29 := by rw [hcap]; exact pow2_le hk
    have c1 : s1.capacity = 2 ^ 29 := by omega
    have c2 : s1.capThreshold = 2 ^ 29 := by omega
    unfold calcNewCapacity at hc
    rw [JM.bind_ok (JM.get_apply _)] at hc
    obtain ⟨_, _, hc, _⟩ := jm_bind_inv hc
    unfold calculateNewCapacity at hc
    rw [if_pos (by rw [MAX_CAPACITY_eq]; omega), if_pos (by rw [MAX_CAPACITY_eq]; omega)] at hc
    simp at hc
  obtain ⟨k', thr, hk1, hk2, hcalc, -⟩ := calcNewCapacity_ok hcap hk hlf hmax
  rw [hcalc] at hc
  simp only [Res.ok.injEq, true_and] at hc
  have g1 : t1.capacity = 2 ^ k' := by rw [← hc]
  have g2 : t1.hashFunc = h := by rw [← hc]; exact hs
  have hp1 : (1 : Int) ≤ 2 ^ k' := Int.pow_pos (by decide)
  have hp2 : (2 : Int) ^ k' ≤ 2 ^ 29 := pow2_le hk2
  have hp3 : (2 : Int) ^ k ≤ 2 ^ k' := pow2_le hk1
  have e29 := pow2_29
  rw [JM.bind_ok (JM.get_apply _)] at hre
  obtain ⟨x1, t2, a1, hre⟩ := jm_bind_inv hre
  obtain ⟨_, t3, a2, hre⟩ := jm_bind_inv hre
  obtain ⟨x3, t4, a3, hre⟩ := jm_bind_inv hre
  obtain ⟨_, t5, a4, hre⟩ := jm_bind_inv hre
  obtain ⟨x5, t6, a5, hre⟩ := jm_bind_inv hre
  obtain ⟨_, t7, a6, hre⟩ := jm_bind_inv hre
  obtain ⟨x7, t8, a7, hre⟩ := jm_bind_inv hre
  obtain ⟨_, t9, a8, hre⟩ := jm_bind_inv hre
  obtain ⟨_, t10, a9, hre⟩ := jm_bind_inv hre
  obtain ⟨_, t11, a10, hre⟩ := jm_bind_inv hre
  have hnt : newTable t1 t1 = .ok () t10 := by
    unfold newTable
    rw [JM.bind_ok a1, JM.bind_ok a2, JM.bind_ok a3, JM.bind_ok a4, JM.bind_ok a5, JM.bind_ok a6, JM.bind_ok a7,
      JM.bind_ok a8, a9]
  have ens : ∀ {γ : Type} {arr x : Arr γ} {c : Int} {d : γ} {u v : Index K V},
      ensureSize arr c d u = .ok x v → v = u := by
    intro γ arr x c d u v he
    unfold ensureSize at he
    split at he
    · obtain ⟨c', w, hg, he⟩ := jm_bind_inv he
      have hw : w = u := by
        unfold grow at hg
        simp only at hg
        split at hg <;> simp at hg
        exact hg.2.symm
      unfold copyOf at he
      simp only at he
      split at he <;> simp at he
      exact he.2.symm.trans hw
    · simp at he; exact he.2.symm
  have e5 := ens a5
  have e7 := ens a7
  unfold newArr at a1 a3
  simp only at a1 a3
  rw [if_pos (by omega)] at a1 a3
  simp only [Res.ok.injEq] at a1 a3
  obtain ⟨b1, b2⟩ := a1
  obtain ⟨b3, b4⟩ := a3
  simp only [JM.modify_apply, Res.ok.injEq, true_and] at a2 a4 a6 a8 a9
  have k1 : t10.hashFunc = h := by
    rw [← a9, ← a8, e7, ← a6, e5, ← a4, ← b4, ← a2, ← b2]; exact g2
  have k2 : t10.heads.len = (2 ^ k' : Int).toNat := by
    rw [← a9, ← a8, e7, ← a6, e5, ← a4, ← b4, ← a2, ← b2, ← b1, g1]
    simp [Arr.create]
  have k3 : t10.nexts.len = (2 ^ k' : Int).toNat := by
    rw [← a9, ← a8, e7, ← a6, e5, ← a4, ← b3, g1]
    simp [Arr.create]
  unfold IndexEff.rehash
  simp only [jm_assoc]
  refine .step (JM.get_apply _) (.step (x := ()) (t := t1) ?_ (.step (JM.get_apply _) (.step hnt ?_)))
  · rw [hcalc, hc]
  rw [← oldOrder_eq]
  refine heads_asks hE s1.heads s1.nexts s1.keys (2 ^ k' : Int).toNat (2 ^ k' : Int).toNat (by omega) (by omega)
    (by omega) (by omega) hch _ 0 (by omega) (by omega) t10 t11 k1 k2 k3 a10 ?_
  intro j1 _ _
  refine .step hre (hf ?_)
  simp only [bumpMod, JM.modify_apply, Res.ok.injEq, true_and] at hre
  rw [← hre]; exact j1

end Verif.IndexEffProof

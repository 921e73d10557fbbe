import Verif.Link.Index5
import Verif.Gen.KeyValueIndexedMapEff
import Verif.Proofs.IndexEff3
/-! `KeyValueIndexedMap.ftl` with hash and equality functions that have effects: the generated code agrees with
Model/IndexEff.lean, method by method. -/
set_option linter.unusedSectionVars false
namespace Verif.Link.MapEff
open Verif Verif.Gen IndexEff IndexEffProof Verif.Link Verif.Link.Map
variable {σ K V α β γ δ : Type} [Inhabited K] [Inhabited V]
variable {eff : Effects σ K} {u : σ}

theorem lift_sim {R : α → β → Prop} {m : JM (Index K V) α} {g : JM (Index K V) β} {s : Index K V} (h : Sim R m g s) :
    Sim R (lift m : JM (IndexObs σ K V) α) (lift g) ⟨s, u⟩ := by
  unfold Sim at h ⊢
  rw [lift_apply, lift_apply]
  cases hm : m s with
  | ok a t =>
    rw [hm] at h
    obtain ⟨b, hb, hr⟩ := h
    rw [hb]
    exact ⟨b, rfl, hr⟩
  | err e t =>
    rw [hm] at h
    rcases h with h | h
    · exact .inl h
    · rw [h]; exact .inr rfl

theorem lift_keeps {J : Index K V → Prop} {m : JM (Index K V) α} (h : Keeps J m) :
    Keeps (fun t : IndexObs σ K V => J t.index) (lift m) := by
  rintro ⟨s, u⟩ hs
  rw [lift_apply]
  have := h s hs
  cases hm : m s <;> (rw [hm] at this; exact this)

theorem hash_keeps {J : Index K V → Prop} (k : K) : Keeps (fun t : IndexObs σ K V => J t.index) (hashE eff k) := by
  rintro ⟨s, u⟩ hs
  unfold hashE
  simp only
  cases eff.hash s.hashFunc k u <;> exact hs

theorem eq_keeps {J : Index K V → Prop} (a b : K) : Keeps (fun t : IndexObs σ K V => J t.index) (eqE eff a b) := by
  rintro ⟨s, u⟩ hs
  unfold eqE
  simp only
  cases eff.eq s.equalFunc a b u <;> exact hs

/-- the same first step, which does not change the collection -/
theorem ask {Q : γ → δ → Prop} {m : JM (IndexObs σ K V) α} {f : α → JM (IndexObs σ K V) γ}
    {h : α → JM (IndexObs σ K V) δ} {s : Index K V} (hm : ∀ J : Index K V → Prop, Keeps (fun t => J t.index) m)
    (h2 : ∀ a u', m ⟨s, u⟩ = .ok a ⟨s, u'⟩ → Sim Q (f a) (h a) ⟨s, u'⟩) : Sim Q (m >>= f) (m >>= h) ⟨s, u⟩ := by
  refine .step fun a t ht => ?_
  have := hm (· = s) ⟨s, u⟩ rfl
  rw [ht] at this
  obtain ⟨t1, t2⟩ := t
  obtain rfl : t1 = s := this
  exact h2 a t2 ht

theorem same_keeps {m : JM (Index K V) α} (hm : ∀ s, (m s).state = s) (J : Index K V → Prop) :
    Keeps (fun t : IndexObs σ K V => J t.index) (lift m) := lift_keeps (.same hm)

theorem computeHead_eq (k : K) :
    (KeyValueIndexedMapEff.computeHead eff k : JM (IndexObs σ K V) Int) = IndexEff.computeHead eff k := by
  unfold KeyValueIndexedMapEff.computeHead IndexEff.computeHead
  congr 1; funext v; dsimp only; congr 1; funext s
  unfold and32
  rw [ofInt_i32, BitVec.ofInt_toInt, BitVec.ofInt_toInt]
  rfl

theorem computeHead_keeps {J : Index K V → Prop} (k : K) :
    Keeps (fun t : IndexObs σ K V => J t.index) (IndexEff.computeHead eff k) :=
  .bind (hash_keeps k) fun _ => .bind (lift_keeps .get) fun _ => .pure _

theorem computeHead_range {k : K} {s : Index K V} {t : IndexObs σ K V} {hd : Int}
    (h : IndexEff.computeHead eff k ⟨s, u⟩ = .ok hd t) : 0 ≤ hd ∧ hd < 2 ^ 31 ∧
      (1 ≤ s.heads.len → s.heads.len ≤ 2 ^ 29 → hd < 2 ^ 29) := by
  unfold IndexEff.computeHead at h
  obtain ⟨hc, t1, h1, h'⟩ := jm_bind_inv h
  have hk := hash_keeps (eff := eff) (J := (· = s)) k ⟨s, u⟩ rfl
  rw [h1] at hk
  obtain ⟨t1, t2⟩ := t1
  obtain rfl : t1 = s := hk
  rw [JM.bind_ok (lift_ok (JM.get_apply _) t2)] at h'
  injection h' with h3 h4
  have e : hd = Index.headOf (fun _ : K => hc) t1.heads.len k := h3.symm
  have r1 := headOf_nonneg (fun _ : K => hc) t1.heads.len k
  rw [← e] at r1
  refine ⟨r1.1, r1.2, fun h5 h6 => ?_⟩
  have := Index.headOf_range (fun _ : K => hc) h5 h6 k
  omega

theorem rehashChain_sim (N : Arr Int) (KS : Arr K) : ∀ (n fuel : Nat) (e : Int) (t : IndexObs σ K V),
    n ≤ fuel →
    Sim (fun _ _ => True) (IndexEff.rehashChain eff N KS n e) (KeyValueIndexedMapEff.rehash_loop2 eff N KS fuel e) t
  | 0, _, _, _, _ => .diverge
  | n + 1, 0, _, _, h => absurd h (by omega)
  | n + 1, f + 1, e, t, h => by
    unfold IndexEff.rehashChain KeyValueIndexedMapEff.rehash_loop2
    refine .ite (by simp) (fun _ => ?_) (fun _ => .pure trivial)
    refine .step fun k t _ => ?_
    rw [computeHead_eq]
    refine .step fun hd t' hhd => ?_
    dsimp only
    obtain ⟨t, u⟩ := t
    have hr := computeHead_range hhd
    rw [register_eq ⟨hr.1, hr.2.1⟩, updateMaxHead_eq]
    refine .step fun _ t _ => ?_
    refine .step fun _ t _ => ?_
    refine .step fun e' t _ => ?_
    exact rehashChain_sim N KS n f e' t (by omega)

theorem rehashHeads_sim (H N : Arr Int) (KS : Arr K) (fuel : Nat) (hf : N.len + 1 ≤ fuel) (len : Int)
    (hl : len < 2 ^ 31) :
    ∀ (n f : Nat) (i : Int) (t : IndexObs σ K V), n < f → 0 ≤ i → n = (len - i).toNat →
    Sim Eq (IndexEff.rehashHeads eff H N KS n i) (KeyValueIndexedMapEff.rehash_loop1 eff fuel H N KS len f i) t
  | _, 0, _, _, h, _, _ => absurd h (by omega)
  | 0, f + 1, i, s, _, h0, hn => by
    unfold IndexEff.rehashHeads KeyValueIndexedMapEff.rehash_loop1
    rw [if_neg (by simp; omega)]
    exact .rfl
  | n + 1, f + 1, i, s, h, h0, hn => by
    unfold IndexEff.rehashHeads KeyValueIndexedMapEff.rehash_loop1
    rw [if_pos (by simp; omega), i32_of_range (x := i + 1) (by omega)]
    refine .step fun e t _ => ?_
    refine .bind (rehashChain_sim N KS _ _ e t hf) fun _ _ t _ _ => ?_
    exact rehashHeads_sim H N KS fuel hf len hl n f (i + 1) t (by omega) (by omega) (by omega)

theorem lmodify {Q : γ → δ → Prop} {v w : Index K V → Index K V} {f : Unit → JM (IndexObs σ K V) γ}
    {h : Unit → JM (IndexObs σ K V) δ} {s : Index K V} (huv : w s = v s) (h2 : Sim Q (f ()) (h ()) ⟨v s, u⟩) :
    Sim Q (lift (modify v) >>= f) (lift (modify w) >>= h) ⟨s, u⟩ := by
  unfold Sim at h2 ⊢
  rw [JM.bind_ok (lift_ok (JM.modify_apply v s) u), JM.bind_ok (lift_ok (JM.modify_apply w s) u), huv]
  exact h2

theorem lstepL {Q : γ → δ → Prop} {m : JM (Index K V) α} {f : α → JM (IndexObs σ K V) γ}
    {h : α → JM (IndexObs σ K V) δ} {s : Index K V} (hm : ∃ r, ∀ s, m s = ofExcept r s)
    (h2 : ∀ a, Sim Q (f a) (h a) ⟨s, u⟩) : Sim Q (lift m >>= f) (lift m >>= h) ⟨s, u⟩ := by
  obtain ⟨r, hr⟩ := hm
  have := hr s
  cases r with
  | error e =>
    have e1 : lift m (⟨s, u⟩ : IndexObs σ K V) = .err e ⟨s, u⟩ := by rw [lift_apply, this]; rfl
    unfold Sim; rw [JM.bind_err e1, JM.bind_err e1]; exact .inr rfl
  | ok a =>
    have e1 : lift m (⟨s, u⟩ : IndexObs σ K V) = .ok a ⟨s, u⟩ := by rw [lift_apply, this]; rfl
    have := h2 a
    unfold Sim at this ⊢; rw [JM.bind_ok e1, JM.bind_ok e1]; exact this

theorem calc_max {s t : Index K V} (ht : Index.calcNewCapacity s = .ok () t) : t.maxHead = s.maxHead := by
  unfold Index.calcNewCapacity at ht
  rw [JM.bind_ok (JM.get_apply _)] at ht
  obtain ⟨r, hr⟩ := calc_local (Index K V) s.capacity s.capThreshold
  rw [JM.bind_apply, hr] at ht
  cases r with
  | error e => cases ht
  | ok c =>
    simp only [ofExcept_ok] at ht
    split at ht <;> (injection ht with _ h; rw [← h])

theorem rehash_sim (fuel : Nat) (hf : 2 ^ 31 ≤ fuel) {s : Index K V}
    (hn : s.nexts.len < 2 ^ 31 - 1) (hh : s.heads.len < 2 ^ 31)
    (hm : -2 ^ 31 ≤ s.maxHead + 1 ∧ s.maxHead + 1 < 2 ^ 31) :
    Sim Eq (IndexEff.rehash eff : JM (IndexObs σ K V) Unit) (KeyValueIndexedMapEff.rehash eff fuel) ⟨s, u⟩ := by
  unfold IndexEff.rehash KeyValueIndexedMapEff.rehash KeyValueIndexedMap.growKeys KeyValueIndexedMap.growValues newTable
  simp only [bind_unit, calc_eq, lift_bind, assoc]
  refine .left rfl (.right rfl ?_)
  dsimp only
  refine .step fun _ t ht => ?_
  rw [lift_apply] at ht
  cases hc : Index.calcNewCapacity s with
  | err e x => rw [hc] at ht; cases ht
  | ok y w =>
  rw [hc] at ht
  cases ht
  have hmx := calc_max hc
  refine .left rfl (.right rfl ?_)
  refine lstepL (newArr_local _ _ _) fun h => ?_
  refine lmodify rfl (.right rfl ?_)
  dsimp only
  refine lstepL (newArr_local _ _ _) fun n => ?_
  refine lmodify rfl (.right rfl ?_)
  dsimp only
  refine .right rfl ?_
  dsimp only
  refine lstepL (by obtain ⟨r, hr, _⟩ := ensureSize_local (Index K V) w.keys w.capacity default; exact ⟨r, hr⟩) fun k => ?_
  refine lmodify rfl (.right rfl (.right rfl ?_))
  dsimp only
  refine lstepL (by obtain ⟨r, hr, _⟩ := ensureSize_local (Index K V) w.values w.capacity default; exact ⟨r, hr⟩) fun v => ?_
  refine lmodify rfl (.right rfl ?_)
  dsimp only
  rw [hmx, i32_of_range (x := s.maxHead + 1) (by omega)]
  refine lmodify rfl ?_
  refine .bind_eq (rehashHeads_sim _ _ _ fuel (by omega) _ (by omega) _ _ 0 _ (by omega) (by omega) (by omega)) fun _ t _ => ?_
  exact .of_eq rfl

theorem lookupLoop_sim (k : K) : ∀ (n fuel : Nat) (e : Int) (t : IndexObs σ K V), n ≤ fuel →
    Sim Found (IndexEff.lookupLoop eff k n e) (KeyValueIndexedMapEff.lookupEntry_loop1 eff k fuel e) t
  | 0, _, _, _, _ => .diverge
  | n + 1, 0, _, _, h => absurd h (by omega)
  | n + 1, f + 1, e, t, h => by
    unfold IndexEff.lookupLoop KeyValueIndexedMapEff.lookupEntry_loop1
    refine .ite (by simp) (fun he => ?_) (fun _ => .pure (by simp [Found]))
    refine .step fun x t _ => .step fun r t _ => ?_
    refine .ite Iff.rfl (fun _ => .pure (by simp [Found, he])) (fun _ => ?_)
    refine .step fun e' t _ => ?_
    exact lookupLoop_sim k n f e' t (by omega)

theorem addLoop_eq (k : K) : ∀ (n : Nat) (e : Int),
    (KeyValueIndexedMapEff.super_add_loop1 eff k n e : JM (IndexObs σ K V) _) =
      KeyValueIndexedMapEff.lookupEntry_loop1 eff k n e
  | 0, _ => rfl
  | n + 1, e => by
    unfold KeyValueIndexedMapEff.super_add_loop1 KeyValueIndexedMapEff.lookupEntry_loop1
    congr 2; funext _; congr 1; funext _; congr 2; funext _
    exact addLoop_eq k n _

theorem lookupLoop_neg (k : K) : ∀ (n : Nat) (e r : Int) (s t : IndexObs σ K V),
    IndexEff.lookupLoop eff k n e s = .ok r t → r < 0 → r = -1
  | 0, _, _, _, _, h, _ => by cases h
  | n + 1, e, r, s, t, h, hr => by
    unfold IndexEff.lookupLoop at h
    by_cases he : e ≥ 0
    · rw [if_pos he] at h
      obtain ⟨x, s1, _, h⟩ := jm_bind_inv h
      obtain ⟨y, s2, _, h⟩ := jm_bind_inv h
      split at h
      · injection h with h1 _; omega
      · obtain ⟨z, s3, _, h⟩ := jm_bind_inv h
        exact lookupLoop_neg k n z r s3 t h hr
    · rw [if_neg he] at h
      injection h with h1 _; omega

theorem rd_keeps {J : Index K V → Prop} {τ : Type} (arr : Index K V → Arr τ) (i : Int) :
    Keeps (fun t : IndexObs σ K V => J t.index) (lift (rd arr i)) := lift_keeps (.rd _)

theorem lookupLoop_keeps (k : K) (J : Index K V → Prop) : ∀ (n : Nat) (e : Int),
    Keeps (fun t : IndexObs σ K V => J t.index) (IndexEff.lookupLoop eff k n e)
  | 0, _ => .throw _
  | n + 1, e => by
    unfold IndexEff.lookupLoop
    exact .ite (.bind (rd_keeps _ _) fun _ => .bind (eq_keeps _ _) fun _ =>
      .ite (.pure _) (.bind (rd_keeps _ _) fun _ => lookupLoop_keeps k J n _)) (.pure _)

theorem lookup_sim (fuel : Nat) (hf : 2 ^ 31 ≤ fuel) (k : K) {s : Index K V} (hn : s.nexts.len < 2 ^ 31 - 1) :
    Sim Eq (IndexEff.lookupEntry eff k) (KeyValueIndexedMapEff.lookupEntry eff fuel k) ⟨s, u⟩ := by
  unfold IndexEff.lookupEntry KeyValueIndexedMapEff.lookupEntry
  rw [computeHead_eq]
  refine ask (fun _ => computeHead_keeps k) fun h u _ => ?_
  refine ask (fun _ => rd_keeps _ _) fun e u _ => .left rfl ?_
  dsimp only
  refine .tailR (lookupLoop_sim k (s.nexts.len + 1) fuel e _ (by omega)) fun e r t ht hr => ?_
  unfold Found at hr
  subst hr
  by_cases he : e ≥ 0
  · rw [if_pos he]; exact .pure rfl
  · rw [if_neg he, lookupLoop_neg k _ _ _ _ _ ht (by omega)]; exact .pure rfl

theorem tail_sim {n : Int} (hn : -2 ^ 31 ≤ n + 1 ∧ n + 1 < 2 ^ 31) (k : K) (entry : Int) {h : Int} (hh : 0 ≤ h ∧ h < 2 ^ 29)
    {s : Index K V} (hs : Bd n s) :
    Sim Eq (lift (enter k h entry) : JM (IndexObs σ K V) Int)
      (do
        lift (KeyValueIndexedMap.registerNewEntryForHead h entry)
        lift (wr Index.keys (fun self a => { self with keys := a }) entry k)
        lift (KeyValueIndexedMap.updateMaxHead h)
        let s10 ← lift get
        let v11 := i32 (s10.size + 1)
        lift (modify fun self => { self with size := v11 })
        let s12 ← lift get
        let v13 := i32 (s12.modificationCount + 1)
        lift (modify fun self => { self with modificationCount := v13 })
        pure entry) ⟨s, u⟩ := by
  have := lift_sim (σ := σ) (u := u) (Map.tail_sim hn k entry hh hs)
  simp only [lift_bind, lift_pure] at this
  unfold enter
  simp only [lift_bind, lift_pure]
  exact this

theorem heads_keeps (n : Int) (H N : Arr Int) (KS : Arr K) : ∀ (m : Nat) (i : Int),
    Keeps (fun t : IndexObs σ K V => Bd n t.index) (IndexEff.rehashHeads eff H N KS m i)
  | 0, _ => .pure _
  | m + 1, i => by
    have chain : ∀ (f : Nat) (e : Int), Keeps (fun t : IndexObs σ K V => Bd n t.index) (IndexEff.rehashChain eff N KS f e) := by
      intro f
      induction f with
      | zero => exact fun _ => .throw _
      | succ f ih =>
        intro e
        unfold IndexEff.rehashChain
        refine .ite (.bind (lift_keeps (.rdA _ _)) fun k => .bindR (computeHead_keeps k) fun hd t t' ht hhd => ?_) (.pure _)
        obtain ⟨t, u⟩ := t
        have hr := (computeHead_range hhd).2.2 ht.heads.1 ht.heads.2
        exact .bind (lift_keeps (register_keeps _ _ _)) fun _ =>
          .bind (lift_keeps (updateMaxHead_keeps _ hr)) fun _ => .bind (lift_keeps (.rdA _ _)) fun _ => ih _
    unfold IndexEff.rehashHeads
    exact .bind (lift_keeps (.rdA _ _)) fun _ => .bind (chain _ _) fun _ => heads_keeps n H N KS m _

theorem newTable_keeps (n : Int) {s : Index K V} (hs : Bd n s) : Keeps (Bd (K := K) (V := V) n) (newTable s) := by
  have hc : 0 ≤ s.capacity := by have := hs.cap; omega
  unfold newTable
  refine .bindR (.ofLocal (newArr_local _ _ _)) fun h u u' _ hu => ?_
  have hu2 := hu.symm.trans (newArr_ok (s := u) (-1 : Int) hc)
  injection hu2 with hu1 _
  refine .bind (.modify fun x hx => ⟨hx.size, hx.cap, ?_, hx.max⟩) fun _ => ?_
  · have := hs.cap
    show 1 ≤ h.len ∧ h.len ≤ 2 ^ 29
    rw [hu1]; simp only [Arr.len_create]; omega
  · refine .bind (.ofLocal (newArr_local _ _ _)) fun _ => .bind (.modify fun x hx => ⟨hx.size, hx.cap, hx.heads, hx.max⟩) fun _ => ?_
    refine .bind (.ofLocal ?_) fun _ => .bind (.modify fun x hx => ⟨hx.size, hx.cap, hx.heads, hx.max⟩) fun _ => ?_
    · obtain ⟨r, hr, _⟩ := ensureSize_local (Index K V) s.keys s.capacity default; exact ⟨r, hr⟩
    refine .bind (.ofLocal ?_) fun _ => .bind (.modify fun x hx => ⟨hx.size, hx.cap, hx.heads, hx.max⟩) fun _ => ?_
    · obtain ⟨r, hr, _⟩ := ensureSize_local (Index K V) s.values s.capacity default; exact ⟨r, hr⟩
    exact .modify fun x hx => ⟨hx.size, hx.cap, hx.heads, (by decide : (0 : Int) < 2 ^ 29)⟩

theorem rehash_keeps (n : Int) : Keeps (fun t : IndexObs σ K V => Bd n t.index) (IndexEff.rehash eff) := by
  unfold IndexEff.rehash
  refine .bind (lift_keeps .get) fun old => .bind (lift_keeps (calc_keeps n)) fun _ =>
    .bindR (lift_keeps .get) fun s s' t hs hst => ?_
  obtain ⟨s1, s2⟩ := s'
  rw [lift_ok (JM.get_apply s1) s2] at hst
  injection hst with h1 h2
  subst h1
  exact .bind (lift_keeps (newTable_keeps n hs)) fun _ => .bind (heads_keeps n _ _ _ _ _) fun _ =>
    lift_keeps (bump_keeps n)

theorem bd_of {n : Int} {α : Type} {m : JM (IndexObs σ K V) α} {t t' : IndexObs σ K V} {a : α}
    (hk : Keeps (fun t : IndexObs σ K V => Bd n t.index) m) (ht : m t = .ok a t') (h : Bd n t.index) : Bd n t'.index := by
  have := hk t h
  rw [ht] at this
  exact this

theorem baseAdd_sim (fuel : Nat) (hf : 2 ^ 31 ≤ fuel) (k : K) {n : Int} {s : Index K V} (hs : Bd n s)
    (hl : s.nexts.len < 2 ^ 31 - 1) (hn : -2 ^ 31 ≤ n + 1 ∧ n + 1 < 2 ^ 31)
    (hu : -2 ^ 31 ≤ s.nextUnusedEntry + 1 ∧ s.nextUnusedEntry + 1 < 2 ^ 31) (hm : 0 ≤ s.maxHead) :
    Sim Eq (IndexEff.baseAdd eff k) (KeyValueIndexedMapEff.super_add eff fuel k) ⟨s, u⟩ := by
  unfold IndexEff.baseAdd KeyValueIndexedMapEff.super_add
  rw [computeHead_eq]
  refine ask (fun _ => computeHead_keeps k) fun h u hh => ?_
  obtain ⟨hh0, -, hh1⟩ := computeHead_range hh
  replace hh1 := hh1 hs.heads.1 hs.heads.2
  refine ask (fun _ => rd_keeps _ _) fun e u2 _ => .left rfl ?_
  dsimp only
  rw [addLoop_eq]
  refine .bind (lookupLoop_sim k (s.nexts.len + 1) fuel e _ (by omega)) fun e' r t ht hr => ?_
  unfold Found at hr
  subst hr
  obtain ⟨t, u3⟩ := t
  obtain rfl : t = s := by
    have := lookupLoop_keeps (eff := eff) k (· = s) (s.nexts.len + 1) e ⟨s, u2⟩ rfl
    rw [ht] at this; exact this
  by_cases he : e' ≥ 0
  · rw [if_pos he, if_pos he]; exact .pure rfl
  · rw [if_neg he, if_neg he]
    dsimp only
    refine .bind_eq (lift_sim (.of_eq (allocate_eq hu))) fun entry w hau => ?_
    rw [lift_apply] at hau
    cases hal : (Index.allocateNewEntry t) with
    | err x y => rw [hal] at hau; cases hau
    | ok x w =>
    rw [hal] at hau
    cases hau
    refine .left rfl (.right rfl ?_)
    have bu : Bd n w := by have := allocate_keeps n t hs; rw [hal] at this; exact this
    have cu := allocate_keeps2 t.nexts.len t.maxHead t ⟨rfl, rfl⟩
    rw [hal] at cu
    obtain ⟨c1, c2⟩ : w.nexts.len = t.nexts.len ∧ w.maxHead = t.maxHead := cu
    have bm := bu.max
    have bh := bu.heads
    by_cases hc : entry ≥ w.capThreshold
    · rw [if_pos hc, if_pos (by simpa using hc)]
      simp only [assoc]
      refine .bind_eq (rehash_sim fuel hf (by omega) (by omega) (by omega)) fun _ w hw => ?_
      have bw : Bd n w.index := bd_of (rehash_keeps n) hw bu
      obtain ⟨w, u⟩ := w
      refine ask (fun _ => computeHead_keeps k) fun h' u hh' => ?_
      obtain ⟨g0, -, g1⟩ := computeHead_range hh'
      refine .right rfl ?_
      exact tail_sim hn k entry ⟨g0, g1 bw.heads.1 bw.heads.2⟩ bw
    · rw [if_neg hc, if_neg (by simpa using hc)]
      refine .right rfl ?_
      exact tail_sim hn k entry ⟨hh0, hh1⟩ bu

theorem add_sim (fuel : Nat) (hf : 2 ^ 31 ≤ fuel) (k : K) {n : Int} {s : Index K V} (hs : Bd n s)
    (hl : s.nexts.len < 2 ^ 31 - 1) (hn : -2 ^ 31 ≤ n + 1 ∧ n + 1 < 2 ^ 31)
    (hu : -2 ^ 31 ≤ s.nextUnusedEntry + 1 ∧ s.nextUnusedEntry + 1 < 2 ^ 31) (hm : 0 ≤ s.maxHead) :
    Sim Eq (IndexEff.add eff k) (KeyValueIndexedMapEff.add eff fuel k) ⟨s, u⟩ := by
  unfold IndexEff.add KeyValueIndexedMapEff.add JM.when
  refine .left rfl (.right rfl ?_)
  dsimp only
  refine .bind_eq (baseAdd_sim fuel hf k hs hl hn hu hm) fun e t _ => ?_
  obtain ⟨t, u⟩ := t
  refine .left rfl (.right rfl ?_)
  simp only [bind_unit, decide_eq_true_eq]
  by_cases hc : s.size ≠ t.size
  · rw [if_pos hc, if_pos hc]; exact .rfl
  · rw [if_neg hc, if_neg hc]; exact .rfl

theorem put_sim (fuel : Nat) (hf : 2 ^ 31 ≤ fuel) (k : K) (v : V) {n : Int} {s : Index K V} (hs : Bd n s)
    (hl : s.nexts.len < 2 ^ 31 - 1) (hn : -2 ^ 31 ≤ n + 1 ∧ n + 1 < 2 ^ 31)
    (hu : -2 ^ 31 ≤ s.nextUnusedEntry + 1 ∧ s.nextUnusedEntry + 1 < 2 ^ 31) (hm : 0 ≤ s.maxHead) :
    Sim Eq (IndexEff.put eff k v) (KeyValueIndexedMapEff.put eff fuel k v) ⟨s, u⟩ :=
  .bind_eq (add_sim fuel hf k hs hl hn hu hm) fun _ _ _ => .rfl

theorem removeEnd_eq (head : Int) (free : Bool) (o : Option (Int × Int)) :
    (IndexEff.removeFound free head o : JM (Index K V) Int) = removeEnd head free o := by
  cases o with
  | none => rfl
  | some p =>
    obtain ⟨p, e⟩ := p
    simp only [removeEnd, Map.removeFound, IndexEff.removeFound, assoc]
    congr 1; funext nx; congr 1; funext _
    cases free <;> simp only [assoc, if_true, if_false, Bool.false_eq_true]

theorem removeLoop_sim {n : Int} (hn : -2 ^ 31 ≤ n - 1 ∧ n - 1 < 2 ^ 31) (key : K) (head : Int) (free : Bool) :
    ∀ (m f : Nat) (prev e : Int) (s : Index K V) (u : σ), m ≤ f → Bd n s →
    Sim Removed (IndexEff.findKeyLoop eff key m prev e >>= fun o => lift (removeEnd head free o))
      (KeyValueIndexedMapEff.removeKey_loop1 eff key free head f prev e) ⟨s, u⟩
  | 0, _, _, _, _, _, _, _ => by unfold IndexEff.findKeyLoop; exact .inl rfl
  | m + 1, 0, _, _, _, _, h, _ => absurd h (by omega)
  | m + 1, f + 1, prev, e, s, u, h, hs => by
    unfold IndexEff.findKeyLoop KeyValueIndexedMapEff.removeKey_loop1
    by_cases he : e ≥ 0
    · rw [if_pos he, if_pos (show decide (e ≥ 0) = true by simpa using he)]
      simp only [assoc]
      refine ask (fun _ => rd_keeps _ _) fun k u _ => ?_
      refine ask (fun _ => eq_keeps _ _) fun r u _ => ?_
      by_cases hq : r = true
      · rw [if_pos hq, if_neg (by simp [hq])]
        refine .left rfl ?_
        unfold removeEnd
        dsimp only
        have := lift_sim (σ := σ) (u := u) (removeFound_sim hn head free prev e (Flow.ret e : Flow Int Int) hs)
        rw [lift_bind]
        refine .tailL (R := fun _ b => b = Flow.ret e) ?_ fun _ _ _ _ hb => .pure (.inl hb)
        refine cast ?_ this
        congr 1
        simp only [lift_bind, lift_pure]
        congr 1; funext nx
        have hi : ∀ (c : Prop) [Decidable c] (x y : JM (Index K V) Unit),
            (lift (if c then x else y) : JM (IndexObs σ K V) Unit) = if c then lift x else lift y := by
          intro c _ x y; split <;> rfl
        simp only [hi, lift_bind, lift_pure]
      · rw [if_neg hq, if_pos (by simp [hq])]
        simp only [assoc]
        refine ask (fun _ => rd_keeps _ _) fun nx u _ => ?_
        exact removeLoop_sim hn key head free m f e nx s u (by omega) hs
    · rw [if_neg he, if_neg (by simpa using he)]
      refine .left rfl ?_
      exact .pure (.inr ⟨rfl, _, rfl⟩)

theorem removeKey_sim (fuel : Nat) (hf : 2 ^ 31 ≤ fuel) (key : K) (free : Bool) {n : Int} {s : Index K V}
    (hs : Bd n s) (hl : s.nexts.len < 2 ^ 31 - 1) (hn : -2 ^ 31 ≤ n - 1 ∧ n - 1 < 2 ^ 31) :
    Sim Eq (IndexEff.removeKey eff key free) (KeyValueIndexedMapEff.removeKey eff fuel key free) ⟨s, u⟩ := by
  unfold IndexEff.removeKey KeyValueIndexedMapEff.removeKey
  rw [computeHead_eq]
  refine ask (fun _ => computeHead_keeps key) fun head u _ => ?_
  refine ask (fun _ => rd_keeps _ _) fun e u _ => ?_
  refine .ite (by simp) (fun _ => .pure rfl) fun _ => ?_
  refine .left rfl ?_
  dsimp only
  simp only [removeEnd_eq]
  refine .tailR (removeLoop_sim hn key head free (s.nexts.len + 1) fuel (-1) e s u (by omega) hs) fun a b t _ hr => ?_
  rcases hr with rfl | ⟨rfl, p, rfl⟩
  · exact .pure rfl
  · exact .pure rfl

/-- One call of the generated class, with functions that have effects. -/
def step (eff : Effects σ K) (fuel : Nat) : Index.Op K V → JM (IndexObs σ K V) (Index.Out K V)
  | .add k => do return .int (← KeyValueIndexedMapEff.add eff fuel k)
  | .put k v => do return .int (← KeyValueIndexedMapEff.put eff fuel k v)
  | .lookupEntry k => do return .int (← KeyValueIndexedMapEff.lookupEntry eff fuel k)
  | .containsKey k => do return .bool (← KeyValueIndexedMapEff.containsKey eff fuel k)
  | .get k => do return .val (← KeyValueIndexedMapEff.getValue eff fuel k)
  | .getOrDefault k d => do return .val (← KeyValueIndexedMapEff.getOrDefault eff fuel k d)
  | .remove k => do return .int (← KeyValueIndexedMapEff.remove1 eff fuel k)
  | .removeAtAndReserve e => do KeyValueIndexedMapEff.removeAtAndReserve eff fuel e; pure .unit
  | o => lift (Map.step fuel o)

theorem sim_map {m g : JM (IndexObs σ K V) β} {s : IndexObs σ K V} (f : β → γ) (h : Sim Eq m g s) :
    Sim Eq (m >>= fun x => pure (f x)) (g >>= fun x => pure (f x)) s :=
  .bind_eq h fun _ _ _ => .rfl

theorem step_sim {tight : Prop} {a : IndexSpec.Abs K V} {F : List Int} {s : Index K V} (fuel : Nat) (hf : 2 ^ 31 ≤ fuel)
    (h : Index.Inv tight s a F) (hb : Bx s) (o : Index.Op K V) (ho : IntArg o) :
    Sim Eq (IndexEff.step eff o) (step eff fuel o) ⟨s, u⟩ := by
  have hcap := h.cap_pos
  have hn := h.nlen
  have hl := h.hlen
  have hu := h.next
  have hu0 := h.next0
  have hle := h.next_le
  have hm := h.maxHead.1
  have hsz := h.size
  have hcnt := h.count
  have hb' : Bd s.size s := by obtain ⟨n, hb⟩ := hb; exact ⟨rfl, hb.cap, hb.heads, hb.max⟩
  have hmx := hb'.max
  have look (k : K) := lookup_sim (eff := eff) (u := u) fuel hf k (s := s) (by omega)
  have plain := lift_sim (σ := σ) (u := u) (Map.step_sim fuel hf h hb o ho)
  cases o with
  | add k => exact sim_map _ (add_sim fuel hf k hb' (by omega) (by omega) (by omega) hm)
  | put k v => exact sim_map _ (put_sim fuel hf k v hb' (by omega) (by omega) (by omega) hm)
  | lookupEntry k => exact sim_map _ (look k)
  | containsKey k => exact sim_map _ (sim_map _ (look k))
  | get k =>
    refine sim_map _ (.bind_eq (look k) fun e t _ => ?_)
    by_cases he : e = -1
    · rw [if_pos he]; dsimp only; rw [if_pos (by simpa using he)]; exact .inr rfl
    · rw [if_neg he]; dsimp only; rw [if_neg (by simpa using he)]; exact .right rfl .rfl
  | getOrDefault k d =>
    refine sim_map _ (.bind_eq (look k) fun e t _ => ?_)
    exact .ite (by simp) (fun _ => .rfl) (fun _ => .rfl)
  | remove k => exact sim_map _ (removeKey_sim fuel hf k true hb' (by omega) (by omega))
  | removeAtAndReserve e =>
    refine .bind_eq ?_ fun _ _ _ => .rfl
    unfold IndexEff.removeAtAndReserve KeyValueIndexedMapEff.removeAtAndReserve
    refine ask (fun _ => rd_keeps _ _) fun k u _ => ?_
    exact .bind_eq (removeKey_sim fuel hf k false hb' (by omega) (by omega)) fun _ _ _ => .rfl
  | _ => exact plain

end Verif.Link.MapEff

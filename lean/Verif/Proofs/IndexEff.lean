import Verif.Spec.IndexEff
import Verif.Proofs.Index8
set_option linter.unusedSectionVars false
/-! The questions the calls of an indexed collection ask its hash and equality functions. -/
namespace Verif.IndexEffProof
open Verif.Index Verif.IndexEff Verif.IndexEffSpec Verif.IndexSpec
variable {σ K V α β : Type} [Inhabited K] [Inhabited V]

/-- The result `r` on the collection, with `u` outside. -/
def lifts (r : Res (Index K V) α) (u : σ) : Res (IndexObs σ K V) α :=
  match r with
  | .ok a s => .ok a ⟨s, u⟩
  | .err e s => .err e ⟨s, u⟩

theorem lift_apply (m : JM (Index K V) α) (s : Index K V) (u : σ) : lift m ⟨s, u⟩ = lifts (m s) u := by
  show (match m s with
    | .ok a i => Res.ok a (⟨i, u⟩ : IndexObs σ K V)
    | .err e i => .err e ⟨i, u⟩) = _
  unfold lifts
  cases m s <;> rfl

theorem lift_ok {m : JM (Index K V) α} {s t : Index K V} {x : α} (h : m s = .ok x t) (u : σ) :
    lift m (⟨s, u⟩ : IndexObs σ K V) = .ok x ⟨t, u⟩ := by rw [lift_apply, h]; rfl

theorem jm_assoc {τ γ : Type} (m : JM τ α) (f : α → JM τ β) (g : β → JM τ γ) :
    m >>= f >>= g = m >>= fun x => f x >>= g := by
  show JM.mk _ = JM.mk _
  congr 1
  funext s
  show (m >>= f >>= g) s = (m >>= fun x => f x >>= g) s
  rw [JM.bind_apply, JM.bind_apply, JM.bind_apply]
  cases h : m s with
  | ok a t => simp only []; rw [JM.bind_apply]
  | err e t => rfl

variable (eff : Effects σ K) (h : K → BitVec 32) (q : K → K → Bool)

/-- `m` asks `Q` and then ends with `r`. -/
def Asks (m : JM (IndexObs σ K V) α) (r : Res (Index K V) α) (s : Index K V) (Q : List (Ask K)) : Prop :=
  ∀ u, match askAll eff h q Q u with
    | .err e u' => ∃ t, m ⟨s, u⟩ = .err e ⟨t, u'⟩
    | .ok _ u' => m ⟨s, u⟩ = lifts r u'

/-- `m` asks `Q` before it changes the collection, then `Q'`, and ends with `r`. -/
def First (m : JM (IndexObs σ K V) α) (r : Res (Index K V) α) (s : Index K V) (Q Q' : List (Ask K)) : Prop :=
  ∀ u, match askAll eff h q Q u with
    | .err e u' => m ⟨s, u⟩ = .err e ⟨s, u'⟩
    | .ok _ u' => match askAll eff h q Q' u' with
      | .err e u'' => ∃ t, m ⟨s, u⟩ = .err e ⟨t, u''⟩
      | .ok _ u'' => m ⟨s, u⟩ = lifts r u''

variable {eff h q}

theorem Asks.step {m : JM (Index K V) α} {f : α → JM (IndexObs σ K V) β} {r : Res (Index K V) β} {s t : Index K V}
    {x : α} {Q : List (Ask K)} (hm : m s = .ok x t) (hf : Asks eff h q (f x) r t Q) :
    Asks eff h q (lift m >>= f) r s Q := by
  intro u
  have := hf u
  rw [JM.bind_ok (lift_ok hm u)]
  exact this

theorem Asks.done {m : JM (Index K V) α} {r : Res (Index K V) α} {s : Index K V} (hm : m s = r) :
    Asks eff h q (lift m) r s [] := fun u => by
  show lift m ⟨s, u⟩ = lifts r u
  rw [lift_apply, hm]

theorem hash_step (hE : Honest eff) {f : BitVec 32 → JM (IndexObs σ K V) β} {s : Index K V} (hs : s.hashFunc = h) {k : K} {u : σ} :
    (hashE eff k >>= f) ⟨s, u⟩ = match eff.hash h k u with
      | .ok _ u' => f (h k) ⟨s, u'⟩
      | .err e u' => .err e ⟨s, u'⟩ := by
  subst hs
  rw [JM.bind_apply]
  unfold hashE
  simp only
  cases he : eff.hash s.hashFunc k u with
  | ok r u' => rw [hE.hash _ k u r u' he]
  | err e u' => rfl

theorem eq_step (hE : Honest eff) {f : Bool → JM (IndexObs σ K V) β} {s : Index K V} (hs : s.equalFunc = q) {a b : K} {u : σ} :
    (eqE eff a b >>= f) ⟨s, u⟩ = match eff.eq q a b u with
      | .ok _ u' => f (q a b) ⟨s, u'⟩
      | .err e u' => .err e ⟨s, u'⟩ := by
  subst hs
  rw [JM.bind_apply]
  unfold eqE
  simp only
  cases he : eff.eq s.equalFunc a b u with
  | ok r u' => rw [hE.eq _ a b u r u' he]
  | err e u' => rfl

theorem askAll_hash (k : K) (l : List (Ask K)) (u : σ) : askAll eff h q (.hash k :: l) u =
    match eff.hash h k u with
    | .ok _ u' => askAll eff h q l u'
    | .err e u' => .err e u' := by
  rw [askAll, JM.bind_apply]
  cases eff.hash h k u <;> rfl

theorem askAll_eq (a b : K) (l : List (Ask K)) (u : σ) : askAll eff h q (.eq a b :: l) u =
    match eff.eq q a b u with
    | .ok _ u' => askAll eff h q l u'
    | .err e u' => .err e u' := by
  rw [askAll, JM.bind_apply]
  cases eff.eq q a b u <;> rfl

theorem head_eq {s : Index K V} (hs : s.hashFunc = h) (hE : Honest eff) (k : K) {f : Int → JM (IndexObs σ K V) β} (u : σ) :
    (IndexEff.computeHead eff k >>= f) ⟨s, u⟩ = match eff.hash h k u with
      | .ok _ u' => f (headOf h s.heads.len k) ⟨s, u'⟩
      | .err e u' => .err e ⟨s, u'⟩ := by
  unfold IndexEff.computeHead
  rw [jm_assoc, hash_step hE hs]
  cases he : eff.hash h k u with
  | ok r u' => rfl
  | err e u' => rfl

theorem Asks.head {f : Int → JM (IndexObs σ K V) β} {r : Res (Index K V) β} {s : Index K V} {Q : List (Ask K)}
    (hE : Honest eff) (hs : s.hashFunc = h) (k : K) (hf : Asks eff h q (f (headOf h s.heads.len k)) r s Q) :
    Asks eff h q (IndexEff.computeHead eff k >>= f) r s (.hash k :: Q) := by
  intro u
  rw [askAll_hash, head_eq hs hE]
  cases he : eff.hash h k u with
  | ok r u' => exact hf u'
  | err e u' => exact ⟨s, rfl⟩

namespace First
variable {f : α → JM (IndexObs σ K V) β} {r : Res (Index K V) β} {s : Index K V} {Q Q' : List (Ask K)}

theorem now {m : JM (IndexObs σ K V) β} (hm : Asks eff h q m r s Q) : First eff h q m r s [] Q := hm

theorem read {m : JM (Index K V) α} {x : α} (hm : m s = .ok x s) (hf : First eff h q (f x) r s Q Q') :
    First eff h q (lift m >>= f) r s Q Q' := by
  intro u
  rw [JM.bind_ok (lift_ok hm u)]
  exact hf u

theorem head {f : Int → JM (IndexObs σ K V) β} (hE : Honest eff) (hs : s.hashFunc = h) (k : K)
    (hf : First eff h q (f (headOf h s.heads.len k)) r s Q Q') :
    First eff h q (IndexEff.computeHead eff k >>= f) r s (.hash k :: Q) Q' := by
  intro u
  rw [askAll_hash, head_eq hs hE]
  cases he : eff.hash h k u with
  | ok r u' => exact hf u'
  | err e u' => rfl

theorem test {f : Bool → JM (IndexObs σ K V) β} (hE : Honest eff) (hs : s.equalFunc = q) {a b : K}
    (hf : First eff h q (f (q a b)) r s Q Q') : First eff h q (eqE eff a b >>= f) r s (.eq a b :: Q) Q' := by
  intro u
  rw [askAll_eq, eq_step hE hs]
  cases he : eff.eq q a b u with
  | ok r u' => exact hf u'
  | err e u' => rfl

/-- What follows asks nothing. -/
theorem bind {m : JM (IndexObs σ K V) α} {g : α → JM (Index K V) β} {m0 : JM (Index K V) α}
    (hm : First eff h q m (m0 s) s Q Q') (hf : ∀ x, f x = lift (g x))
    (hr : r = (m0 >>= g) s) : First eff h q (m >>= f) r s Q Q' := by
  rw [JM.bind_apply] at hr
  revert hm hr
  generalize m0 s = r1
  intro hm hr u
  have := hm u
  cases e1 : askAll eff h q Q u with
  | err e u' => rw [e1] at this; exact JM.bind_err this
  | ok _ u' =>
    rw [e1] at this
    simp only at this ⊢
    cases e2 : askAll eff h q Q' u' with
    | err e u'' => rw [e2] at this; obtain ⟨t, ht⟩ := this; exact ⟨t, JM.bind_err ht⟩
    | ok _ u'' =>
      rw [e2] at this
      simp only at this ⊢
      subst hr
      cases r1 with
      | ok x t => rw [JM.bind_ok this, hf, lift_apply]
      | err e t => exact JM.bind_err this

end First

theorem lift_pure (a : α) : (lift (pure a : JM (Index K V) α) : JM (IndexObs σ K V) α) = pure a := rfl
theorem lift_throw (e : Err) : (lift (JM.throw e : JM (Index K V) α) : JM (IndexObs σ K V) α) = JM.throw e := rfl
theorem lift_bind (m : JM (Index K V) α) (f : α → JM (Index K V) β) :
    (lift (m >>= f) : JM (IndexObs σ K V) β) = lift m >>= fun x => lift (f x) := by
  show JM.mk _ = JM.mk _
  congr 1
  funext t
  show lift (m >>= f) ⟨t.index, t.ext⟩ = (lift m >>= fun x => lift (f x)) ⟨t.index, t.ext⟩
  rw [JM.bind_apply, lift_apply, lift_apply, JM.bind_apply]
  cases m t.index with
  | ok a i => simp only [lifts]; rw [lift_apply]; rfl
  | err e i => rfl

/-! ### The search loops -/

theorem lookup_first (hE : Honest eff) {key : K} {s : Index K V} (hq : s.equalFunc = q) (hk : s.keys.len = s.nexts.len)
    {f : Int → JM (IndexObs σ K V) β} {r : Res (Index K V) β} {Q Q' : List (Ask K)} :
    ∀ (fuel : Nat) (e : Int) (l : List Int) (t : Int), Path s.nexts e l t → l.length < fuel →
      First eff h q (f ((l.find? fun x => q key (s.keys.get x)).getD (-1))) r s Q Q' →
      First eff h q (IndexEff.lookupLoop eff key fuel e >>= f) r s
        ((upto (q key) (l.map s.keys.get)).map (.eq key) ++ Q) Q'
  | 0, _, _, _, _, h, _ => by omega
  | fuel + 1, e, [], t, hp, _, hf => by
    have h1 := hp.1; have h2 := hp.2
    rw [IndexEff.lookupLoop, if_neg (by omega)]
    exact hf
  | fuel + 1, e, x :: l, t, hp, hl, hf => by
    obtain ⟨rfl, h0, h1, h2⟩ := hp
    rw [IndexEff.lookupLoop, if_pos h0]
    rw [jm_assoc]
    refine .read (rd_ok _ ⟨h0, by omega⟩) ?_
    rw [jm_assoc]
    simp only [List.map_cons, upto]
    by_cases hh : q key (s.keys.get e)
    · rw [if_pos hh, List.map_cons, List.map_nil, List.cons_append, List.nil_append]
      refine .test hE hq ?_
      rw [if_pos hh]
      rw [List.find?_cons, hh] at hf
      exact hf
    · rw [if_neg hh, List.map_cons, List.cons_append]
      refine .test hE hq ?_
      rw [if_neg hh, jm_assoc]
      refine .read (rd_ok _ ⟨h0, h1⟩) ?_
      refine lookup_first hE hq hk fuel _ l t h2 (by simpa using hl) ?_
      rw [List.find?_cons] at hf
      simp only [Bool.not_eq_true] at hh
      rw [hh] at hf
      exact hf

theorem findKey_first (hE : Honest eff) {key : K} {s : Index K V} (hq : s.equalFunc = q) (hk : s.keys.len = s.nexts.len)
    {f : Option (Int × Int) → JM (IndexObs σ K V) β} {r : Res (Index K V) β} {Q Q' : List (Ask K)} :
    ∀ (fuel : Nat) (p e : Int) (l : List Int) (t : Int), Path s.nexts e l t → l.length < fuel →
      ∀ x, Index.findKeyLoop key fuel p e s = .ok x s →
      First eff h q (f x) r s Q Q' →
      First eff h q (IndexEff.findKeyLoop eff key fuel p e >>= f) r s
        ((upto (q key) (l.map s.keys.get)).map (.eq key) ++ Q) Q'
  | 0, _, _, _, _, _, h, _, _, _ => by omega
  | fuel + 1, p, e, [], t, hp, _, y, hy, hf => by
    have h1 := hp.1; have h2 := hp.2
    rw [IndexEff.findKeyLoop, if_neg (by omega)]
    rw [Index.findKeyLoop, if_neg (by omega)] at hy
    simp only [JM.pure_apply, Res.ok.injEq, and_true] at hy
    subst hy
    exact hf
  | fuel + 1, p, e, x :: l, t, hp, hl, y, hy, hf => by
    obtain ⟨rfl, h0, h1, h2⟩ := hp
    rw [Index.findKeyLoop, if_pos h0, JM.bind_ok (rd_ok _ ⟨h0, by omega⟩), JM.bind_ok (JM.get_apply _), hq] at hy
    rw [IndexEff.findKeyLoop, if_pos h0, jm_assoc]
    refine .read (rd_ok _ ⟨h0, by omega⟩) ?_
    rw [jm_assoc]
    simp only [List.map_cons, upto]
    by_cases hh : q key (s.keys.get e)
    · rw [if_pos hh, List.map_cons, List.map_nil, List.cons_append, List.nil_append]
      refine .test hE hq ?_
      rw [if_pos hh] at hy ⊢
      simp only [JM.pure_apply, Res.ok.injEq, and_true] at hy
      subst hy
      exact hf
    · rw [if_neg hh, List.map_cons, List.cons_append]
      refine .test hE hq ?_
      rw [if_neg hh, JM.bind_ok (rd_ok _ ⟨h0, h1⟩)] at hy
      rw [if_neg hh, jm_assoc]
      refine .read (rd_ok _ ⟨h0, h1⟩) ?_
      exact findKey_first hE hq hk fuel _ _ l t h2 (by simpa using hl) y hy hf

/-! ### The loops of rehash -/

theorem updateMaxHead_ok (s : Index K V) (i : Int) : updateMaxHead i s =
    .ok () { s with maxHead := if i > s.maxHead then i else s.maxHead } := rfl

theorem chain_asks (hE : Honest eff) (oldNexts : Arr Int) (oldKeys : Arr K) (N M : Nat)
    (hN1 : 1 ≤ N) (hN2 : N ≤ 2 ^ 29) (hkl : oldKeys.len = oldNexts.len) (hM : oldNexts.len ≤ M)
    {f : Unit → JM (IndexObs σ K V) β} {r : Res (Index K V) β} {Q : List (Ask K)} :
    ∀ (fuel : Nat) (entry : Int) (l : List Int) (t : Int), Path oldNexts entry l t → l.length < fuel →
    ∀ (s s' : Index K V), s.hashFunc = h → s.heads.len = N → s.nexts.len = M →
      Index.rehashChain oldNexts oldKeys fuel entry s = .ok () s' →
      (s'.hashFunc = h → s'.heads.len = N → s'.nexts.len = M → Asks eff h q (f ()) r s' Q) →
      Asks eff h q (IndexEff.rehashChain eff oldNexts oldKeys fuel entry >>= f) r s
        ((l.map oldKeys.get).map .hash ++ Q)
  | 0, _, _, _, _, h => by omega
  | fuel + 1, entry, [], t, hp, _ => by
    intro s s' hs h1 h2 hc hf
    have g1 := hp.1; have g2 := hp.2
    rw [IndexEff.rehashChain, if_neg (by omega)]
    rw [Index.rehashChain, if_neg (by omega)] at hc
    simp only [JM.pure_apply, Res.ok.injEq, true_and] at hc
    subst hc
    exact hf hs h1 h2
  | fuel + 1, entry, e :: l, t, hp, hl => by
    intro s s' hs g1 g2 hc hf
    obtain ⟨rfl, h0, h1, h2⟩ := hp
    have hhr := headOf_range h hN1 hN2 (oldKeys.get entry)
    have hcc : Index.computeHead (oldKeys.get entry) s = .ok (headOf h N (oldKeys.get entry)) s := by
      rw [← hs, ← g1]; rfl
    rw [Index.rehashChain, if_pos h0, JM.bind_ok (rdA_ok _ ⟨h0, by omega⟩), JM.bind_ok hcc,
      JM.bind_ok (register_ok hhr.1 (by omega) h0 (by omega)), JM.bind_ok (updateMaxHead_ok _ _),
      JM.bind_ok (rdA_ok _ ⟨h0, by omega⟩)] at hc
    rw [IndexEff.rehashChain, if_pos h0, jm_assoc]
    refine .step (rdA_ok _ ⟨h0, by omega⟩) ?_
    rw [jm_assoc, List.map_cons, List.map_cons, List.cons_append]
    refine .head hE hs _ ?_
    rw [jm_assoc, g1]
    refine .step (register_ok hhr.1 (by omega) h0 (by omega)) ?_
    rw [jm_assoc]
    refine .step (updateMaxHead_ok _ _) ?_
    rw [jm_assoc]
    refine .step (rdA_ok _ ⟨h0, by omega⟩) ?_
    exact chain_asks hE oldNexts oldKeys N M hN1 hN2 hkl hM fuel _ l t h2 (by simpa using hl) _ s' hs g1 g2 hc hf

/-- The entries in the order of the old table. -/
def oldOrder (oldHeads oldNexts : Arr Int) : Nat → Int → List Int
  | 0, _ => []
  | n + 1, i => chainFrom oldNexts (oldNexts.len + 1) (oldHeads.get i) ++ oldOrder oldHeads oldNexts n (i + 1)

theorem chain_keeps (oldNexts : Arr Int) (oldKeys : Arr K) (N M : Nat)
    (hN1 : 1 ≤ N) (hN2 : N ≤ 2 ^ 29) (hkl : oldKeys.len = oldNexts.len) (hM : oldNexts.len ≤ M) :
    ∀ (fuel : Nat) (entry : Int) (l : List Int) (t : Int), Path oldNexts entry l t → l.length < fuel →
    ∀ (s : Index K V), s.heads.len = N → s.nexts.len = M →
      ∃ s', Index.rehashChain oldNexts oldKeys fuel entry s = .ok () s'
  | 0, _, _, _, _, h => by omega
  | fuel + 1, entry, [], t, hp, _ => by
    intro s _ _
    have g1 := hp.1; have g2 := hp.2
    rw [Index.rehashChain, if_neg (by omega)]
    exact ⟨s, rfl⟩
  | fuel + 1, entry, e :: l, t, hp, hl => by
    intro s g1 g2
    obtain ⟨rfl, h0, h1, h2⟩ := hp
    have hhr := headOf_range s.hashFunc hN1 hN2 (oldKeys.get entry)
    have hcc : Index.computeHead (oldKeys.get entry) s = .ok (headOf s.hashFunc N (oldKeys.get entry)) s := by
      rw [← g1]; rfl
    rw [Index.rehashChain, if_pos h0, JM.bind_ok (rdA_ok _ ⟨h0, by omega⟩), JM.bind_ok hcc,
      JM.bind_ok (register_ok hhr.1 (by omega) h0 (by omega)), JM.bind_ok (updateMaxHead_ok _ _),
      JM.bind_ok (rdA_ok _ ⟨h0, by omega⟩)]
    exact chain_keeps oldNexts oldKeys N M hN1 hN2 hkl hM fuel _ l t h2 (by simpa using hl) _ g1 g2

theorem heads_asks (hE : Honest eff) (oldHeads oldNexts : Arr Int) (oldKeys : Arr K) (N M : Nat)
    (hN1 : 1 ≤ N) (hN2 : N ≤ 2 ^ 29) (hkl : oldKeys.len = oldNexts.len) (hM : oldNexts.len ≤ M)
    (hch : ∀ i : Int, 0 ≤ i → i < oldHeads.len →
      ∃ t, Path oldNexts (oldHeads.get i) (chainFrom oldNexts (oldNexts.len + 1) (oldHeads.get i)) t)
    {f : Unit → JM (IndexObs σ K V) β} {r : Res (Index K V) β} {Q : List (Ask K)} :
    ∀ (n : Nat) (i : Int), 0 ≤ i → i + n ≤ oldHeads.len →
    ∀ (s s' : Index K V), s.hashFunc = h → s.heads.len = N → s.nexts.len = M →
      Index.rehashHeads oldHeads oldNexts oldKeys n i s = .ok () s' →
      (s'.hashFunc = h → s'.heads.len = N → s'.nexts.len = M → Asks eff h q (f ()) r s' Q) →
      Asks eff h q (IndexEff.rehashHeads eff oldHeads oldNexts oldKeys n i >>= f) r s
        (((oldOrder oldHeads oldNexts n i).map oldKeys.get).map .hash ++ Q)
  | 0, i, _, _ => by
    intro s s' hs h1 h2 hc hf
    rw [Index.rehashHeads] at hc
    simp only [JM.pure_apply, Res.ok.injEq, true_and] at hc
    subst hc
    exact hf hs h1 h2
  | n + 1, i, h0, h1 => by
    intro s s' hs g1 g2 hc hf
    obtain ⟨t, hp⟩ := hch i h0 (by omega)
    have hl := hp.length_le
    rw [Index.rehashHeads, JM.bind_ok (rdA_ok _ ⟨h0, by omega⟩)] at hc
    obtain ⟨s1, hs1⟩ := chain_keeps oldNexts oldKeys N M hN1 hN2 hkl hM (oldNexts.len + 1) _ _ t hp
      (by omega) s g1 g2
    rw [JM.bind_ok hs1] at hc
    rw [IndexEff.rehashHeads, jm_assoc]
    refine .step (rdA_ok _ ⟨h0, by omega⟩) ?_
    rw [jm_assoc, oldOrder, List.map_append, List.map_append, List.append_assoc]
    refine chain_asks hE oldNexts oldKeys N M hN1 hN2 hkl hM _ _ _ t hp (by omega) s s1 hs g1 g2 hs1 ?_
    intro k1 k2 k3
    exact heads_asks hE oldHeads oldNexts oldKeys N M hN1 hN2 hkl hM hch n (i + 1) (by omega) (by omega) s1 s' k1 k2 k3
      hc hf

end Verif.IndexEffProof

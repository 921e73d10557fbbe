import Verif.Proofs.SortMem1
set_option linter.unusedSectionVars false
/-! A comparator with effects whose answers depend on the keys only: the sort does what Model/Sort.lean says. -/
namespace Verif.SortMemProof
open Verif.SortMem Verif.SortSpec Verif.SortProof
open Verif.CompanionSort (Arrs)
variable {S K V α β : Type} {M : Mem S K V} {cnt : S → Nat} {cmp : Cmp S K} {P : K → Prop} {v : K}
  {c0 : K → K → Except Err Int}

/-- `m'` does to the arrays what `m` does. -/
def Sim (M : Mem S K V) (m' : JM S α) (m : JM (Arrs K V) α) (s : S) : Prop :=
  match m' s with
  | .ok a t => m (view M s) = .ok a (view M t)
  | .err e t => m (view M s) = .err e (view M t)

namespace Sim
variable {m' : JM S α} {m : JM (Arrs K V) α} {s : S}
theorem pure (a : α) (s : S) : Sim M (Pure.pure a) (Pure.pure a) s := rfl
theorem throw (e : Err) (s : S) : Sim M (JM.throw e : JM S α) (JM.throw e) s := rfl
theorem bind {f' : α → JM S β} {f : α → JM (Arrs K V) β} (h : Sim M m' m s)
    (hf : ∀ x t, Sim M (f' x) (f x) t) : Sim M (m' >>= f') (m >>= f) s := by
  unfold Sim at h
  cases hm : m' s with
  | ok x t =>
    rw [hm] at h
    have := hf x t
    unfold Sim at this ⊢
    rw [JM.bind_ok hm, JM.bind_ok h]; exact this
  | err e t =>
    rw [hm] at h
    unfold Sim
    rw [JM.bind_err hm, JM.bind_err h]
theorem ite {p : Prop} [Decidable p] {n' : JM S α} {n : JM (Arrs K V) α} (h : Sim M m' m s) (h' : Sim M n' n s) :
    Sim M (if p then m' else n') (if p then m else n) s := by
  split
  · exact h
  · exact h'
theorem when {p : Prop} [Decidable p] {n' : JM S Unit} {n : JM (Arrs K V) Unit} (h : Sim M n' n s) :
    Sim M (JM.when p n') (JM.when p n) s := ite h (Sim.pure _ _)
end Sim

theorem rd_sim (i : Int) (s : S) : Sim M (rd M.pri i) (rd Arrs.pri i) s := by
  unfold Sim rd
  simp only
  by_cases h : 0 ≤ i ∧ i < ((M.pri s).len : Int)
  · rw [if_pos h]
    exact if_pos (show 0 ≤ i ∧ i < (((view M s).pri).len : Int) from h)
  · rw [if_neg h]
    exact if_neg (show ¬(0 ≤ i ∧ i < (((view M s).pri).len : Int)) from h)

theorem rdSec_sim (i : Int) (s : S) : Sim M (rd M.sec i) (rd Arrs.sec i) s := by
  unfold Sim rd
  simp only
  by_cases h : 0 ≤ i ∧ i < ((M.sec s).len : Int)
  · rw [if_pos h]
    exact if_pos (show 0 ≤ i ∧ i < (((view M s).sec).len : Int) from h)
  · rw [if_neg h]
    exact if_neg (show ¬(0 ≤ i ∧ i < (((view M s).sec).len : Int)) from h)

/-- The comparator leaves the arrays alone and answers like `c0`. -/
def Answers (M : Mem S K V) (cmp : Cmp S K) (c0 : K → K → Except Err Int) : Prop :=
  ∀ x y s, Sim M (cmp x y) (CompanionSort.call c0 x y) s

/-- `swap` does to the arrays what `swap` of two different arrays does. -/
def SwapSim (M : Mem S K V) : Prop := ∀ a b s, Sim M (swap M a b) (CompanionSort.swap a b) s

section sim
variable (hc : Answers M cmp c0) (hw : SwapSim M)
include hc

theorem cmpAt_sim (i j : Int) (s : S) : Sim M (cmpAt M cmp i j) (CompanionSort.cmpAt c0 i j) s := by
  unfold cmpAt CompanionSort.cmpAt
  exact .bind (rd_sim i s) fun x t => .bind (rd_sim j t) fun y u => hc x y u

theorem med3_sim (a b c : Int) (s : S) : Sim M (med3 M cmp a b c) (CompanionSort.med3 c0 a b c) s := by
  unfold med3 CompanionSort.med3
  refine .bind (cmpAt_sim hc a b s) fun r t => .ite ?_ ?_
  all_goals
    refine .bind (cmpAt_sim hc b c t) fun r t => .ite (.pure _ _) ?_
    exact .bind (cmpAt_sim hc a c t) fun r t => .ite (.pure _ _) (.pure _ _)

theorem pivot_sim (off len : Int) (s : S) : Sim M (pivot M cmp off len) (CompanionSort.pivot c0 off len) s := by
  unfold pivot CompanionSort.pivot
  dsimp only
  refine .ite (.ite ?_ (med3_sim hc _ _ _ s)) (.pure _ _)
  exact .bind (med3_sim hc _ _ _ s) fun l t => .bind (med3_sim hc _ _ _ t) fun m u =>
    .bind (med3_sim hc _ _ _ u) fun n w => med3_sim hc l m n w

include hw

theorem sink_sim (off : Int) : ∀ (f : Nat) (j : Int) (s : S), Sim M (sink M cmp off f j) (CompanionSort.sink c0 off f j) s
  | 0, _, s => .throw _ s
  | f + 1, j, s => by
    unfold sink CompanionSort.sink
    refine .ite (.bind (cmpAt_sim hc _ _ s) fun r t => .ite ?_ (.pure _ _)) (.pure _ _)
    exact .bind (hw _ _ t) fun _ u => sink_sim off f (j - 1) u

theorem insertion_sim (off hi : Int) : ∀ (f : Nat) (i : Int) (s : S),
    Sim M (insertion M cmp off hi f i) (CompanionSort.insertion c0 off hi f i) s
  | 0, _, s => .throw _ s
  | f + 1, i, s => by
    unfold insertion CompanionSort.insertion
    exact .ite (.bind (sink_sim hc hw off _ i s) fun _ t => insertion_sim off hi f (i + 1) t) (.pure _ _)

theorem scanB_sim (c : Int) : ∀ (f : Nat) (a b : Int) (s : S),
    Sim M (scanB M cmp v c f a b) (CompanionSort.scanB c0 v c f a b) s
  | 0, _, _, s => .throw _ s
  | f + 1, a, b, s => by
    unfold scanB CompanionSort.scanB
    refine .ite (.bind (rd_sim b s) fun x t => .bind (hc x v t) fun r u => .ite ?_ (.pure _ _)) (.pure _ _)
    refine .bind (rd_sim b u) fun x w => .bind (hc x v w) fun r z => .ite ?_ (scanB_sim c f a (b + 1) z)
    exact .bind (hw a b z) fun _ z => scanB_sim c f (a + 1) (b + 1) z

theorem scanC_sim (b : Int) : ∀ (f : Nat) (c d : Int) (s : S),
    Sim M (scanC M cmp v b f c d) (CompanionSort.scanC c0 v b f c d) s
  | 0, _, _, s => .throw _ s
  | f + 1, c, d, s => by
    unfold scanC CompanionSort.scanC
    refine .ite (.bind (rd_sim c s) fun x t => .bind (hc x v t) fun r u => .ite ?_ (.pure _ _)) (.pure _ _)
    refine .bind (rd_sim c u) fun x w => .bind (hc x v w) fun r z => .ite ?_ (scanC_sim b f (c - 1) d z)
    exact .bind (hw c d z) fun _ z => scanC_sim b f (c - 1) (d - 1) z

theorem partition_sim : ∀ (f : Nat) (a b c d : Int) (s : S),
    Sim M (partition M cmp v f a b c d) (CompanionSort.partition c0 v f a b c d) s
  | 0, _, _, _, _, s => .throw _ s
  | f + 1, a, b, c, d, s => by
    unfold partition CompanionSort.partition
    refine .bind (scanB_sim hc hw _ _ _ _ s) fun (a, b) t => .bind (scanC_sim hc hw _ _ _ _ t) fun (c, d) u => ?_
    dsimp only
    exact .ite (.pure _ _) (.bind (hw b c u) fun _ w => partition_sim f a (b + 1) (c - 1) d w)

omit hc in
theorem vecswapN_sim : ∀ (n : Nat) (a b : Int) (s : S), Sim M (vecswapN M n a b) (CompanionSort.vecswapN n a b) s
  | 0, _, _, s => .pure _ s
  | n + 1, a, b, s => by
    unfold vecswapN CompanionSort.vecswapN
    exact .bind (hw a b s) fun _ t => vecswapN_sim n (a + 1) (b + 1) t

theorem sort_sim : ∀ (f : Nat) (off len : Int) (s : S),
    Sim M (sort M cmp f off len) (CompanionSort.sortF c0 f off len) s
  | 0, _, _, s => .throw _ s
  | f + 1, off, len, s => by
    unfold sort CompanionSort.sortF
    have key : ∀ {f' : S → JM S Unit} {g : Arrs K V → JM (Arrs K V) Unit}, Sim M (f' s) (g (view M s)) s →
        Sim M (get >>= f') (get >>= g) s := by
      intro f' g h
      unfold Sim at h ⊢
      rw [JM.bind_ok (JM.get_apply s), JM.bind_ok (JM.get_apply (view M s))]; exact h
    refine key ?_
    refine .ite (.throw _ _) (.ite (.throw _ _) (.ite (.throw _ _) (.ite (insertion_sim hc hw _ _ _ _ s) ?_)))
    refine .bind (pivot_sim hc off len s) fun m t => .bind (rd_sim m t) fun v u =>
      .bind (partition_sim hc hw _ _ _ _ _ u) fun (a, b, c, d) w => ?_
    dsimp only
    refine .bind (vecswapN_sim hw _ _ _ w) fun _ x => .bind (vecswapN_sim hw _ _ _ x) fun _ y => ?_
    exact .bind (.when (sort_sim f _ _ y)) fun _ z => .when (sort_sim f _ _ z)
end sim

theorem Sat.and {σ α : Type} {m : JM σ α} {s : σ} {Q Q' : α → σ → Prop} {E E' : Err → σ → Prop} (h : Sat m s Q E) (h' : Sat m s Q' E') :
    Sat m s (fun a t => Q a t ∧ Q' a t) (fun e t => E e t ∧ E' e t) := by
  unfold Sat at *
  cases hm : m s with
  | ok a t => rw [hm] at h h'; exact ⟨h, h'⟩
  | err a t => rw [hm] at h h'; exact ⟨h, h'⟩

theorem split_cost {p q n : Int} (hp : 0 ≤ p) (hq : 0 ≤ q) (h : p + q < n) :
    p * (p - 1) + q * (q - 1) ≤ (n - 1) * (n - 2) := by
  have h1 : (p + q) * (p + q - 1) = p * (p - 1) + q * (q - 1) + 2 * (p * q) := by ring
  have h2 : 0 ≤ p * q := Int.mul_nonneg hp hq
  have h3 : (p + q) * (p + q - 1) ≤ (n - 1) * (n - 2) := by
    by_cases h : p + q = 0
    · rw [h]
      by_cases h1 : n = 1
      · subst h1; decide
      · have : 0 ≤ (n - 1) * (n - 2) := Int.mul_nonneg (by omega) (by omega)
        omega
    · exact Int.mul_le_mul (by omega) (by omega) (by omega) (by omega)
  omega

theorem Sim.sat {m' : JM S α} {m : JM (Arrs K V) α} {s : S} (h : Sim M m' m s) {Q : α → Arrs K V → Prop}
    {E : Err → Arrs K V → Prop} (hs : Sat m (view M s) Q E) :
    Sat m' s (fun a t => Q a (view M t)) (fun e t => E e (view M t)) := by
  unfold Sim at h
  unfold Sat at *
  cases hm : m' s with
  | ok a t => rw [hm] at h; rw [h] at hs; exact hs
  | err e t => rw [hm] at h; rw [h] at hs; exact hs

/-- With answers that depend on the keys only and `compare(x, x) = 0`, the parts shrink. -/
theorem sort_bound (hw : Swaps M cnt) (hws : SwapSim M) (ht : Tame M cnt cmp) (hc : Answers M cmp c0)
    (hrefl : ∀ x, P x → ∀ r, c0 x x = .ok r → r = 0) : ∀ (f : Nat) (off len : Int) (s : S),
    InBoth (view M s) off len → Sized (view M s) → KeysIn M P off (off + len) s →
    Sat (sort M cmp f off len) s
      (fun _ t => 2 * (cnt t : Int) ≤ 2 * cnt s + 3 * (len * (len - 1)))
      (fun _ t => 2 * (cnt t : Int) ≤ 2 * cnt s + 3 * (len * (len - 1)))
  | 0, off, len, s, hs, _, _ => by
    refine Sat.throw ?_
    have : 0 ≤ len * (len - 1) := by
      obtain ⟨_, s2, _⟩ := hs
      by_cases h : len = 0
      · subst h; decide
      · exact Int.mul_nonneg (by omega) (by omega)
    omega
  | f + 1, off, len, s, hs, hz, hP => by
    have hs' : InBoth (view M s) off (off + len - off) := by
      have : off + len - off = len := by omega
      rw [this]; exact hs
    have hs0 := hs
    have hz0 := hz
    obtain ⟨s1, s2, s3, s4⟩ := hs
    obtain ⟨z1, z2⟩ := hz
    have s3 : off + len ≤ ((M.pri s).len : Int) := s3
    have s4 : off + len ≤ ((M.sec s).len : Int) := s4
    have z1 : (M.pri s).len < 2147483648 := z1
    have e0 : i32 (off + len) = off + len := i32_of_range (by omega)
    have e1 : i32 (off + len - 1) = off + len - 1 := i32_of_range (by omega)
    have e2 : i32 (len + off) = off + len := by rw [Int.add_comm]; exact e0
    unfold sort
    refine Sat.ok_bind (JM.get_apply s) ?_
    simp only [e0, e1, e2]
    rw [if_neg (by omega), if_neg (by omega), if_neg (by omega)]
    by_cases h7 : len < 7
    · rw [if_pos h7]
      have hb : tri off (off + len) off = len * (len - 1) := by
        unfold tri
        rw [show off + len - off = len by omega, show off - off = 0 by omega]; omega
      have hpos := tri_nonneg (off := off) (hi := off + len) (i := off) (by omega) (by omega)
      refine (insertion_sat (P := P) hw ht _ off s hs' (by omega) (by omega) (by omega) hP).mono ?_ ?_
      · rintro _ t ⟨m, hc⟩; omega
      · rintro e t ⟨m, hc, hth⟩; omega
    · rw [if_neg h7]
      have hlev := level_cost (len := len) (by omega)
      have hone : len * (len - 1) = (len - 1) * (len - 2) + 2 * (len - 1) := by ring
      have hpos : 0 ≤ (len - 1) * (len - 2) := Int.mul_nonneg (by omega) (by omega)
      refine Sat.bind ((pivot_sat ht hs0 hz0 (by omega) hP).mono (fun _ _ h => h)
        (fun e t h => by have := h.2.1; omega)) ?_
      rintro m t ⟨vt, ct, hm1, hm2⟩
      have hst : InBoth (view M t) off (off + len - off) := by rw [vt]; exact hs'
      have hPt : KeysIn M P off (off + len) t := by unfold KeysIn; rw [vt]; exact hP
      have hlt : off + (off + len - off) ≤ ((M.pri t).len : Int) := hst.2.2.1
      refine Sat.ok_bind (rd_ok M.pri (by omega)) ?_
      have hPv : P ((M.pri t).get m) := hPt m ⟨hm1, hm2⟩
      generalize hv : (M.pri t).get m = v at hPv ⊢
      have mt0 : Moves off (off + len) (view M s) (view M t) := by rw [vt]; exact Moves.refl _ _ _
      have i0 : PInv c0 v off (off + len) off off (off + len - 1) (off + len - 1) (view M t) :=
        ⟨by omega, by omega, by omega, by omega, by omega, fun k _ _ => by omega, fun k _ _ => by omega,
          fun k _ _ => by omega, fun k _ _ => by omega⟩
      have pboth := Sat.and
        (partition_sat hw ht hPv ((off + len - 1 - off).toNat + 2) off off (off + len - 1) (off + len - 1) t hst hPt
          (by omega) (by omega) (by omega) (by omega) (by omega) (by omega))
        (Sim.sat (partition_sim hc hws (v := v) ((off + len - 1 - off).toNat + 2) off off (off + len - 1) (off + len - 1) t)
          (SortProof.partition_sat (P := P) hPv _ off off _ _ (view M t) hst hPt i0 (by omega)))
      refine Sat.bind (pboth.mono (fun _ _ h => h) (fun e t h => by have := h.1.2.1; omega)) ?_
      rintro ⟨a, b, c, d⟩ u ⟨⟨mu, iu, cu⟩, _, pu, hcb⟩
      dsimp only at iu cu pu hcb ⊢
      have hlt := some_equal mu pu hcb (hrefl v hPv) ⟨hm1, hm2⟩ hv
      obtain ⟨k1, k2, k3, k4, k5, k6, k7, k8, k9, k10⟩ := iu
      have mu' := mt0.trans mu
      unfold vecswap
      obtain ⟨w, ew, mw, cw⟩ := vecswapN_sat hw (lo := off) (hi := off + len) (min (a - off) (b - a)).toNat off
        (b - min (a - off) (b - a)) u (mu.inBoth hst) (fun hn => by omega)
      refine Sat.ok_bind ew ?_
      have mw' := mu'.trans mw
      obtain ⟨x, ex, mx, cx⟩ := vecswapN_sat hw (lo := off) (hi := off + len) (min (d - c) (off + len - d - 1)).toNat b
        (off + len - min (d - c) (off + len - d - 1)) w (mw'.inBoth hs') (fun hn => by omega)
      refine Sat.ok_bind ex ?_
      have mx' := mw'.trans mx
      have cx' : (cnt x : Int) ≤ cnt s + 3 * (len - 1) := by omega
      have hsx : InBoth (view M x) off len := mx'.inBoth hs0
      have hzx : Sized (view M x) := by unfold Sized; rw [mx'.1, mx'.2.1]; exact hz0
      have hPx := hP.moves mx'
      have nn : ∀ k : Int, 0 ≤ k → 0 ≤ k * (k - 1) := by
        intro k hk
        by_cases h : k = 0
        · subst h; decide
        · exact Int.mul_nonneg (by omega) (by omega)
      have hp : (b - a) * (b - a - 1) + (d - c) * (d - c - 1) ≤ (len - 1) * (len - 2) :=
        split_cost (by omega) (by omega) (by omega)
      have hn1 := nn (b - a) (by omega)
      have hn2 := nn (d - c) (by omega)
      have call1 : Sat (JM.when (b - a > 1) (sort M cmp f off (b - a))) x
          (fun _ y => Moves off (off + len) (view M s) (view M y) ∧
            2 * (cnt y : Int) ≤ 2 * cnt x + 3 * ((b - a) * (b - a - 1)))
          (fun e y => 2 * (cnt y : Int) ≤ 2 * cnt s + 3 * (len * (len - 1))) := by
        by_cases hb : b - a > 1
        · rw [JM.when_pos hb]
          have hx1 : InBoth (view M x) off (b - a) := by unfold InBoth at *; omega
          refine (Sat.and (sort_sat (P := P) hw ht f off (b - a) x hx1 hzx (fun k hk => hPx k (by omega)))
            (sort_bound hw hws ht hc hrefl f off (b - a) x hx1 hzx (fun k hk => hPx k (by omega)))).mono
            (fun _ _ h => ⟨mx'.trans (h.1.1.widen (by omega) (by omega)), h.2⟩)
            (fun e y h => by have := h.2; omega)
        · rw [JM.when_neg hb]
          exact Sat.pure ⟨mx', by omega⟩
      refine Sat.bind call1 ?_
      rintro _ y ⟨my, cy⟩
      have hsy : InBoth (view M y) off len := my.inBoth hs0
      have hzy : Sized (view M y) := by unfold Sized; rw [my.1, my.2.1]; exact hz0
      have hPy := hP.moves my
      by_cases hb : d - c > 1
      · rw [JM.when_pos hb]
        have hx1 : InBoth (view M y) (off + len - (d - c)) (d - c) := by unfold InBoth at *; omega
        exact (sort_bound hw hws ht hc hrefl f (off + len - (d - c)) (d - c) y hx1 hzy (fun k hk => hPy k (by omega))).mono
          (fun _ _ h => by omega) (fun e y h => by omega)
      · rw [JM.when_neg hb]
        exact Sat.pure (by omega)

/-! The two ways to pass arrays. -/

theorem Sim.swap_two {σ : Type} : SwapSim (two : Mem (Two σ K V) K V) := by
  intro a b s
  unfold swap CompanionSort.swap
  have hwp : ∀ (i : Int) (x : K) (s : Two σ K V), Sim two (wr two.pri two.setPri i x) (CompanionSort.wrPri i x) s := by
    intro i x s
    unfold Sim CompanionSort.wrPri wr
    simp only
    by_cases h : 0 ≤ i ∧ i < (s.arrs.pri.len : Int)
    · rw [if_pos (show 0 ≤ i ∧ i < ((two.pri s).len : Int) from h)]; exact if_pos h
    · rw [if_neg (show ¬(0 ≤ i ∧ i < ((two.pri s).len : Int)) from h)]; exact if_neg h
  have hws : ∀ (i : Int) (x : V) (s : Two σ K V), Sim two (wr two.sec two.setSec i x) (CompanionSort.wrSec i x) s := by
    intro i x s
    unfold Sim CompanionSort.wrSec wr
    simp only
    by_cases h : 0 ≤ i ∧ i < (s.arrs.sec.len : Int)
    · rw [if_pos (show 0 ≤ i ∧ i < ((two.sec s).len : Int) from h)]; exact if_pos h
    · rw [if_neg (show ¬(0 ≤ i ∧ i < ((two.sec s).len : Int)) from h)]; exact if_neg h
  exact .bind (rd_sim a s) fun pa t => .bind (rdSec_sim a t) fun sa t => .bind (rdSec_sim b t) fun sb t =>
    .bind (hws a sb t) fun _ t => .bind (rd_sim b t) fun pb t => .bind (hwp a pb t) fun _ t =>
    .bind (hwp b pa t) fun _ t => hws b sa t

theorem swaps_two {σ : Type} (g : σ → Nat) : Swaps (two : Mem (Two σ K V) K V) (fun s => g s.ext) := by
  intro s lo hi a b hs ha hb
  have h := Sim.swap_two a b s
  obtain ⟨h0, h1, h2, h3⟩ := hs
  have h2 : lo + (hi - lo) ≤ (s.arrs.pri.len : Int) := h2
  have h3 : lo + (hi - lo) ≤ (s.arrs.sec.len : Int) := h3
  refine ⟨{ s with arrs := swapped s.arrs a b }, ?_, rfl, rfl⟩
  unfold swap
  rw [JM.bind_ok (rd_ok two.pri (by show _ ∧ _ < (s.arrs.pri.len : Int); omega)),
    JM.bind_ok (rd_ok two.sec (by show _ ∧ _ < (s.arrs.sec.len : Int); omega)),
    JM.bind_ok (rd_ok two.sec (by show _ ∧ _ < (s.arrs.sec.len : Int); omega)),
    JM.bind_ok (wr_ok two.sec two.setSec (by show _ ∧ _ < (s.arrs.sec.len : Int); omega)),
    JM.bind_ok (rd_ok two.pri (by show _ ∧ _ < (s.arrs.pri.len : Int); omega)),
    JM.bind_ok (wr_ok two.pri two.setPri (by show _ ∧ _ < (s.arrs.pri.len : Int); omega)),
    JM.bind_ok (wr_ok two.pri two.setPri (by show _ ∧ _ < (s.arrs.pri.len : Int); omega)),
    wr_ok two.sec two.setSec (by show _ ∧ _ < (s.arrs.sec.len : Int); omega)]
  rfl

/-- The array after `swap(a, a, i, j)`. -/
def swapped1 (a : Arr K) (i j : Int) : Arr K := (a.set i (a.get j)).set j (a.get i)

theorem swap_one_ok {σ : Type} {s : One σ K} {a b : Int} (ha : 0 ≤ a ∧ a < (s.arr.len : Int)) (hb : 0 ≤ b ∧ b < (s.arr.len : Int)) :
    swap one a b s = .ok () { s with arr := swapped1 s.arr a b } := by
  unfold swap
  rw [JM.bind_ok (rd_ok one.pri (by exact ha)), JM.bind_ok (rd_ok one.sec (by exact ha)), JM.bind_ok (rd_ok one.sec (by exact hb)),
    JM.bind_ok (wr_ok one.sec one.setSec (by exact ha)), JM.bind_ok (rd_ok one.pri (by exact hb)), JM.bind_ok (wr_ok one.pri one.setPri (by exact ha)),
    JM.bind_ok (wr_ok one.pri one.setPri (by exact hb)), wr_ok one.sec one.setSec (by exact hb)]
  show Res.ok () ({ arr := _, ext := s.ext } : One σ K) = _
  congr 2
  show Arr.mk _ _ = Arr.mk _ _
  congr 1
  funext i
  show (if i = b then _ else if i = b then _ else if i = a then (if b = a then _ else _) else if i = a then _ else _) =
    if i = b then _ else if i = a then _ else _
  by_cases h1 : i = b
  · rw [if_pos h1, if_pos h1]; rfl
  · rw [if_neg h1, if_neg h1, if_neg h1]
    by_cases h2 : i = a
    · rw [if_pos h2, if_pos h2]
      by_cases h3 : b = a
      · rw [if_pos h3]; rfl
      · rw [if_neg h3]; rfl
    · rw [if_neg h2, if_neg h2, if_neg h2]; rfl

theorem swaps_one {σ : Type} (g : σ → Nat) : Swaps (one : Mem (One σ K) K K) (fun s => g s.ext) := by
  intro s lo hi a b hs ha hb
  obtain ⟨h0, h1, h2, h3⟩ := hs
  have h2 : lo + (hi - lo) ≤ (s.arr.len : Int) := h2
  exact ⟨_, swap_one_ok (by omega) (by omega), rfl, rfl⟩

theorem Sim.swap_one {σ : Type} : SwapSim (one : Mem (One σ K) K K) := by
  intro a b s
  by_cases ha : 0 ≤ a ∧ a < (s.arr.len : Int)
  · by_cases hb : 0 ≤ b ∧ b < (s.arr.len : Int)
    · unfold Sim
      rw [swap_one_ok ha hb]
      have h : InBoth (view one s) 0 ((s.arr.len : Int) - 0) := ⟨by omega, by omega, by show _ ≤ (s.arr.len : Int); omega,
        by show _ ≤ (s.arr.len : Int); omega⟩
      exact SortProof.swap_ok h (by omega) (by omega)
    · unfold Sim swap
      rw [JM.bind_ok (rd_ok one.pri ha), JM.bind_ok (rd_ok one.sec ha), JM.bind_err (e := .indexOutOfBounds) (s' := s) (if_neg hb)]
      unfold CompanionSort.swap
      show (_ : JM _ _) _ = _
      rw [JM.bind_ok (rd_ok Arrs.pri (s := view one s) ha), JM.bind_ok (rd_ok Arrs.sec (s := view one s) ha),
        JM.bind_err (e := .indexOutOfBounds) (s' := view one s) (if_neg hb)]
  · unfold Sim swap
    rw [JM.bind_err (e := .indexOutOfBounds) (s' := s) (if_neg ha)]
    unfold CompanionSort.swap
    show (_ : JM _ _) _ = _
    rw [JM.bind_err (e := .indexOutOfBounds) (s' := view one s) (if_neg ha)]

end Verif.SortMemProof

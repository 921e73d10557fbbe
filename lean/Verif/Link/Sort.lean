import Verif.Link.Sim
import Verif.Gen.KeyValueCompanionSort
import Verif.Props.SortMem
/-! `KeyValueCompanionSort.ftl`: the generated code does what the model does, for every comparator. -/
set_option linter.unusedSectionVars false
namespace Verif.Link.SortL
open Verif Verif.Gen Verif.SortMem
variable {S K V : Type} {α β : Type} (M : Mem S K V) (cmp : K → K → JM S Int)

theorem ite_bind {σ : Type} {c : Prop} [Decidable c] (m n : JM σ α) (f : α → JM σ β) :
    ((if c then m else n) >>= f) = if c then m >>= f else n >>= f := by split <;> rfl
theorem pure_bind' {σ : Type} (a : α) (f : α → JM σ β) : ((pure a : JM σ α) >>= f) = f a := rfl
theorem throw_bind' {σ : Type} (e : Err) (f : α → JM σ β) : ((JM.throw e : JM σ α) >>= f) = JM.throw e := rfl

theorem bind_congr' {σ : Type} {m m' : JM σ α} {f g : α → JM σ β} {s : σ} (h : m s = m' s)
    (h2 : ∀ a t, m s = .ok a t → f a t = g a t) : (m >>= f) s = (m' >>= g) s := by
  rw [JM.bind_apply, JM.bind_apply, ← h]
  cases hm : m s with
  | ok a t => exact h2 a t hm
  | err e t => rfl

theorem bind_fun {σ : Type} {m : JM σ α} {f g : α → JM σ β} (h : ∀ a, f a = g a) : (m >>= f) = (m >>= g) := by
  rw [funext h]

theorem bind_pure'' {σ : Type} (m : JM σ α) : (m >>= fun a => Pure.pure a) = m := by
  apply JM_ext; intro s
  rw [JM.bind_apply]; cases m s <;> rfl

theorem swap_eq (a b : Int) : KeyValueCompanionSort.swap M cmp a b = swap M a b := by
  unfold KeyValueCompanionSort.swap swap
  simp only [bind_unit]

theorem med3_eq (a b c : Int) : KeyValueCompanionSort.med3 M cmp a b c = med3 M cmp a b c := by
  unfold KeyValueCompanionSort.med3 med3 cmpAt
  simp only [assoc, ite_bind, pure_bind', decide_eq_true_eq]
  refine bind_fun fun _ => bind_fun fun _ => bind_fun fun _ => ?_
  split
  · refine bind_fun fun _ => bind_fun fun _ => bind_fun fun _ => ?_
    split
    · rfl
    · refine bind_fun fun _ => bind_fun fun _ => bind_fun fun _ => ?_
      split <;> rfl
  · refine bind_fun fun _ => bind_fun fun _ => bind_fun fun _ => ?_
    split
    · rfl
    · refine bind_fun fun _ => bind_fun fun _ => bind_fun fun _ => ?_
      split <;> rfl

theorem vecswapLoop_eq (n : Int) : ∀ (k f : Nat) (a b i : Int), (n - i).toNat = k → k < f → 0 ≤ i → n < 2 ^ 31 →
    -2 ^ 31 ≤ a → a + k < 2 ^ 31 → -2 ^ 31 ≤ b → b + k < 2 ^ 31 →
    (KeyValueCompanionSort.vecswap_loop1 M cmp n f a b i >>= fun _ => pure ()) = vecswapN M k a b
  | 0, f, a, b, i, hk, hf, _, _, _, _, _, _ => by
    obtain ⟨f, rfl⟩ : ∃ g, f = g + 1 := ⟨f - 1, by omega⟩
    unfold KeyValueCompanionSort.vecswap_loop1 vecswapN
    rw [if_neg (by simp; omega)]; rfl
  | k + 1, f, a, b, i, hk, hf, hi, hn, ha, ha', hb, hb' => by
    obtain ⟨f, rfl⟩ : ∃ g, f = g + 1 := ⟨f - 1, by omega⟩
    unfold KeyValueCompanionSort.vecswap_loop1 vecswapN
    rw [if_pos (by simp; omega)]
    simp only [assoc, swap_eq]
    refine bind_fun fun _ => ?_
    rw [i32_of_range (x := i + 1) (by omega), i32_of_range (x := a + 1) (by omega), i32_of_range (x := b + 1) (by omega)]
    exact vecswapLoop_eq n k f _ _ _ (by omega) (by omega) (by omega) hn (by omega) (by omega) (by omega) (by omega)

theorem vecswap_eq (fuel : Nat) (hf : 2 ^ 31 ≤ fuel) (a b n : Int) (hn : n < 2 ^ 31) (ha : -2 ^ 31 ≤ a)
    (ha' : a + max n 0 < 2 ^ 31) (hb : -2 ^ 31 ≤ b) (hb' : b + max n 0 < 2 ^ 31) :
    KeyValueCompanionSort.vecswap M cmp fuel a b n = vecswap M a b n := by
  unfold KeyValueCompanionSort.vecswap vecswap
  exact vecswapLoop_eq M cmp n n.toNat fuel a b 0 (by omega) (by omega) (by omega) hn ha (by omega) hb (by omega)

theorem sink_eq (off : Int) (h0 : 0 ≤ off) : ∀ (f g : Nat) (j : Int), (j - off).toNat < f → (j - off).toNat < g → j < 2 ^ 31 →
    KeyValueCompanionSort.sort_loop2 M cmp off g j = sink M cmp off f j
  | 0, _, _, h, _, _ => by omega
  | _, 0, _, _, h, _ => by omega
  | f + 1, g + 1, j, hf, hg, hj => by
    unfold KeyValueCompanionSort.sort_loop2 sink cmpAt
    simp only [assoc, ite_bind, pure_bind', decide_eq_true_eq]
    by_cases c : j > off
    · simp only [if_pos c]
      rw [i32_of_range (x := j - 1) (by omega)]
      refine bind_fun fun _ => bind_fun fun _ => bind_fun fun r => ?_
      by_cases c2 : r > 0
      · simp only [if_pos c2, swap_eq]
        refine bind_fun fun _ => ?_
        exact sink_eq off h0 f g _ (by omega) (by omega) (by omega)
      · simp only [if_neg c2]
    · simp only [if_neg c]
      rfl

theorem insertion_eq (off len : Int) (h0 : 0 ≤ off) (hN : off + len < 2 ^ 31) (hl : 0 ≤ len) (fuel : Nat) (hfu : 2 ^ 31 ≤ fuel) :
    ∀ (f g : Nat) (i : Int), off ≤ i → (off + len - i).toNat < f → (off + len - i).toNat < g → i ≤ off + len →
    KeyValueCompanionSort.sort_loop1 M cmp fuel off len g i = insertion M cmp off (i32 (len + off)) f i
  | 0, _, _, _, h, _, _ => by omega
  | _, 0, _, _, _, h, _ => by omega
  | f + 1, g + 1, i, hi, hf, hg, hj => by
    unfold KeyValueCompanionSort.sort_loop1 insertion
    have e : i32 (len + off) = off + len := by rw [i32_of_range (x := len + off) (by omega)]; omega
    simp only [decide_eq_true_eq]
    by_cases c : i < i32 (len + off)
    · simp only [if_pos c]
      rw [e] at c
      rw [i32_of_range (x := i + 1) (by omega), sink_eq M cmp off h0 ((i - off).toNat + 1) fuel i (by omega) (by omega) (by omega)]
      refine bind_fun fun _ => ?_
      exact insertion_eq off len h0 hN hl fuel hfu f g _ (by omega) (by omega) (by omega) (by omega)
    · simp only [if_neg c]

theorem scanB_eq (v : K) (c : Int) (hc : c < 2 ^ 31 - 1) : ∀ (f g : Nat) (a b : Int), (c - b + 1).toNat < f → (c - b + 1).toNat < g →
    0 ≤ a → a ≤ b → KeyValueCompanionSort.sort_loop4 M cmp v c g a b = scanB M cmp v c f a b
  | 0, _, _, _, h, _, _, _ => by omega
  | _, 0, _, _, _, h, _, _ => by omega
  | f + 1, g + 1, a, b, hf, hg, ha, hb => by
    unfold KeyValueCompanionSort.sort_loop4 scanB
    simp only [assoc, ite_bind, pure_bind', decide_eq_true_eq]
    by_cases c1 : b ≤ c
    · simp only [if_pos c1]
      rw [i32_of_range (x := b + 1) (by omega), i32_of_range (x := a + 1) (by omega)]
      refine bind_fun fun _ => bind_fun fun r => ?_
      by_cases c2 : r ≤ 0
      · simp only [if_pos c2, swap_eq]
        refine bind_fun fun _ => bind_fun fun r => ?_
        by_cases c3 : r = 0
        · simp only [if_pos c3]
          refine bind_fun fun _ => ?_
          exact scanB_eq v c hc f g _ _ (by omega) (by omega) (by omega) (by omega)
        · simp only [if_neg c3]
          exact scanB_eq v c hc f g _ _ (by omega) (by omega) (by omega) (by omega)
      · simp only [if_neg c2]
    · simp only [if_neg c1]
      rfl

theorem scanC_eq (v : K) (b : Int) (hb : 0 ≤ b) : ∀ (f g : Nat) (c d : Int), (c - b + 1).toNat < f → (c - b + 1).toNat < g →
    c ≤ d → d < 2 ^ 31 → KeyValueCompanionSort.sort_loop5 M cmp v b g c d = scanC M cmp v b f c d
  | 0, _, _, _, h, _, _, _ => by omega
  | _, 0, _, _, _, h, _, _ => by omega
  | f + 1, g + 1, c, d, hf, hg, ha, hd => by
    unfold KeyValueCompanionSort.sort_loop5 scanC
    simp only [assoc, ite_bind, pure_bind', decide_eq_true_eq]
    by_cases c1 : c ≥ b
    · simp only [if_pos c1]
      rw [i32_of_range (x := c - 1) (by omega), i32_of_range (x := d - 1) (by omega)]
      refine bind_fun fun _ => bind_fun fun r => ?_
      by_cases c2 : r ≥ 0
      · simp only [if_pos c2, swap_eq]
        refine bind_fun fun _ => bind_fun fun r => ?_
        by_cases c3 : r = 0
        · simp only [if_pos c3]
          refine bind_fun fun _ => ?_
          exact scanC_eq v b hb f g _ _ (by omega) (by omega) (by omega) (by omega)
        · simp only [if_neg c3]
          exact scanC_eq v b hb f g _ _ (by omega) (by omega) (by omega) (by omega)
      · simp only [if_neg c2]
    · simp only [if_neg c1]
      rfl

/-- What holds if the call returns. -/
def Post {σ : Type} (P : α → Prop) (m : JM σ α) : Prop := ∀ s a t, m s = .ok a t → P a

theorem Post.bind {σ : Type} {P : β → Prop} {m : JM σ α} {f : α → JM σ β} (h : ∀ a, Post P (f a)) : Post P (m >>= f) := by
  intro s b u hb
  cases hm : m s with
  | err e t => rw [JM.bind_err hm] at hb; cases hb
  | ok a t => rw [JM.bind_ok hm] at hb; exact h a _ _ _ hb
theorem Post.bindP {σ : Type} {Q : α → Prop} {P : β → Prop} {m : JM σ α} {f : α → JM σ β} (h1 : Post Q m)
    (h : ∀ a, Q a → Post P (f a)) : Post P (m >>= f) := by
  intro s b u hb
  cases hm : m s with
  | err e t => rw [JM.bind_err hm] at hb; cases hb
  | ok a t => rw [JM.bind_ok hm] at hb; exact h a (h1 _ _ _ hm) _ _ _ hb
theorem Post.pure {σ : Type} {P : α → Prop} {a : α} (h : P a) : Post P (Pure.pure a : JM σ α) := by
  intro s b u hb; cases hb; exact h
theorem Post.ite {σ : Type} {P : α → Prop} {c : Prop} [Decidable c] {m n : JM σ α} (h1 : c → Post P m) (h2 : ¬ c → Post P n) :
    Post P (if c then m else n) := by
  split
  · exact h1 ‹_›
  · exact h2 ‹_›
theorem Post.throw {σ : Type} {P : α → Prop} {e : Err} : Post P (JM.throw e : JM σ α) := by
  intro s b u hb; cases hb

theorem scanB_post (v : K) (c : Int) : ∀ (f : Nat) (a b : Int), a ≤ b →
    Post (fun r : Int × Int => a ≤ r.1 ∧ r.1 ≤ r.2 ∧ b ≤ r.2 ∧ r.2 ≤ max b (c + 1)) (scanB M cmp v c f a b)
  | 0, _, _, _ => .throw
  | f + 1, a, b, h => by
    unfold scanB
    refine .ite (fun c1 => .bind fun _ => .bind fun _ => .ite (fun _ => .bind fun _ => .bind fun _ => .ite (fun _ => .bind fun _ => ?_) fun _ => ?_) fun _ => .pure ?_) fun _ => .pure ?_
    · intro s r t hr; have := scanB_post v c f _ _ (by omega) s r t hr; omega
    · intro s r t hr; have := scanB_post v c f _ _ (by omega) s r t hr; omega
    · simp only; omega
    · simp only; omega

theorem scanC_post (v : K) (b : Int) : ∀ (f : Nat) (c d : Int), c ≤ d →
    Post (fun r : Int × Int => r.2 ≤ d ∧ r.1 ≤ r.2 ∧ r.1 ≤ c ∧ min c (b - 1) ≤ r.1) (scanC M cmp v b f c d)
  | 0, _, _, _ => .throw
  | f + 1, c, d, h => by
    unfold scanC
    refine .ite (fun c1 => .bind fun _ => .bind fun _ => .ite (fun _ => .bind fun _ => .bind fun _ => .ite (fun _ => .bind fun _ => ?_) fun _ => ?_) fun _ => .pure ?_) fun _ => .pure ?_
    · intro s r t hr; have := scanC_post v b f _ _ (by omega) s r t hr; omega
    · intro s r t hr; have := scanC_post v b f _ _ (by omega) s r t hr; omega
    · simp only; omega
    · simp only; omega

/-- Where the four indices of the partition loop are: inside `[lo, hi)`. -/
def In4 (lo hi : Int) (r : Int × Int × Int × Int) : Prop :=
  lo ≤ r.1 ∧ r.1 ≤ r.2.1 ∧ r.2.1 ≤ hi ∧ lo - 1 ≤ r.2.2.1 ∧ r.2.2.1 ≤ r.2.2.2 ∧ r.2.2.2 ≤ hi - 1 ∧ r.2.1 ≤ r.2.2.1 + 2

theorem partition_post (v : K) (lo hi : Int) : ∀ (f : Nat) (a b c d : Int), In4 lo hi (a, b, c, d) →
    Post (In4 lo hi) (partition M cmp v f a b c d)
  | 0, _, _, _, _, _ => .throw
  | f + 1, a, b, c, d, h => by
    unfold partition
    unfold In4 at h; simp only at h
    refine .bindP (scanB_post M cmp v c _ a b (by omega)) fun ⟨a1, b1⟩ h1 => ?_
    simp only at h1 ⊢
    refine .bindP (scanC_post M cmp v b1 _ c d (by omega)) fun ⟨c1, d1⟩ h2 => ?_
    simp only at h2 ⊢
    refine .ite (fun _ => .pure ?_) fun _ => .bind fun _ => partition_post v lo hi f _ _ _ _ ?_
    · unfold In4; simp only; omega
    · unfold In4; simp only; omega

theorem partition_eq (v : K) (lo hi : Int) (hlo : 0 ≤ lo) (hhi : hi < 2 ^ 31) (fuel : Nat) (hfu : 2 ^ 31 < fuel) :
    ∀ (f g : Nat) (a b c d : Int), In4 lo hi (a, b, c, d) → (c - b + 1).toNat < f → (c - b + 1).toNat < g →
    ∀ s, KeyValueCompanionSort.sort_loop3 M cmp fuel v g a b c d s = partition M cmp v f a b c d s
  | 0, _, _, _, _, _, _, h, _ => by omega
  | _, 0, _, _, _, _, _, _, h => by omega
  | f + 1, g + 1, a, b, c, d, h, hf, hg => by
    intro s
    unfold KeyValueCompanionSort.sort_loop3 partition
    unfold In4 at h; simp only at h
    refine bind_congr' (by rw [scanB_eq M cmp v c (by omega) ((c - b).toNat + 2) fuel a b (by omega) (by omega) (by omega) (by omega)])
      fun ⟨a1, b1⟩ t ht => ?_
    rw [scanB_eq M cmp v c (by omega) ((c - b).toNat + 2) fuel a b (by omega) (by omega) (by omega) (by omega)] at ht
    have h1 := scanB_post M cmp v c _ a b (by omega) _ _ _ ht
    simp only at h1 ⊢
    refine bind_congr' (by rw [scanC_eq M cmp v b1 (by omega) ((c - b1).toNat + 2) fuel c d (by omega) (by omega) (by omega) (by omega)])
      fun ⟨c1, d1⟩ t2 ht2 => ?_
    rw [scanC_eq M cmp v b1 (by omega) ((c - b1).toNat + 2) fuel c d (by omega) (by omega) (by omega) (by omega)] at ht2
    have h2 := scanC_post M cmp v b1 _ c d (by omega) _ _ _ ht2
    simp only [decide_eq_true_eq] at h2 ⊢
    by_cases hc : b1 > c1
    · simp only [if_pos hc]
    · simp only [if_neg hc, swap_eq]
      rw [i32_of_range (x := b1 + 1) (by omega), i32_of_range (x := c1 - 1) (by omega)]
      refine bind_congr' rfl fun _ t3 _ => ?_
      exact partition_eq v lo hi hlo hhi fuel hfu f g _ _ _ _ (by unfold In4; simp only; omega) (by omega) (by omega) t3

theorem shr1 {x : Int} : shr32 x 1 = x / 2 := by
  unfold shr32
  have : ((1 : Int) % 32).toNat = 1 := by decide
  rw [this]; norm_num

theorem pivot_eq {off len : Int} (h0 : 0 ≤ off) (hl : 7 ≤ len) (hN : off + len < 2 ^ 31) :
    (do
      let m := (i32 (off + (shr32 len 1)))
      let m ← (if (decide (len > 7)) = true then do
          let l := off
          let n_ := (i32 ((i32 (off + len)) - 1))
          let (m, l, n_) ← (if (decide (len > 40)) = true then do
              let s_ := (i32 (Int.tdiv len 8))
              let v9 ← KeyValueCompanionSort.med3 M cmp l (i32 (l + s_)) (i32 (l + (i32 (2 * s_))))
              let l := v9
              let v10 ← KeyValueCompanionSort.med3 M cmp (i32 (m - s_)) m (i32 (m + s_))
              let m := v10
              let v11 ← KeyValueCompanionSort.med3 M cmp (i32 (n_ - (i32 (2 * s_)))) (i32 (n_ - s_)) n_
              let n_ := v11
              pure (m, l, n_)
            else pure (m, l, n_))
          let v12 ← KeyValueCompanionSort.med3 M cmp l m n_
          let m := v12
          pure m
        else pure m)
      pure m : JM S Int) = pivot M cmp off len := by
  have e8 : i32 (Int.tdiv len 8) = len / 8 := by
    rw [Int.tdiv_eq_ediv_of_nonneg (by omega), i32_of_range (by omega)]
  unfold pivot
  simp only [shr1, e8, i32_of_range (x := 2 * (len / 8)) (by omega), med3_eq, decide_eq_true_eq]
  by_cases c7 : len > 7
  · simp only [if_pos c7]
    by_cases c40 : len > 40
    · simp only [if_pos c40]
      simp only [assoc, pure_bind']
      refine bind_fun fun _ => bind_fun fun _ => bind_fun fun _ => ?_
      exact bind_pure'' _
    · simp only [if_neg c40]
      simp only [pure_bind']
      exact bind_pure'' _
  · simp only [if_neg c7]

/-- The arguments are `int`s whose sum, if both are not negative, is one. -/
def Args (off len : Int) : Prop :=
  (-2 ^ 31 ≤ off ∧ off < 2 ^ 31) ∧ (-2 ^ 31 ≤ len ∧ len < 2 ^ 31) ∧ (off < 0 ∨ len < 0 ∨ off + len < 2 ^ 31)

theorem i32_pred (x : Int) : i32 (i32 x - 1) = i32 (x - 1) := by
  unfold i32; omega

/-- The generated `sort` does what the model does: it returns or throws the same and leaves the same arrays. -/
theorem sort_eq (fuel : Nat) (hfu : 2 ^ 31 < fuel) : ∀ (depth : Nat) (off len : Int) (s : S), Args off len →
    KeyValueCompanionSort.sort M cmp fuel depth off len s = sort M cmp depth off len s
  | 0, _, _, _, _ => rfl
  | depth + 1, off, len, s, h => by
    unfold KeyValueCompanionSort.sort sort
    rw [JM.bind_ok (JM.get_apply s), JM.bind_ok (JM.get_apply s)]
    by_cases c1 : i32 (off + len) > (M.pri s).len
    · rw [if_pos (by simpa using c1), if_pos c1]; rfl
    · rw [if_neg (by simpa using c1), if_neg c1, pure_bind', JM.bind_ok (JM.get_apply s)]
      by_cases c2 : i32 (off + len) > (M.sec s).len
      · rw [if_pos (by simpa using c2), if_pos c2]; rfl
      · rw [if_neg (by simpa using c2), if_neg c2, pure_bind']
        by_cases c3 : off < 0 ∨ len < 0
        · rw [if_pos (by simpa using c3), if_pos c3]; rfl
        · rw [if_neg (by simpa using c3), if_neg c3, pure_bind']
          have hN : off + len < 2 ^ 31 := by obtain ⟨_, _, h⟩ := h; omega
          by_cases c4 : len < 7
          · rw [if_pos (by simpa using c4), if_pos c4, bind_unit]
            rw [insertion_eq M cmp off len (by omega) hN (by omega) fuel (by omega) ((i32 (len + off) - off).toNat + 1) fuel off (by omega)
              (by rw [i32_of_range (x := len + off) (by omega)]; omega) (by omega) (by omega)]
          · rw [if_neg (by simpa using c4), if_neg c4]
            have e0 : i32 (off + len) = off + len := i32_of_range (by omega)
            have e1 : i32 (off + len - 1) = off + len - 1 := i32_of_range (by omega)
            have hp := pivot_eq M cmp (off := off) (len := len) (by omega) (by omega) hN
            refine bind_congr' (m' := pivot M cmp off len) (by rw [← hp]) fun m t1 _ => ?_
            refine bind_congr' rfl fun v t2 _ => ?_
            simp only [e0, e1]
            have hpe := partition_eq M cmp v off (off + len) (by omega) hN fuel hfu ((off + len - 1 - off).toNat + 2) fuel off off
              (off + len - 1) (off + len - 1) (by unfold In4; simp only; omega) (by omega) (by omega) t2
            refine bind_congr' hpe fun ⟨a, b, c, d⟩ t3 ht3 => ?_
            rw [hpe] at ht3
            have hin := partition_post M cmp v off (off + len) _ _ _ _ _ (by unfold In4; simp only; omega) _ _ _ ht3
            unfold In4 at hin
            simp only at hin ⊢
            clear e0 e1 hp hpe ht3 c1 c2
            obtain ⟨⟨_, _⟩, ⟨_, _⟩, _⟩ := h
            rw [i32_of_range (x := a - off) (by omega), i32_of_range (x := b - a) (by omega), i32_of_range (x := d - c) (by omega),
              i32_pred, i32_of_range (x := off + len - d - 1) (by omega),
              i32_of_range (x := b - min (a - off) (b - a)) (by omega),
              i32_of_range (x := off + len - min (d - c) (off + len - d - 1)) (by omega),
              i32_of_range (x := off + len - (d - c)) (by omega)]
            rw [vecswap_eq M cmp fuel (by omega) _ _ _ (by omega) (by omega) (by omega) (by omega) (by omega),
              vecswap_eq M cmp fuel (by omega) _ _ _ (by omega) (by omega) (by omega) (by omega) (by omega)]
            refine bind_congr' rfl fun _ t4 _ => bind_congr' rfl fun _ t5 _ => ?_
            simp only [bind_unit, decide_eq_true_eq]
            refine bind_congr' ?_ fun _ t6 _ => ?_
            · unfold JM.when
              by_cases c5 : b - a > 1
              · rw [if_pos c5, if_pos c5]
                exact sort_eq fuel hfu depth _ _ _ (by unfold Args; omega)
              · rw [if_neg c5, if_neg c5]
            · unfold JM.when
              by_cases c5 : d - c > 1
              · rw [if_pos c5, if_pos c5]
                exact sort_eq fuel hfu depth _ _ _ (by unfold Args; omega)
              · rw [if_neg c5, if_neg c5]

end Verif.Link.SortL

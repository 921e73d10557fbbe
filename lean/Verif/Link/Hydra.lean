import Verif.Link.Sim
import Verif.Gen.KeyHydraDeque
import Verif.Props.Hydra
import Verif.Props.Callbacks
/-! `KeyHydraDeque.ftl`: the generated class and its two iterators agree with the model. -/
set_option linter.unusedSectionVars false
namespace Verif.Link.HydraL
open Verif Verif.Gen Hydra HydraSpec Linked
variable {α : Type}

theorem rdS {σ β γ δ : Type} {Q : γ → δ → Prop} {arr : σ → Arr β} {i : Int} {f : β → JM σ γ} {h : β → JM σ δ} {s : σ}
    (h2 : 0 ≤ i ∧ i < (arr s).len → Sim Q (f ((arr s).get i)) (h ((arr s).get i)) s) :
    Sim Q (rd arr i >>= f) (rd arr i >>= h) s := by
  refine Sim.step fun a t ht => ?_
  simp only [rd] at ht
  split at ht
  · rename_i hb
    injection ht with h3 h4
    subst h3 h4
    exact h2 hb
  · cases ht

theorem wrS {σ β γ δ : Type} {Q : γ → δ → Prop} {arr : σ → Arr β} {put : σ → Arr β → σ} {i : Int} {v : β}
    {f : Unit → JM σ γ} {h : Unit → JM σ δ} {s : σ}
    (h2 : 0 ≤ i ∧ i < (arr s).len → Sim Q (f ()) (h ()) (put s ((arr s).set i v))) :
    Sim Q (wr arr put i v >>= f) (wr arr put i v >>= h) s := by
  refine Sim.step fun a t ht => ?_
  simp only [wr] at ht
  split at ht
  · rename_i hb
    injection ht with h3 h4
    subst h4
    exact h2 hb
  · cases ht

/-- `if (c) throw e;` -/
theorem guard {σ α β : Type} {R : α → β → Prop} {c d : Prop} [Decidable c] [Decidable d] {e : Err}
    {m : JM σ α} {g : Unit → JM σ β} {s : σ} (hcd : c ↔ d) (h : ¬ c → Sim R m (g ()) s) :
    Sim R (if c then JM.throw e else m) ((if d then JM.throw e else pure ()) >>= g) s := by
  by_cases hc : c
  · rw [if_pos hc, if_pos (hcd.1 hc)]; exact .inr rfl
  · rw [if_neg hc, if_neg (fun h => hc (hcd.2 h))]; exact .right rfl (h hc)

/-- the numbers of a hydra deque fit `int` -/
structure Bnd (s : Hydra α) : Prop where
  cnt : ∀ i : Int, 0 ≤ i → i < s.count.len → 0 ≤ s.count.get i ∧ s.count.get i < 2 ^ 31 - 1
  size : 0 ≤ s.size ∧ s.size < 2 ^ 31 - 1
  free : -2 ^ 31 < s.freeList ∧ s.freeList < 0
  max : -1 ≤ s.maxEntry ∧ s.maxEntry < 2 ^ 31 - 1
  head : ∀ i : Int, 0 ≤ i → i < s.heads.len → s.heads.get i < 2 ^ 31 - 2
  tail : ∀ i : Int, 0 ≤ i → i < s.tails.len → s.tails.get i < 2 ^ 31 - 2

theorem ens_local (σ : Type) {β : Type} (a : Arr β) (n : Int) (d : β) :
    ∃ r, ∀ s, (ensureEntry a n d : JM σ (Arr β)) s = ofExcept r s := by
  obtain ⟨r, h, -⟩ := ensureEntry_local σ a n d
  exact ⟨r, h⟩

theorem ensureList_sim (d : α) (i : Int) (s : Hydra α) :
    Sim Eq (Hydra.ensureList i) (KeyHydraDeque.ensureList d i) s := by
  unfold Hydra.ensureList KeyHydraDeque.ensureList
  refine .get (.stepL (ens_local _ _ _ _) fun a _ => .modify rfl (.right rfl ?_))
  refine .stepL (ens_local _ _ _ _) fun b _ => .modify rfl (.right rfl ?_)
  refine .stepL (ens_local _ _ _ _) fun b _ => ?_
  exact Sim.unit_right .rfl

theorem addToFreeList_sim (d : α) (e : Int) (s : Hydra α) (he : 0 ≤ e ∧ e < 2 ^ 31 - 2) :
    Sim Eq (Hydra.addToFreeList e) (KeyHydraDeque.addToFreeList d e) s := by
  unfold Hydra.addToFreeList KeyHydraDeque.addToFreeList
  refine .get (wrS fun _ => ?_)
  rw [i32_of_range (x := -e) (by omega), i32_of_range (by omega)]
  exact Sim.unit_right .rfl

theorem allocateEntry_sim (d : α) (s : Hydra α) (h : Bnd s) :
    Sim Eq (Hydra.allocateEntry d) (KeyHydraDeque.allocateEntry d) s := by
  unfold Hydra.allocateEntry KeyHydraDeque.allocateEntry
  have h1 := h.free
  have h2 := h.max
  refine .get ?_
  refine .ite (by simp) (fun hc => ?_) fun hc => ?_
  · rw [i32_of_range (x := s.freeList + 2) (by omega), i32_of_range (by omega)]
    refine rdS fun _ => .rfl
  · rw [i32_of_range (by omega)]
    refine .modify rfl (.right rfl ?_)
    refine .stepL (ens_local _ _ _ _) fun a _ => .modify rfl (.right rfl ?_)
    refine .stepL (ens_local _ _ _ _) fun b _ => .modify rfl (.right rfl ?_)
    exact .stepL (ens_local _ _ _ _) fun b _ => .rfl

theorem len_le_sum {β : Type} (L : Int → List β) : ∀ (n : Nat) (i : Int), 0 ≤ i → i < n → (L i).length ≤ sumLen L n
  | 0, i, h0, h1 => by omega
  | n + 1, i, h0, h1 => by
    rw [sumLen]
    by_cases h : i = n
    · subst h; omega
    · have := len_le_sum L n i h0 (by omega); omega

theorem hd_bound {l : List Int} {n : Int} (h : ∀ e ∈ l, 0 ≤ e ∧ e < n) (hn : 0 ≤ n) : hd l < n := by
  cases l with
  | nil => simp; omega
  | cons e l => simpa using (h e (by simp)).2

theorem bnd_of_inv {d : α} {s : Hydra α} {a : Stored α} (h : Inv d s a) (h1 : a.next ≤ 2 ^ 30) (h2 : a.total ≤ 2 ^ 30) :
    Bnd s := by
  have t := h.tot
  have u := h.sum
  have x := h.nx
  have x0 := h.nx0
  refine ⟨fun i i0 i1 => ?_, by omega, ?_, by omega, fun i i0 i1 => ?_, fun i i0 i1 => ?_⟩
  · have hc := h.hc
    rw [h.cnt i i0 (by omega)]
    have := len_le_sum a.lists s.heads.len i i0 (by omega)
    omega
  · rw [h.fl]
    cases hf : a.freed with
    | nil => simp
    | cons e l =>
      have := h.frng e (by simp [hf])
      simp only [code_cons]
      omega
  · rw [h.head i i0 i1]
    have := hd_bound (h.rng i) x0.1
    omega
  · have hl := h.hl
    rw [h.tail i i0 (by omega)]
    have := hd_bound (l := (E a i).reverse) (fun e he => h.rng i e (List.mem_reverse.1 he)) x0.1
    omega

/-- `if (c) { x } else { y }` as the translator writes it -/
theorem ite2 {σ : Type} {γ δ : Type} {Q : γ → δ → Prop} {c d : Prop} [Decidable c] [Decidable d] {m n : JM σ Unit}
    {f : Unit → JM σ γ} {h : Unit → JM σ δ} {s : σ} (hcd : c ↔ d)
    (h2 : ∀ t, (if c then m else n) s = .ok () t → Sim Q (f ()) (h ()) t) :
    Sim Q ((if c then m else n) >>= f) ((if d then (m >>= fun _ => pure ()) else (n >>= fun _ => pure ())) >>= h) s := by
  rw [bind_unit, bind_unit]
  have e : (if d then m else n) = if c then m else n := by by_cases hc : c <;> simp [hc, hcd.1, ← hcd]
  rw [e]
  exact .step fun _ t ht => h2 t ht

/-- the same, where the model copies what follows into both branches -/
theorem ite3 {σ : Type} {γ δ : Type} {Q : γ → δ → Prop} {c d : Prop} [Decidable c] [Decidable d] {m n : JM σ Unit}
    {f : Unit → JM σ γ} {h : Unit → JM σ δ} {s : σ} (hcd : c ↔ d)
    (h2 : ∀ t, (if c then m else n) s = .ok () t → Sim Q (f ()) (h ()) t) :
    Sim Q (if c then m >>= f else n >>= f) ((if d then (m >>= fun _ => pure ()) else (n >>= fun _ => pure ())) >>= h) s := by
  have e : (if c then m >>= f else n >>= f) = (if c then m else n) >>= f := by split <;> rfl
  rw [e]
  exact ite2 hcd h2

theorem when2 {σ : Type} {γ δ : Type} {Q : γ → δ → Prop} {c d : Prop} [Decidable c] [Decidable d] {m : JM σ Unit}
    {f : Unit → JM σ γ} {h : Unit → JM σ δ} {s : σ} (hcd : c ↔ d)
    (h2 : ∀ t, (if c then m else pure ()) s = .ok () t → Sim Q (f ()) (h ()) t) :
    Sim Q (JM.when c m >>= f) ((if d then (m >>= fun _ => pure ()) else pure ()) >>= h) s := by
  have := ite2 (n := pure ()) (m := m) (f := f) (h := h) (s := s) hcd h2
  rw [bind_unit (pure ())] at this
  exact this

theorem addCount_sim (d : α) {γ δ : Type} {Q : γ → δ → Prop} {i k : Int} {f : Unit → JM (Hydra α) γ}
    {h : Unit → JM (Hydra α) δ} {s : Hydra α}
    (hk : 0 ≤ i → i < s.count.len → -2147483648 ≤ s.count.get i + k ∧ s.count.get i + k < 2147483648)
    (h2 : ∀ c, Sim Q (f ()) (h ()) { s with count := c }) :
    Sim Q (Hydra.addCount i k >>= f) (rd Hydra.count i >>= fun v =>
      wr Hydra.count (fun self a => { self with count := a }) i (i32 (v + k)) >>= h) s := by
  unfold Hydra.addCount
  rw [assoc]
  refine rdS fun hb => ?_
  rw [i32_of_range (hk hb.1 hb.2)]
  exact wrS fun _ => h2 _

theorem wr_size {β : Type} {arr : Hydra α → Arr β} {put : Hydra α → Arr β → Hydra α} (i : Int) (v : β)
    (h : ∀ s a, (put s a).size = s.size) (s : Hydra α) : (wr arr put i v s).state.size = s.size := by
  simp only [wr]; split
  · exact h _ _
  · rfl

theorem ite_size {c : Prop} [Decidable c] {m n : JM (Hydra α) Unit} {s t : Hydra α}
    (h : (if c then m else n) s = .ok () t) (h1 : ∀ s, (m s).state.size = s.size)
    (h2 : ∀ s, (n s).state.size = s.size) : t.size = s.size := by
  split at h
  · have := h1 s; rw [h] at this; exact this
  · have := h2 s; rw [h] at this; exact this

theorem addFirst_sim (d : α) (i : Int) (v : α) {s : Hydra α} {a : Stored α} (h : Inv d s a) (h1 : a.next < 2 ^ 30)
    (h2 : a.total < 2 ^ 30) (hi : i < 2 ^ 30) :
    Sim Eq (Hydra.addFirst d i v) (KeyHydraDeque.addFirst d i v) s := by
  unfold Hydra.addFirst KeyHydraDeque.addFirst
  refine .bind_eq (ensureList_sim d i s) fun _ t ht => ?_
  refine rdS fun hb => ?_
  obtain ⟨t', e1, hi', -⟩ := ensureList_spec h (i := i) ⟨hb.1, by omega⟩
  rw [e1] at ht
  injection ht with _ ht
  subst ht
  have hB := bnd_of_inv hi' (by omega) (by omega)
  refine .bind_eq (allocateEntry_sim d _ hB) fun e u hu => ?_
  obtain ⟨u', e2, hi2, -⟩ := allocateEntry_spec hi' (fun _ => by omega)
  rw [e2] at hu
  injection hu with _ hu
  subst hu
  have hB2 := bnd_of_inv hi2 (by
    unfold Stored.take; split
    · show a.next + 1 ≤ 2 ^ 30; omega
    · show a.next ≤ 2 ^ 30; omega) (by rw [take_total]; omega)
  refine wrS fun _ => wrS fun _ => ?_
  refine addCount_sim d (fun c0 c1 => ?_) fun c => ?_
  · have := hB2.cnt i c0 c1
    show -2147483648 ≤ u'.count.get i + 1 ∧ u'.count.get i + 1 < 2147483648
    omega
  refine ite3 decide_eq_true_iff.symm fun w hw => ?_
  have hs := ite_size hw (wr_size _ _ fun _ _ => rfl) (wr_size _ _ fun _ _ => rfl)
  refine wrS fun _ => .right rfl ?_
  refine .modify ?_ .rfl
  have e3 : i32 (w.size + 1) = w.size + 1 := by
    have := hB2.size
    rw [hs]
    exact i32_of_range (by show -2147483648 ≤ u'.size + 1 ∧ u'.size + 1 < 2147483648; omega)
  show _ = _
  simp only [e3]

theorem addLast_sim (d : α) (i : Int) (v : α) {s : Hydra α} {a : Stored α} (h : Inv d s a) (h1 : a.next < 2 ^ 30)
    (h2 : a.total < 2 ^ 30) (hi : i < 2 ^ 30) :
    Sim Eq (Hydra.addLast d i v) (KeyHydraDeque.addLast d i v) s := by
  unfold Hydra.addLast KeyHydraDeque.addLast
  refine .bind_eq (ensureList_sim d i s) fun _ t ht => ?_
  refine rdS fun hb => ?_
  obtain ⟨t', e1, hi', -⟩ := ensureList_spec h (i := i) ⟨hb.1, by omega⟩
  rw [e1] at ht
  injection ht with _ ht
  subst ht
  have hB := bnd_of_inv hi' (by omega) (by omega)
  refine .bind_eq (allocateEntry_sim d _ hB) fun e u hu => ?_
  obtain ⟨u', e2, hi2, -⟩ := allocateEntry_spec hi' (fun _ => by omega)
  rw [e2] at hu
  injection hu with _ hu
  subst hu
  have hB2 := bnd_of_inv hi2 (by
    unfold Stored.take; split
    · show a.next + 1 ≤ 2 ^ 30; omega
    · show a.next ≤ 2 ^ 30; omega) (by rw [take_total]; omega)
  refine wrS fun _ => wrS fun _ => ?_
  refine addCount_sim d (fun c0 c1 => ?_) fun c => ?_
  · have := hB2.cnt i c0 c1
    show -2147483648 ≤ u'.count.get i + 1 ∧ u'.count.get i + 1 < 2147483648
    omega
  refine ite3 decide_eq_true_iff.symm fun w hw => ?_
  have hs := ite_size hw (wr_size _ _ fun _ _ => rfl) (wr_size _ _ fun _ _ => rfl)
  refine wrS fun _ => wrS fun _ => .right rfl ?_
  refine .modify ?_ .rfl
  have e3 : i32 (w.size + 1) = w.size + 1 := by
    have := hB2.size
    rw [hs]
    exact i32_of_range (by show -2147483648 ≤ u'.size + 1 ∧ u'.size + 1 < 2147483648; omega)
  show _ = _
  simp only [e3]

theorem validate_sim (d : α) (i : Int) (start : Hydra α → Arr Int) (s : Hydra α) :
    Sim Eq (Hydra.validate i start) (KeyHydraDeque.validateListAndGetFirstEntry d i (start s)) s := by
  unfold Hydra.validate KeyHydraDeque.validateListAndGetFirstEntry
  refine .get (guard decide_eq_true_iff.symm fun _ => .right rfl ?_)
  refine guard (by simp) fun _ => ?_
  by_cases hb : 0 ≤ i ∧ i < (start s).len
  · have e : rd start i s = .ok ((start s).get i) s := by simp only [rd]; rw [if_pos hb]
    have e' : (rdA (start s) i : JM (Hydra α) Int) s = .ok ((start s).get i) s := by simp only [rdA]; rw [if_pos hb]
    refine .left e (.right e' ?_)
    exact guard decide_eq_true_iff.symm fun _ => .rfl
  · have e : rd start i s = .err .indexOutOfBounds s := by simp only [rd]; rw [if_neg hb]
    have e' : (rdA (start s) i : JM (Hydra α) Int) s = .err .indexOutOfBounds s := by simp only [rdA]; rw [if_neg hb]
    unfold Sim
    rw [JM.bind_err e, JM.bind_err e']; exact .inr rfl

theorem release_sim (d : α) (e : Int) {s : Hydra α} (he : 0 ≤ e ∧ e < 2 ^ 31 - 2) (hs : 0 ≤ s.size ∧ s.size < 2 ^ 31 - 1) :
    Sim Eq (Hydra.release d e) (do
      let v9 ← rd Hydra.values e
      wr Hydra.values (fun self a => { self with values := a }) e d
      let s10 ← get
      modify fun self => { self with size := i32 (s10.size - 1) }
      KeyHydraDeque.addToFreeList d e
      pure v9) s := by
  unfold Hydra.release
  refine rdS fun _ => wrS fun _ => .right rfl (.modify ?_ ?_)
  · have : i32 (s.size - 1) = s.size - 1 := i32_of_range (by omega)
    show _ = _
    simp only [this]
  · exact .bind_eq (addToFreeList_sim d e _ he) fun _ _ _ => .rfl

theorem hd_nonneg {l : List Int} {n : Int} (h : ∀ e ∈ l, 0 ≤ e ∧ e < n) (hl : l ≠ []) : 0 ≤ hd l := by
  cases l with
  | nil => exact absurd rfl hl
  | cons e l => exact (h e (by simp)).1

/-- what `validate` hands out -/
theorem validate_bound {d : α} {s : Hydra α} {a : Stored α} (h : Inv d s a) (h1 : a.next ≤ 2 ^ 30) {i e : Int}
    {t : Hydra α} (hv : validate i Hydra.heads s = .ok e t ∨ validate i Hydra.tails s = .ok e t) :
    (0 ≤ e ∧ e < 2 ^ 31 - 2) ∧ (0 ≤ i ∧ i < s.heads.len) ∧ t = s := by
  by_cases hl : a.lists i = []
  · obtain ⟨v1, v2⟩ := validate_none h hl
    rw [v1, v2] at hv
    rcases hv with hv | hv <;> cases hv
  · obtain ⟨hi, v1, v2⟩ := validate_some h hl
    have hE : E a i ≠ [] := by simpa [E] using hl
    rw [v1, v2] at hv
    rcases hv with hv | hv
    · injection hv with h2 h3
      subst h2 h3
      have e1 := hd_bound (h.rng i) h.nx0.1
      have e2 := hd_nonneg (h.rng i) hE
      exact ⟨by omega, hi, rfl⟩
    · injection hv with h2 h3
      subst h2 h3
      have hr : ∀ e ∈ (E a i).reverse, 0 ≤ e ∧ e < a.next := fun e he => h.rng i e (List.mem_reverse.1 he)
      have e1 := hd_bound hr h.nx0.1
      have e2 := hd_nonneg hr (by simpa using hE)
      exact ⟨by omega, hi, rfl⟩

/-- `if (c) { body that reads the cell again }` -/
theorem when3 {σ : Type} {γ δ : Type} {Q : γ → δ → Prop} {c d : Prop} [Decidable c] [Decidable d] {m m' : JM σ Unit}
    {f : Unit → JM σ γ} {h : Unit → JM σ δ} {s : σ} (hcd : c ↔ d) (hm : m' s = m s)
    (h2 : ∀ t, (if c then m else pure ()) s = .ok () t → Sim Q (f ()) (h ()) t) :
    Sim Q (JM.when c m >>= f) ((if d then m' else pure ()) >>= h) s := by
  refine .bind_eq ?_ fun _ t ht => h2 t ht
  exact .ite hcd (fun _ => .of_eq hm) fun _ => .rfl

theorem size_unit {m : JM (Hydra α) Unit} (h : ∀ s, (m s).state.size = s.size) (s : Hydra α) :
    ((m >>= fun _ => pure ()) s).state.size = s.size := by rw [bind_unit]; exact h s

theorem ite_keep {P : Hydra α → Prop} {c : Prop} [Decidable c] {m : JM (Hydra α) Unit} {s u : Hydra α}
    (hu : (if c then m else pure ()) s = .ok () u) (hm : ∀ w, m s = .ok () w → P w) (hs : P s) : P u := by
  by_cases hc : c
  · rw [if_pos hc] at hu; exact hm _ hu
  · rw [if_neg hc] at hu; injection hu with _ hu; exact hu ▸ hs

theorem wr_keep {β : Type} {P : Hydra α → Prop} {arr : Hydra α → Arr β} {put : Hydra α → Arr β → Hydra α} {i : Int} {v : β}
    {s u : Hydra α} (hu : wr arr put i v s = .ok () u) (hp : P (put s ((arr s).set i v))) : P u := by
  simp only [wr] at hu
  split at hu
  · injection hu with _ hu; exact hu ▸ hp
  · cases hu

theorem removeFirst_sim (d : α) (i : Int) {s : Hydra α} {a : Stored α} (h : Inv d s a) (h1 : a.next ≤ 2 ^ 30)
    (h2 : a.total ≤ 2 ^ 30) : Sim Eq (Hydra.removeFirst d i) (KeyHydraDeque.removeFirst d i) s := by
  have hB := bnd_of_inv h h1 h2
  unfold Hydra.removeFirst KeyHydraDeque.removeFirst
  refine .right rfl ?_
  refine .bind_eq (validate_sim d i Hydra.heads s) fun e t ht => ?_
  obtain ⟨he, hi, rfl⟩ := validate_bound h h1 (.inl ht)
  refine rdS fun hn => wrS fun _ => ?_
  refine addCount_sim d (k := -1) (fun c0 c1 => ?_) fun c => ?_
  · have := hB.cnt i c0 c1
    show -2147483648 ≤ t.count.get i + -1 ∧ t.count.get i + -1 < 2147483648
    omega
  refine rdS fun _ => ?_
  refine when2 decide_eq_true_iff.symm fun u hu => ?_
  have hu1 : u.nexts = t.nexts ∧ u.size = t.size := by
    refine ite_keep (P := fun w => w.nexts = t.nexts ∧ w.size = t.size) hu (fun _ ht => ?_) ⟨rfl, rfl⟩
    exact wr_keep (P := fun w => w.nexts = t.nexts ∧ w.size = t.size) ht ⟨rfl, rfl⟩
  have er : rd Hydra.nexts e u = .ok (t.nexts.get e) u := by
    simp only [rd]; rw [hu1.1, if_pos hn]
  refine .right er ?_
  refine when3 decide_eq_true_iff.symm (m' := rd Hydra.nexts e >>= fun v8 =>
    wr Hydra.prevs (fun self a => { self with prevs := a }) v8 (-1) >>= fun _ => pure ()) ?_ fun w hw => ?_
  · rw [JM.bind_ok er, bind_unit]
  · have hs : w.size = u.size := ite_size hw (wr_size _ _ fun _ _ => rfl) fun _ => rfl
    have := hB.size
    exact release_sim d e he (by rw [hs, hu1.2]; exact ⟨this.1, by omega⟩)

theorem removeLast_sim (d : α) (i : Int) {s : Hydra α} {a : Stored α} (h : Inv d s a) (h1 : a.next ≤ 2 ^ 30)
    (h2 : a.total ≤ 2 ^ 30) : Sim Eq (Hydra.removeLast d i) (KeyHydraDeque.removeLast d i) s := by
  have hB := bnd_of_inv h h1 h2
  unfold Hydra.removeLast KeyHydraDeque.removeLast
  refine .right rfl ?_
  refine .bind_eq (validate_sim d i Hydra.tails s) fun e t ht => ?_
  obtain ⟨he, hi, rfl⟩ := validate_bound h h1 (.inr ht)
  refine rdS fun hn => wrS fun _ => ?_
  refine addCount_sim d (k := -1) (fun c0 c1 => ?_) fun c => ?_
  · have := hB.cnt i c0 c1
    show -2147483648 ≤ t.count.get i + -1 ∧ t.count.get i + -1 < 2147483648
    omega
  refine rdS fun _ => ?_
  refine when2 decide_eq_true_iff.symm fun u hu => ?_
  have hu1 : u.prevs = t.prevs ∧ u.size = t.size := by
    refine ite_keep (P := fun w => w.prevs = t.prevs ∧ w.size = t.size) hu (fun _ ht => ?_) ⟨rfl, rfl⟩
    exact wr_keep (P := fun w => w.prevs = t.prevs ∧ w.size = t.size) ht ⟨rfl, rfl⟩
  have er : rd Hydra.prevs e u = .ok (t.prevs.get e) u := by
    simp only [rd]; rw [hu1.1, if_pos hn]
  refine .right er ?_
  refine when3 decide_eq_true_iff.symm (m' := rd Hydra.prevs e >>= fun v8 =>
    wr Hydra.nexts (fun self a => { self with nexts := a }) v8 (-1) >>= fun _ =>
    wr Hydra.prevs (fun self a => { self with prevs := a }) e (-1) >>= fun _ => pure ()) ?_ fun w hw => ?_
  · rw [JM.bind_ok er, bind_unit]
  · have hs : w.size = u.size := by
      refine ite_size hw (fun x => ?_) fun _ => rfl
      have q1 := wr_size (arr := Hydra.nexts) (put := fun (t : Hydra α) a => { t with nexts := a }) (t.prevs.get e) (-1)
        (fun _ _ => rfl) x
      rw [JM.bind_apply]
      cases hx : wrNexts (t.prevs.get e) (-1) x with
      | ok u' y =>
        rw [hx] at q1
        show (wrPrevs e (-1) y).state.size = x.size
        exact (wr_size (arr := Hydra.prevs) (put := fun (t : Hydra α) a => { t with prevs := a }) e (-1)
          (fun _ _ => rfl) y).trans q1
      | err e' y => rw [hx] at q1; exact q1
    have := hB.size
    exact release_sim d e he (by rw [hs, hu1.2]; exact ⟨this.1, by omega⟩)

theorem fillAll_local (σ : Type) {β : Type} (a : Arr β) (v : β) :
    ∃ r, ∀ s, (fillAll a v : JM σ (Arr β)) s = ofExcept r s := fill_local σ a v 0 a.len

theorem clear_sim (d : α) (s : Hydra α) : Sim Eq (Hydra.clear d) (KeyHydraDeque.clear d) s := by
  unfold Hydra.clear KeyHydraDeque.clear
  refine .get (.stepL (fillAll_local _ _ _) fun _ _ => .modify rfl (.right rfl ?_))
  refine .stepL (fillAll_local _ _ _) fun _ _ => .modify rfl (.right rfl ?_)
  refine .stepL (fillAll_local _ _ _) fun _ _ => .modify rfl (.right rfl ?_)
  refine .stepL (fillAll_local _ _ _) fun _ _ => .modify rfl (.right rfl ?_)
  refine .stepL (fillAll_local _ _ _) fun _ _ => .modify rfl (.right rfl ?_)
  refine .stepL (fillAll_local _ _ _) fun _ _ => .modify rfl ?_
  exact .of_eq rfl

theorem sizeOf_sim (d : α) (i : Int) (s : Hydra α) : Sim Eq (Hydra.sizeOf i) (KeyHydraDeque.size1 d i) s := by
  unfold Hydra.sizeOf KeyHydraDeque.size1
  exact .get (.ite (by simp) (fun _ => .rfl) fun _ => .rfl)

end Verif.Link.HydraL

import Verif.Spec.HeapCost
import Verif.Proofs.Heap5
import Mathlib.Data.Nat.Log
set_option linter.unusedSectionVars false
/-! The heap with a counting comparator does what the heap does, and counts few calls. -/
namespace Verif.HeapCost
open Verif.HeapSpec Verif.HeapProof Verif.Heap
variable {K V α β : Type}

/-- The result `r` on the heap, with `n` on the counter. -/
def lifts (r : Res (Heap K V) α) (n : Nat) : Res (Obs Nat K V) α :=
  match r with
  | .ok a s => .ok a ⟨s, n⟩
  | .err e s => .err e ⟨s, n⟩

/-- `m'` does what `m` does and makes at most `b` comparisons. -/
def Cost (m' : JM (Obs Nat K V) α) (m : JM (Heap K V) α) (t : Obs Nat K V) (b : Nat) : Prop :=
  ∃ k, k ≤ b ∧ m' t = lifts (m t.heap) (t.ext + k)

namespace Cost
variable {m' : JM (Obs Nat K V) α} {m : JM (Heap K V) α} {t : Obs Nat K V}

theorem mono {a b : Nat} (h : Cost m' m t a) (hb : a ≤ b) : Cost m' m t b := by
  obtain ⟨k, hk, e⟩ := h
  exact ⟨k, by omega, e⟩

theorem free (m : JM (Heap K V) α) (t : Obs Nat K V) (b : Nat) : Cost (HeapEff.lift m) m t b := by
  refine ⟨0, by omega, ?_⟩
  show (match m t.heap with
    | .ok a h => Res.ok a { t with heap := h }
    | .err e h => .err e { t with heap := h }) = _
  unfold lifts
  cases m t.heap <;> rfl

theorem pure (a : α) (t : Obs Nat K V) (b : Nat) : Cost (Pure.pure a) (Pure.pure a) t b := ⟨0, by omega, rfl⟩

theorem throw (e : Err) (t : Obs Nat K V) (b : Nat) : Cost (JM.throw e : JM _ α) (JM.throw e) t b :=
  ⟨0, by omega, rfl⟩

theorem bind {f' : α → JM (Obs Nat K V) β} {f : α → JM (Heap K V) β} {a b : Nat} (h : Cost m' m t a)
    (hf : ∀ x s n, m t.heap = .ok x s → Cost (f' x) (f x) ⟨s, n⟩ b) : Cost (m' >>= f') (m >>= f) t (a + b) := by
  obtain ⟨k, hk, e⟩ := h
  cases hm : m t.heap with
  | ok x s =>
    obtain ⟨j, hj, e'⟩ := hf x s (t.ext + k) hm
    refine ⟨k + j, by omega, ?_⟩
    rw [hm] at e
    rw [JM.bind_ok e, e', JM.bind_ok hm, Nat.add_assoc]
  | err x s =>
    refine ⟨k, by omega, ?_⟩
    rw [hm] at e
    rw [JM.bind_err e, JM.bind_err hm]; rfl

/-- A step that makes no comparison. -/
theorem step {f' : α → JM (Obs Nat K V) β} {f : α → JM (Heap K V) β} {b : Nat}
    (hf : ∀ x s n, m t.heap = .ok x s → Cost (f' x) (f x) ⟨s, n⟩ b) :
    Cost (HeapEff.lift m >>= f') (m >>= f) t b := by
  have := bind (free m t 0) hf
  rwa [Nat.zero_add] at this

theorem getc {s : Heap K V} {n : Nat} {f' : Heap K V → JM (Obs Nat K V) β} {f : Heap K V → JM (Heap K V) β} {b : Nat}
    (hf : ∀ n, Cost (f' s) (f s) ⟨s, n⟩ b) : Cost (HeapEff.lift get >>= f') (get >>= f) ⟨s, n⟩ b := by
  refine step fun x s n hx => ?_
  simp only [JM.get_apply, Res.ok.injEq] at hx
  obtain ⟨rfl, rfl⟩ := hx
  exact hf n

/-- One comparison. -/
theorem cmp {s : Heap K V} {n : Nat} {f' : Int → JM (Obs Nat K V) β} {m : JM (Heap K V) β} {x y : K} {b : Nat}
    (hf : ∀ n, Cost (f' (s.comp.compare x y)) m ⟨s, n⟩ b) :
    Cost (HeapEff.cmpE counting x y >>= f') m ⟨s, n⟩ (b + 1) := by
  obtain ⟨k, hk, e⟩ := hf (n + 1)
  refine ⟨k + 1, by omega, ?_⟩
  have : HeapEff.cmpE counting x y (⟨s, n⟩ : Obs Nat K V) = .ok (s.comp.compare x y) ⟨s, n + 1⟩ := rfl
  rw [JM.bind_ok this, e]
  show lifts _ (n + 1 + k) = lifts _ (n + (k + 1))
  congr 1; omega

/-- One comparison with the comparator just read. -/
theorem cmpGet {s : Heap K V} {n : Nat} {f' : Int → JM (Obs Nat K V) β} {f : Heap K V → JM (Heap K V) β} {x y : K}
    {b : Nat} (hf : ∀ n, Cost (f' (s.comp.compare x y)) (f s) ⟨s, n⟩ b) :
    Cost (HeapEff.cmpE counting x y >>= f') (get >>= f) ⟨s, n⟩ (b + 1) :=
  cmp (m := get >>= f) fun n => by
    obtain ⟨k, hk, e⟩ := hf n
    exact ⟨k, hk, by rw [JM.bind_ok (JM.get_apply _)]; exact e⟩

end Cost

theorem log2_half {c : Nat} (h : c ≠ 0) : Nat.log2 (c + 1) = Nat.log2 ((c - 1) / 2 + 1) + 1 := by
  rw [Nat.log2_def (c + 1), if_pos (by omega)]
  congr 2; omega

theorem log2_mono {a b : Nat} (h : a ≤ b) : Nat.log2 a ≤ Nat.log2 b := by
  rw [Nat.log2_eq_log_two, Nat.log2_eq_log_two]; exact Nat.log_mono_right h

theorem rd_inv {σ : Type} {arr : σ → Arr α} {i : Int} {s s' : σ} {x : α} (h : rd arr i s = .ok x s') :
    s' = s ∧ x = (arr s).get i := by
  unfold rd at h
  simp only at h
  split at h
  · simp only [Res.ok.injEq] at h; exact ⟨h.2.symm, h.1.symm⟩
  · simp at h

theorem wr_inv {σ : Type} {arr : σ → Arr α} {put : σ → Arr α → σ} {i : Int} {v : α} {s s' : σ} {u : Unit}
    (h : wr arr put i v s = .ok u s') : s' = put s ((arr s).set i v) := by
  unfold wr at h
  simp only at h
  split at h
  · simp only [Res.ok.injEq] at h; exact h.2.symm
  · simp at h

theorem up_cost (key : K) : ∀ (f : Nat) (c : Nat) (s : Heap K V) (n : Nat),
    Cost (HeapEff.filterUpLoop counting key f c) (Heap.filterUpLoop key f c) ⟨s, n⟩ (Nat.log2 (c + 1))
  | 0, c, s, n => by
    unfold HeapEff.filterUpLoop Heap.filterUpLoop
    split
    · exact .pure _ _ _
    · exact .throw _ _ _
  | f + 1, c, s, n => by
    unfold HeapEff.filterUpLoop Heap.filterUpLoop
    split
    · exact .pure _ _ _
    · rename_i hc
      have hc : c ≠ 0 := by omega
      rw [log2_half hc]
      refine .step fun pe s1 n1 h1 => ?_
      refine .step fun pk s2 n2 h2 => ?_
      have e1 := rd_inv h1
      have e2 := rd_inv h2
      refine .cmpGet fun n3 => ?_
      split
      · exact .pure _ _ _
      · refine .step fun pe' s4 n4 h4 => .step fun _ s5 n5 h5 => .step fun ce s6 n6 h6 => .step fun _ s7 n7 h7 => ?_
        have := up_cost key f ((c - 1) / 2) s7 n7
        rwa [show (((c - 1) / 2 : Nat) : Int) = ((c : Int) - 1) / 2 by omega] at this

theorem downPos {p : Nat} {m : Int} (hm : m ≤ 1073741824) (h : i32 (shl32 p 1 + 1) < m) (hp : (p : Int) < 1073741824) :
    i32 (shl32 p 1 + 1) = 2 * p + 1 := by
  by_cases hc : (p : Int) < 1073741823
  · exact childIdx ⟨by omega, hc⟩
  · have : (p : Int) = 1073741823 := by omega
    rw [this, show i32 (shl32 1073741823 1 + 1) = 2147483647 by decide] at h
    omega

theorem down_cost (key : K) (f : Nat) : ∀ (p : Nat) (s : Heap K V) (n : Nat), (p : Int) < 1073741824 →
    s.size ≤ 1073741824 →
    Cost (HeapEff.filterDownLoop counting key f p) (Heap.filterDownLoop key f p) ⟨s, n⟩
      (2 * (Nat.log2 s.size.toNat - Nat.log2 (p + 1))) := by
  induction f with
  | zero =>
    intro p s n _ _
    unfold HeapEff.filterDownLoop Heap.filterDownLoop
    exact .throw _ _ _
  | succ f ih =>
    intro p s n hp hs
    unfold HeapEff.filterDownLoop Heap.filterDownLoop
    refine .getc fun n => ?_
    simp only
    split
    · rename_i hlt
      have hc := downPos hs hlt hp
      rw [hc] at hlt ⊢
      have hl : Nat.log2 (p + 1) + 1 ≤ Nat.log2 s.size.toNat := by
        have := log2_half (c := 2 * p + 1) (by omega)
        rw [show (2 * p + 1 - 1) / 2 + 1 = p + 1 by omega] at this
        rw [← this]; exact log2_mono (by omega)
      obtain ⟨d, hd⟩ : ∃ d, Nat.log2 s.size.toNat - Nat.log2 (p + 1) = d + 1 := ⟨_, (Nat.succ_pred (by omega)).symm⟩
      rw [hd, show 2 * (d + 1) = (2 * d + 1) + 1 by omega]
      refine .step fun le s1 n1 h1 => .step fun lk s2 n2 h2 => ?_
      have e1 : s1 = s := (rd_inv h1).1
      subst s1
      have e2 : s2 = s := (rd_inv h2).1
      subst s2
      rw [Nat.add_comm (2 * d + 1) 1]
      refine .bind ?_ ?_
      · split
        · refine .step fun re s3 n3 h3 => .step fun rk s4 n4 h4 => ?_
          have e3 : s3 = s := (rd_inv h3).1
          subst s3
          have e4 : s4 = s := (rd_inv h4).1
          subst s4
          refine .cmp fun n5 => ?_
          split <;> exact .pure _ _ _
        · exact .pure _ _ _
      · rintro ⟨ch, ck⟩ s3 n3 h3
        have hch : s3 = s ∧ (ch = 2 * p + 1 ∨ ch = 2 * p + 2 ∧ 2 * (p : Int) + 2 < s.size) := by
          split at h3
          · rename_i hr
            cases ha : rd Heap.tree (2 * (p : Int) + 1 + 1) s with
            | err e s' => simp only at h3; rw [JM.bind_err ha] at h3; simp at h3
            | ok re s' =>
              have ea : s' = s := (rd_inv ha).1
              subst s'
              simp only at h3
              rw [JM.bind_ok ha] at h3
              cases hb : rd Heap.keys re s with
              | err e s' => rw [JM.bind_err hb] at h3; simp at h3
              | ok rk s' =>
                have eb : s' = s := (rd_inv hb).1
                subst s'
                rw [JM.bind_ok hb] at h3
                split at h3 <;> simp at h3
                · exact ⟨h3.2.symm, .inr ⟨by omega, by omega⟩⟩
                · exact ⟨h3.2.symm, .inl (by omega)⟩
          · simp at h3
            exact ⟨h3.2.symm, .inl (by omega)⟩
        obtain ⟨e3, hch⟩ := hch
        subst s3
        refine .cmp fun n5 => ?_
        split
        · exact .pure _ _ _
        · refine .step fun ce s4 n4 h4 => .step fun _ s5 n5 h5 => .step fun pe s6 n6 h6 => .step fun _ s7 n7 h7 => ?_
          have e4 := (rd_inv h4).1
          have e5 := wr_inv h5
          have e6 := (rd_inv h6).1
          have e7 := wr_inv h7
          have hsz : s7.size = s.size := by rw [e7]; simp only; rw [e6]; simp only; rw [e5]; simp only; rw [e4]
          obtain ⟨q, hq, hq'⟩ : ∃ q : Nat, ch = q ∧ (q = 2 * p + 1 ∨ q = 2 * p + 2) := by
            rcases hch with h | ⟨h, -⟩
            · exact ⟨2 * p + 1, by omega, .inl rfl⟩
            · exact ⟨2 * p + 2, by omega, .inr rfl⟩
          subst hq
          refine (ih q s7 n7 (by omega) (by omega)).mono ?_
          rw [hsz]
          have : Nat.log2 (q + 1) = Nat.log2 (p + 1) + 1 := by
            rw [log2_half (by omega), show (q - 1) / 2 + 1 = p + 1 by omega]
          omega
    · exact .pure _ _ _

theorem bind_inv {σ : Type} {m : JM σ α} {f : α → JM σ β} {s s' : σ} {b : β} (h : (m >>= f) s = .ok b s') :
    ∃ a t, m s = .ok a t ∧ f a t = .ok b s' := by
  rw [JM.bind_apply] at h
  cases hm : m s with
  | ok a t => rw [hm] at h; exact ⟨a, t, rfl, h⟩
  | err e t => rw [hm] at h; simp at h

theorem up_result (key : K) (f : Nat) : ∀ (c : Nat) (s s' : Heap K V) (r : Int),
    Heap.filterUpLoop key f c s = .ok r s' → (∃ q : Nat, r = q ∧ q ≤ c) ∧ s'.size = s.size := by
  induction f with
  | zero =>
    intro c s s' r h
    unfold Heap.filterUpLoop at h
    split at h
    · simp at h; exact ⟨⟨c, h.1.symm, Nat.le_refl _⟩, by rw [h.2]⟩
    · simp at h
  | succ f ih =>
    intro c s s' r h
    unfold Heap.filterUpLoop at h
    split at h
    · simp at h; exact ⟨⟨c, h.1.symm, Nat.le_refl _⟩, by rw [h.2]⟩
    · rename_i hc
      simp only at h
      obtain ⟨_, s1, h1, h⟩ := bind_inv h
      obtain ⟨_, s2, h2, h⟩ := bind_inv h
      obtain ⟨_, s3, h3, h⟩ := bind_inv h
      simp only [JM.get_apply, Res.ok.injEq] at h3
      obtain ⟨rfl, rfl⟩ := h3
      have e1 := (rd_inv h1).1
      have e2 := (rd_inv h2).1
      split at h
      · simp at h
        refine ⟨⟨c, h.1.symm, Nat.le_refl _⟩, ?_⟩
        rw [← h.2, e2, e1]
      · obtain ⟨_, s4, h4, h⟩ := bind_inv h
        obtain ⟨_, s5, h5, h⟩ := bind_inv h
        obtain ⟨_, s6, h6, h⟩ := bind_inv h
        obtain ⟨_, s7, h7, h⟩ := bind_inv h
        have e4 := (rd_inv h4).1
        have e5 := wr_inv h5
        have e6 := (rd_inv h6).1
        have e7 := wr_inv h7
        rw [show ((c : Int) - 1) / 2 = (((c - 1) / 2 : Nat) : Int) by omega] at h
        obtain ⟨⟨q, hq, hq'⟩, hs⟩ := ih _ _ _ _ h
        refine ⟨⟨q, hq, by omega⟩, ?_⟩
        rw [hs, e7]; simp only; rw [e6, e5]; simp only; rw [e4, e2, e1]

theorem filterUp_cost (key : K) (c : Nat) (e : Int) (s : Heap K V) (n : Nat) :
    Cost (HeapEff.filterUp counting c key e) (Heap.filterUp c key e) ⟨s, n⟩ (Nat.log2 (c + 1)) := by
  unfold HeapEff.filterUp Heap.filterUp
  have := Cost.bind (b := 0) (up_cost key (c : Int).toNat c s n)
    (f' := fun ch => do
      HeapEff.lift (wrTree ch e)
      HeapEff.lift (wrInverse e ch)
      pure ch)
    (f := fun ch => do
      wrTree ch e
      wrInverse e ch
      pure ch)
    (fun x s' n' _ => .step fun _ _ _ _ => .step fun _ _ _ _ => .pure _ _ _)
  exact this

theorem filterUp_result (key : K) (c : Nat) (e : Int) (s s' : Heap K V) (r : Int)
    (h : Heap.filterUp c key e s = .ok r s') : (∃ q : Nat, r = q ∧ q ≤ c) ∧ s'.size = s.size := by
  unfold Heap.filterUp at h
  obtain ⟨r', s1, h1, h⟩ := bind_inv h
  obtain ⟨_, s2, h2, h⟩ := bind_inv h
  obtain ⟨_, s3, h3, h⟩ := bind_inv h
  have e2 := wr_inv h2
  have e3 := wr_inv h3
  simp at h
  obtain ⟨hr, hs⟩ := up_result _ _ _ _ _ _ h1
  rw [h.1] at hr
  refine ⟨hr, ?_⟩
  rw [← h.2, e3]; simp only; rw [e2]; exact hs

theorem filterDown_cost (key : K) (p : Nat) (e : Int) (s : Heap K V) (n : Nat) (hp : (p : Int) < 1073741824)
    (hs : s.size ≤ 1073741824) :
    Cost (HeapEff.filterDown counting p key e) (Heap.filterDown p key e) ⟨s, n⟩ (2 * Nat.log2 s.size.toNat) := by
  unfold HeapEff.filterDown Heap.filterDown
  refine .getc fun n => ?_
  have := Cost.bind (b := 0) (down_cost key (s.size.toNat + 1) p s n hp hs)
    (f' := fun ch => do
      HeapEff.lift (wrTree ch e)
      HeapEff.lift (wrInverse e ch))
    (f := fun ch => do
      wrTree ch e
      wrInverse e ch)
    (fun x s' n' _ => .step fun _ _ _ _ => .free _ _ _)
  exact this.mono (by omega)

/-- Sifting up, then down. -/
theorem sift_cost (key : K) (c : Nat) (e : Int) (s : Heap K V) (n : Nat) (hc : (c : Int) < 1073741824)
    (hs : s.size ≤ 1073741824) :
    Cost (do let at' ← HeapEff.filterUp counting c key e; HeapEff.filterDown counting at' key e)
      (do let at' ← Heap.filterUp c key e; Heap.filterDown at' key e) ⟨s, n⟩
      (Nat.log2 (c + 1) + 2 * Nat.log2 s.size.toNat) := by
  refine .bind (filterUp_cost key c e s n) fun r s1 n1 h1 => ?_
  obtain ⟨⟨q, rfl, hq⟩, h2⟩ := filterUp_result _ _ _ _ _ _ h1
  have := filterDown_cost key q e s1 n1 (by omega) (by rw [h2]; exact hs)
  rwa [h2] at this

theorem insert_cost {s : Heap K V} {a : Abs K V} (h : Inv s a) (key : K) (n : Nat) :
    Cost (HeapEff.insert counting key) (Heap.insert key) ⟨s, n⟩ (Nat.log2 (a.live.length + 1)) := by
  unfold HeapEff.insert Heap.insert
  refine .getc fun n => ?_
  have hz := h.sz
  refine .step fun e s1 n1 h1 => ?_
  rw [hz]
  have := Cost.bind (b := 0) (filterUp_cost key a.live.length e s1 n1)
    (f' := fun _ => pure e) (f := fun _ => pure e) (fun x s' n' _ => .pure _ _ _)
  exact this

theorem first_cost (key : K) : ∀ (m : Nat) (i : Int) (s : Heap K V) (n : Nat),
    Cost (HeapEff.firstLoop counting key m i) (Heap.firstLoop key m i) ⟨s, n⟩ m
  | 0, i, s, n => .pure _ _ _
  | m + 1, i, s, n => by
    unfold HeapEff.firstLoop Heap.firstLoop
    refine .step fun e s1 n1 h1 => .step fun k s2 n2 h2 => .cmpGet fun n3 => ?_
    split
    · exact .pure _ _ _
    · exact first_cost key m _ _ _

theorem rebuild_cost (N : Nat) : ∀ (m : Nat) (i : Nat) (s : Heap K V) (n : Nat), i + m ≤ N →
    Cost (HeapEff.rebuildLoop counting m i) (Heap.rebuildLoop m i) ⟨s, n⟩ (m * Nat.log2 N)
  | 0, i, s, n, _ => .pure _ _ _
  | m + 1, i, s, n, h => by
    unfold HeapEff.rebuildLoop Heap.rebuildLoop
    refine .step fun e s1 n1 h1 => .step fun k s2 n2 h2 => ?_
    rw [Nat.add_mul, Nat.one_mul, Nat.add_comm]
    refine .bind ((filterUp_cost k i e s2 n2).mono (log2_mono (by omega))) fun _ s3 n3 h3 => ?_
    have := rebuild_cost N m (i + 1) s3 n3 (by omega)
    rwa [show ((i + 1 : Nat) : Int) = (i : Int) + 1 by omega] at this

theorem step_cost [BEq K] [BEq V] {s : Heap K V} {a : Abs K V} (h : Inv s a) (o : Op K V) (hg : Guard o a) (n : Nat) :
    Cost (HeapEff.step counting o) (Heap.step o) ⟨s, n⟩ (maxCompares a o) := by
  have hz := h.sz
  have hu := h.size_le
  have hb := h.big
  have hil := h.good.il
  have hkl := h.good.kl
  have hul := h.used_le
  have hcap := h.cap
  have wrap : ∀ {α : Type} {m' : JM (Obs Nat K V) α} {m : JM (Heap K V) α} {b : Nat} (g : α → Out K V),
      Cost m' m ⟨s, n⟩ b → Cost (do let x ← m'; pure (g x)) (do let x ← m; pure (g x)) ⟨s, n⟩ b :=
    fun g hc => Cost.bind (b := 0) hc (fun _ _ _ _ => .pure _ _ _)
  cases o with
  | insert k => exact wrap _ (insert_cost h k n)
  | insertKV k v =>
    refine wrap _ ?_
    unfold HeapEff.insertKV Heap.insertKV
    exact Cost.bind (b := 0) (insert_cost h k n) fun e s1 n1 h1 => .step fun _ s2 n2 h2 => .pure _ _ _
  | removeAt e =>
    refine wrap (fun _ => .unit) ?_
    show Cost _ _ _ (if e ∈ a.live then _ else _)
    unfold HeapEff.removeAt Heap.removeAt
    refine .getc fun n => ?_
    split
    · exact .throw _ _ _
    · rename_i hr
      refine .step fun node s1 n1 h1 => ?_
      obtain ⟨e1, e2⟩ := rd_inv h1
      simp only at e1 e2
      split
      · exact .throw _ _ _
      · rename_i hnode
        have hin : e ∈ a.live := by
          by_cases hx : e < used a
          · rcases h.all e (by omega) hx with hy | hy
            · exact hy
            · have := h.inv_freed hy; omega
          · have hy := h.unused e (by omega) (by omega)
            have hsz : s.size = 0 := by
              rcases hg with hw | hw | hw
              · rw [hz, hw]; rfl
              · unfold used at hx; omega
              · omega
            omega
        rw [if_pos hin]
        obtain ⟨p0, p1, p2⟩ := h.inv_live hin
        refine .step fun _ s2 n2 h2 => .step fun _ s3 n3 h3 => .step fun _ s4 n4 h4 => .step fun le s5 n5 h5 =>
          .step fun k s6 n6 h6 => .step fun _ s7 n7 h7 => .step fun _ s8 n8 h8 => .step fun _ s9 n9 h9 => ?_
        have f2 := wr_inv h2
        have f3 : s3.size = s2.size := by
          unfold clearValueAt at h3
          obtain ⟨_, t, ht, h3⟩ := bind_inv h3
          simp only [JM.get_apply, Res.ok.injEq] at ht
          rw [wr_inv h3, ← ht.2]
        have f4 : s4.size = s3.size - 1 := by
          simp only [JM.modify_apply, Res.ok.injEq, true_and] at h4
          rw [← h4]
        have f5 := (rd_inv h5).1
        have f6 := (rd_inv h6).1
        have f7 : s7.size = s6.size := by
          simp only [JM.modify_apply, Res.ok.injEq, true_and] at h7
          rw [← h7]
        have f8 := wr_inv h8
        have f9 := wr_inv h9
        have hs9 : s9.size = s.size - 1 := by
          rw [f9]; simp only; rw [f8]; simp only; rw [f7, f6, f5, f4, f3, f2]; simp only; rw [e1]
        split
        · exact .pure _ _ _
        · rename_i hne
          obtain ⟨c, hc⟩ : ∃ c : Nat, node = c := ⟨node.toNat, by omega⟩
          subst hc
          refine (sift_cost k c le s9 n9 (by omega) (by omega)).mono ?_
          rw [hs9]
          have hl : (s.size - 1).toNat = a.live.length - 1 := by omega
          have : Nat.log2 (c + 1) ≤ Nat.log2 (a.live.length - 1) := log2_mono (by omega)
          rw [hl]; omega
  | resetKey e k =>
    refine wrap (fun _ => .unit) ?_
    show Cost _ _ _ (if e ∈ a.live then _ else _)
    unfold HeapEff.resetKey Heap.resetKey
    refine .step fun _ s1 n1 h1 => ?_
    have e1 := wr_inv h1
    have hin : e ∈ a.live := by
      rcases hg with hx | hx
      · exact hx
      · exfalso
        have : wrKeys e k s = .err .indexOutOfBounds s := wr_oob _ _ (by omega)
        rw [this] at h1; simp at h1
    rw [if_pos hin]
    obtain ⟨p0, p1, p2⟩ := h.inv_live hin
    refine .step fun node s2 n2 h2 => ?_
    obtain ⟨e2, e3⟩ := rd_inv h2
    have hnode : node = s.inverse.get e := by rw [e3, e1]
    obtain ⟨c, hc⟩ : ∃ c : Nat, node = c := ⟨node.toNat, by omega⟩
    have hs2 : s2.size = s.size := by rw [e2, e1]
    subst hc
    refine (sift_cost k c e s2 n2 (by omega) (by omega)).mono ?_
    rw [hs2, hz]
    have : Nat.log2 (c + 1) ≤ Nat.log2 a.live.length := log2_mono (by omega)
    simp only [Int.toNat_natCast]
    omega
  | setComparator c =>
    refine wrap (fun _ => .unit) ?_
    cases c with
    | none => exact .throw _ _ _
    | some c =>
      show Cost _ _ _ (if c.ref = a.cmp.ref then _ else _)
      unfold HeapEff.setComparator Heap.setComparator
      refine .getc fun n => ?_
      rw [h.cmp]
      by_cases hc : a.cmp.ref = c.ref
      · simp only [hc, if_true]; exact .pure _ _ _
      · have hc' : ¬ c.ref = a.cmp.ref := fun h => hc h.symm
        simp only [hc, hc', if_false]
        refine .step fun _ s1 n1 h1 => ?_
        have hzz : s.size.toNat = a.live.length := by omega
        rw [hzz]
        exact Cost.bind (b := 0) (rebuild_cost a.live.length a.live.length 0 s1 n1 (by omega))
          fun _ _ _ _ => .free _ _ _
  | containsKey k =>
    refine wrap _ ?_
    unfold HeapEff.containsKey Heap.containsKey HeapEff.getFirstEntry Heap.getFirstEntry
    refine Cost.bind (b := 0) (.getc fun n => ?_) fun _ _ _ _ => .pure _ _ _
    rw [show s.size.toNat = a.live.length by omega]
    exact first_cost k _ _ _ _
  | getFirstEntry k =>
    refine wrap _ ?_
    unfold HeapEff.getFirstEntry Heap.getFirstEntry
    refine .getc fun n => ?_
    rw [show s.size.toNat = a.live.length by omega]
    exact first_cost k _ _ _ _
  | _ => first
    | exact .free _ _ _
    | exact .free (Heap.step .getSize) _ _ | exact .free (Heap.step .isEmpty) _ _
    | exact .free (Heap.step .getCapacity) _ _ | exact .free (Heap.step .getDefaultKey) _ _
    | exact .free (Heap.step .getDefaultValue) _ _

end Verif.HeapCost

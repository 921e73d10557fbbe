import Verif.Spec.GrowthHydra
import Verif.Proofs.Growth
import Verif.Props.Hydra
import Verif.Link.Hydra
import Verif.Link.Keeps
/-! Array lengths of the multi-headed deque. -/
set_option linter.unusedSectionVars false
namespace Verif.Hydra
open Verif.GrowthSpec Verif.HydraSpec Verif.Linked Verif.Link
variable {α : Type}

/-- The length of the value array is the least doubling of `c` that holds the entries ever used. -/
def Grown (c : Nat) (s : Hydra α) : Prop :=
  -1 ≤ s.maxEntry ∧ (s.maxEntry + 1 ≤ 2 ^ 30 → LeastDoubling c (s.maxEntry + 1).toNat s.values.len)

theorem ensureEntry_state {σ β : Type} (a : Arr β) (i : Int) (d : β) (s : σ) : (ensureEntry a i d s).state = s := by
  obtain ⟨r, hr⟩ := Verif.Link.HydraL.ens_local σ a i d
  rw [hr]
  cases r <;> rfl

theorem grown_wr {β : Type} {c : Nat} {arr : Hydra α → Arr β} {put : Hydra α → Arr β → Hydra α}
    (h1 : ∀ s x, (put s x).maxEntry = s.maxEntry) (h2 : ∀ s x, x.len = (arr s).len → (put s x).values.len = s.values.len)
    (i : Int) (v : β) : Keeps (Grown (α := α) c) (wr arr put i v) :=
  .wr (fun s x h hl => by unfold Grown; rw [h1, h2 s x hl]; exact h) i v

theorem grown_mod {c : Nat} {f : Hydra α → Hydra α} (h1 : ∀ s, (f s).maxEntry = s.maxEntry)
    (h2 : ∀ s, (f s).values.len = s.values.len) : Keeps (Grown (α := α) c) (modify f) :=
  .modify fun s h => by unfold Grown; rw [h1, h2]; exact h

theorem grown_heads {c : Nat} (i v : Int) : Keeps (Grown (α := α) c) (wrHeads i v) :=
  grown_wr (by intros; rfl) (by intros; rfl) i v
theorem grown_tails {c : Nat} (i v : Int) : Keeps (Grown (α := α) c) (wrTails i v) :=
  grown_wr (by intros; rfl) (by intros; rfl) i v
theorem grown_nexts {c : Nat} (i v : Int) : Keeps (Grown (α := α) c) (wrNexts i v) :=
  grown_wr (by intros; rfl) (by intros; rfl) i v
theorem grown_prevs {c : Nat} (i v : Int) : Keeps (Grown (α := α) c) (wrPrevs i v) :=
  grown_wr (by intros; rfl) (by intros; rfl) i v
theorem grown_values {c : Nat} (i : Int) (v : α) : Keeps (Grown (α := α) c) (wrValues i v) :=
  grown_wr (by intros; rfl) (by intro _ _ h; exact h) i v
theorem grown_addCount {c : Nat} (i k : Int) : Keeps (Grown (α := α) c) (addCount i k) :=
  .bind (.rd _) fun _ => grown_wr (by intros; rfl) (by intros; rfl) i _

theorem grown_ensureList {c : Nat} (i : Int) : Keeps (Grown (α := α) c) (ensureList i) :=
  .bind .get fun _ => .bind (.same fun _ => ensureEntry_state _ _ _ _) fun _ => .bind (grown_mod (by intros; rfl) (by intros; rfl)) fun _ =>
    .bind (.same fun _ => ensureEntry_state _ _ _ _) fun _ => .bind (grown_mod (by intros; rfl) (by intros; rfl)) fun _ =>
    .bind (.same fun _ => ensureEntry_state _ _ _ _) fun _ => grown_mod (by intros; rfl) (by intros; rfl)

/-- Once the bound is passed nothing is claimed any more. -/
def Past (n : Int) (s : Hydra α) : Prop := s.maxEntry = n

theorem grown_allocate {c : Nat} (hc : 1 ≤ c) (d : α) : Keeps (Grown (α := α) c) (allocateEntry d) := by
  intro s hs
  unfold allocateEntry
  rw [JM.bind_ok (JM.get_apply _)]
  by_cases hf : s.freeList < -1
  · rw [if_pos hf]
    exact (Keeps.bind (.rd _) fun _ => .bind (grown_mod (by intros; rfl) (by intros; rfl)) fun _ => .pure _) s hs
  · rw [if_neg hf, JM.bind_ok (JM.modify_apply _ _)]
    obtain ⟨h0, h1⟩ := hs
    by_cases hb : s.maxEntry + 1 + 1 ≤ 2 ^ 30
    · obtain ⟨r1, e1, -⟩ := ensureEntry_ok s.values d
        { s with maxEntry := s.maxEntry + 1 } (i := s.maxEntry + 1) (by omega)
      have hl := h1 (by omega)
      have hlen : LeastDoubling s.values.len (s.maxEntry + 1 + 1).toNat r1.len := by
        have e1' := e1
        unfold ensureEntry at e1'
        rw [i32_of_range (by omega)] at e1'
        refine ensureSize_len ?_ (by omega) e1'
        obtain ⟨⟨k, hk⟩, _⟩ := hl
        rw [hk]
        exact Nat.mul_pos hc (Nat.two_pow_pos k)
      rw [JM.bind_ok e1, JM.bind_ok (JM.modify_apply _ _)]
      refine (Keeps.bind (.same fun _ => ensureEntry_state _ _ _ _) fun _ => .bind (grown_mod (by intros; rfl) (by intros; rfl)) fun _ =>
        .bind (.same fun _ => ensureEntry_state _ _ _ _) fun _ => .bind (grown_mod (by intros; rfl) (by intros; rfl)) fun _ => .pure _ :
        Keeps (Grown (α := α) c) _) _ ?_
      refine ⟨show (-1 : Int) ≤ s.maxEntry + 1 by omega, fun _ => ?_⟩
      exact hl.trans hc (show (s.maxEntry + 1).toNat ≤ (s.maxEntry + 1 + 1).toNat by omega) hlen
    · have : Keeps (Past (α := α) (s.maxEntry + 1)) _ :=
        (.bind (.same fun _ => ensureEntry_state s.values (s.maxEntry + 1) d _) fun v =>
          .bind (.modify (f := fun t => { t with values := v }) fun _ h => h) fun _ =>
          .bind (.same fun _ => ensureEntry_state s.nexts (s.maxEntry + 1) (-1) _) fun n =>
          .bind (.modify (f := fun t => { t with nexts := n }) fun _ h => h) fun _ =>
          .bind (.same fun _ => ensureEntry_state s.prevs (s.maxEntry + 1) (-1) _) fun p =>
          .bind (.modify (f := fun t => { t with prevs := p }) fun _ h => h) fun _ => .pure (s.maxEntry + 1))
      have := this { s with maxEntry := s.maxEntry + 1 } rfl
      unfold Past at this
      unfold Grown
      rw [this]
      exact ⟨by omega, fun h => absurd h (by omega)⟩

theorem grown_addFirst {c : Nat} (hc : 1 ≤ c) (d : α) (i : Int) (v : α) : Keeps (Grown (α := α) c) (addFirst d i v) :=
  .bind (grown_ensureList i) fun _ => .bind (.rd _) fun _ => .bind (grown_allocate hc d) fun _ =>
    .bind (grown_values _ _) fun _ => .bind (grown_heads _ _) fun _ => .bind (grown_addCount _ _) fun _ =>
    have k : ∀ e o : Int, Keeps (Grown (α := α) c) (do
        wrNexts e o
        modify fun t => { t with size := t.size + 1 }
        pure e) := fun _ _ => .bind (grown_nexts _ _) fun _ =>
      .bind (grown_mod (by intros; rfl) (by intros; rfl)) fun _ => .pure _
    .ite (.bind (grown_tails _ _) fun _ => k _ _) (.bind (grown_prevs _ _) fun _ => k _ _)

theorem grown_addLast {c : Nat} (hc : 1 ≤ c) (d : α) (i : Int) (v : α) : Keeps (Grown (α := α) c) (addLast d i v) :=
  .bind (grown_ensureList i) fun _ => .bind (.rd _) fun _ => .bind (grown_allocate hc d) fun _ =>
    .bind (grown_values _ _) fun _ => .bind (grown_tails _ _) fun _ => .bind (grown_addCount _ _) fun _ =>
    have k : ∀ e o : Int, Keeps (Grown (α := α) c) (do
        wrNexts e (-1)
        wrPrevs e o
        modify fun t => { t with size := t.size + 1 }
        pure e) := fun _ _ => .bind (grown_nexts _ _) fun _ => .bind (grown_prevs _ _) fun _ =>
      .bind (grown_mod (by intros; rfl) (by intros; rfl)) fun _ => .pure _
    .ite (.bind (grown_heads _ _) fun _ => k _ _) (.bind (grown_nexts _ _) fun _ => k _ _)

theorem grown_validate {c : Nat} (i : Int) (start : Hydra α → Arr Int) : Keeps (Grown (α := α) c) (validate i start) :=
  .bind .get fun _ => .ite (.throw _) (.ite (.throw _) (.bind (.rd _) fun _ => .ite (.throw _) (.pure _)))

theorem grown_release {c : Nat} (d : α) (e : Int) : Keeps (Grown (α := α) c) (release d e) :=
  .bind (.rd _) fun _ => .bind (grown_values _ _) fun _ => .bind (grown_mod (by intros; rfl) (by intros; rfl)) fun _ =>
    .bind (.bind .get fun _ => .bind (grown_nexts _ _) fun _ => grown_mod (by intros; rfl) (by intros; rfl)) fun _ => .pure _

theorem grown_removeFirst {c : Nat} (d : α) (i : Int) : Keeps (Grown (α := α) c) (removeFirst d i) :=
  .bind (grown_validate _ _) fun _ => .bind (.rd _) fun _ => .bind (grown_heads _ _) fun _ =>
    .bind (grown_addCount _ _) fun _ => .bind (.rd _) fun _ => .bind (.when (grown_tails _ _)) fun _ =>
    .bind (.when (grown_prevs _ _)) fun _ => grown_release d _

theorem grown_removeLast {c : Nat} (d : α) (i : Int) : Keeps (Grown (α := α) c) (removeLast d i) :=
  .bind (grown_validate _ _) fun _ => .bind (.rd _) fun _ => .bind (grown_tails _ _) fun _ =>
    .bind (grown_addCount _ _) fun _ => .bind (.rd _) fun _ => .bind (.when (grown_heads _ _)) fun _ =>
    .bind (.when (.bind (grown_nexts _ _) fun _ => grown_prevs _ _)) fun _ => grown_release d _

theorem fillAll_len {σ β : Type} {a r : Arr β} {v : β} {s t : σ} (h : fillAll a v s = .ok r t) : r.len = a.len := by
  rw [fillAll_ok] at h
  injection h with h _
  rw [← h]; rfl

theorem grown_clear {c : Nat} (d : α) : Keeps (Grown (α := α) c) (clear d) := by
  intro s hs
  unfold clear
  simp only [JM.bind_apply, JM.get_apply, fillAll_ok, JM.modify_apply]
  exact hs

theorem grown_iter {c : Nat} (start link : Hydra α → Arr Int) (i : Int) (n : Hydra α → Nat) :
    Keeps (Grown (α := α) c) (do
      let e ← iterReset start i
      let s ← get
      iterLoop link (n s) e) := by
  have hloop : ∀ (m : Nat) (e : Int), Keeps (Grown (α := α) c) (iterLoop link m e) := by
    intro m
    induction m with
    | zero => intro e; exact .throw _
    | succ m ih =>
      intro e
      exact .ite (.bind (.ite (.throw _) (.bind (.rd _) fun _ => .bind (.rd _) fun _ => .pure _)) fun p =>
        .bind (ih _) fun _ => .pure _) (.pure _)
  exact .bind (.bind .get fun _ => .ite (.pure _) (.rd _)) fun _ => .bind .get fun _ => hloop _ _

theorem grown_step {c : Nat} (hc : 1 ≤ c) (d : α) (o : Op α) : Keeps (Grown (α := α) c) (Hydra.step d o) := by
  cases o with
  | addFirst i v => exact .bind (grown_addFirst hc d i v) fun _ => .pure _
  | addLast i v => exact .bind (grown_addLast hc d i v) fun _ => .pure _
  | removeFirst i => exact .bind (grown_removeFirst d i) fun _ => .pure _
  | removeLast i => exact .bind (grown_removeLast d i) fun _ => .pure _
  | size => exact .bind (.bind .get fun _ => .pure _) fun _ => .pure _
  | sizeOf i => exact .bind (.bind .get fun _ => .ite (.pure _) (.rd _)) fun _ => .pure _
  | isEmpty => exact .bind (.bind .get fun _ => .pure _) fun _ => .pure _
  | iterate i => exact .bind (grown_iter Hydra.heads Hydra.nexts i fun s => s.nexts.len + 1) fun _ => .pure _
  | reverseIterate i => exact .bind (grown_iter Hydra.tails Hydra.prevs i fun s => s.prevs.len + 1) fun _ => .pure _
  | clear => exact .bind (grown_clear d) fun _ => .pure _

theorem grown_run {c : Nat} (hc : 1 ≤ c) (d : α) : ∀ (ops : List (Op α)) (s : Hydra α), Grown c s →
    Grown c (runM (Hydra.step d) s ops).2
  | [], _, h => h
  | o :: ops, s, h => grown_run hc d ops _ (grown_step hc d o s h)

/-- What one call does to the number of entries ever used. -/
theorem spent_step (o : Op α) (a : Stored α) (base : Int) (h : a.total + a.freed.length = a.next - base) :
    (o = .clear ∧ (storedStep o a).2.next = a.next ∧ (storedStep o a).2.total = 0 ∧ (storedStep o a).2.freed = []) ∨
    (o ≠ .clear ∧ (storedStep o a).2.total + (storedStep o a).2.freed.length = (storedStep o a).2.next - base ∧
      (storedStep o a).2.next - base = max (a.next - base) (storedStep o a).2.total) := by
  have hadd : ∀ L, (({ a.take with lists := L, total := a.total + 1 } : Stored α).total +
      (({ a.take with lists := L, total := a.total + 1 } : Stored α).freed.length : Int) =
        ({ a.take with lists := L, total := a.total + 1 } : Stored α).next - base) ∧
      ({ a.take with lists := L, total := a.total + 1 } : Stored α).next - base =
        max (a.next - base) (a.total + 1) := by
    intro L
    unfold Stored.take
    cases hf : a.freed with
    | nil => rw [hf] at h; simp at h; simp; omega
    | cons e fs => rw [hf] at h; simp at h; simp; omega
  cases o with
  | addFirst i v =>
    right
    refine ⟨by simp, ?_⟩
    simp only [storedStep]
    by_cases hi : i < 0
    · rw [if_pos hi]; exact ⟨h, by simp only; omega⟩
    · rw [if_neg hi]; exact hadd _
  | addLast i v =>
    right
    refine ⟨by simp, ?_⟩
    simp only [storedStep]
    by_cases hi : i < 0
    · rw [if_pos hi]; exact ⟨h, by simp only; omega⟩
    · rw [if_neg hi]; exact hadd _
  | removeFirst i =>
    right
    refine ⟨by simp, ?_⟩
    cases hl : a.lists i with
    | nil => simp only [storedStep, hl]; exact ⟨h, by omega⟩
    | cons p l => simp [storedStep, hl]; omega
  | removeLast i =>
    right
    refine ⟨by simp, ?_⟩
    cases hl : (a.lists i).getLast? with
    | none => simp only [storedStep, hl]; exact ⟨h, by omega⟩
    | some p => simp [storedStep, hl]; omega
  | clear => left; exact ⟨rfl, rfl, rfl, rfl⟩
  | size => right; exact ⟨by simp, h, by simp only [storedStep]; omega⟩
  | sizeOf i => right; exact ⟨by simp, h, by simp only [storedStep]; omega⟩
  | isEmpty => right; exact ⟨by simp, h, by simp only [storedStep]; omega⟩
  | iterate i =>
    right
    refine ⟨by simp, ?_⟩
    by_cases hi : i < 0 <;> simp only [storedStep, hi, if_true, if_false] <;> exact ⟨h, by omega⟩
  | reverseIterate i =>
    right
    refine ⟨by simp, ?_⟩
    by_cases hi : i < 0 <;> simp only [storedStep, hi, if_true, if_false] <;> exact ⟨h, by omega⟩

/-- The entries ever used: `next` is the sum of the peaks of the stretches. -/
theorem spent_run : ∀ (ops : List (Op α)) (a : Stored α) (base : Int), a.total + a.freed.length = a.next - base →
    (runS storedStep a ops).2.next = base + hydraSpent (forget a) (a.next - base) ops
  | [], a, base, _ => by simp only [runS, hydraSpent]; omega
  | o :: ops, a, base, h => by
    have hfs := (forget_step o a).2
    simp only [runS]
    rcases spent_step o a base h with ⟨rfl, e1, e2, e3⟩ | ⟨hne, e1, e2⟩
    · rw [spent_run ops _ a.next (by rw [e1, e2, e3]; simp), e1, hfs]
      simp only [hydraSpent]
      have : a.next - a.next = 0 := by omega
      rw [this]
      omega
    · rw [spent_run ops _ base e1, e2, hfs]
      have ht : (storedStep o a).2.total = (HydraSpec.step o (forget a)).2.total := by rw [← hfs]; rfl
      rw [ht]
      cases o <;> first | exact absurd rfl hne | rfl

/-- All entries in use or freed were handed out before. -/
def Seen (a : Stored α) : Prop :=
  0 ≤ a.next ∧ (∀ i, ∀ p ∈ a.lists i, 0 ≤ p.1 ∧ p.1 < a.next) ∧ ∀ e ∈ a.freed, 0 ≤ e ∧ e < a.next

theorem seen_take {a : Stored α} (h : Seen a) : a.next ≤ a.take.next ∧ a.take.next ≤ a.next + 1 ∧
    0 ≤ a.entry ∧ a.entry < a.take.next ∧ (a.take.next = a.next ∨ a.entry = a.next) ∧ a.take.lists = a.lists ∧
    ∀ e ∈ a.take.freed, 0 ≤ e ∧ e < a.next := by
  obtain ⟨h0, -, h2⟩ := h
  unfold Stored.take Stored.entry
  cases hf : a.freed with
  | nil => exact ⟨by simp only; omega, by simp only; omega, h0, by simp; omega, .inr rfl, rfl, by simp [hf]⟩
  | cons e fs =>
    rw [hf] at h2
    have := h2 e (by simp)
    exact ⟨by simp only; omega, by simp only; omega, this.1, this.2, .inl rfl, rfl, fun e' he' => h2 e' (by simp [he'])⟩

/-- One call: an entry it hands out is one of those below the new bound, and a new bound means the old bound was
handed out. -/
theorem seen_step (o : Op α) {a : Stored α} (h : Seen a) : Seen (storedStep o a).2 ∧
    a.next ≤ (storedStep o a).2.next ∧
    (∀ e, (storedStep o a).1 = .ok (.entry e) → 0 ≤ e ∧ e < (storedStep o a).2.next) ∧
    ((storedStep o a).2.next = a.next ∨
      ((storedStep o a).2.next = a.next + 1 ∧ (storedStep o a).1 = .ok (.entry a.next))) := by
  have same : ∀ (r : Except Err (Out α)), (∀ e, r ≠ .ok (.entry e)) → Seen a ∧ a.next ≤ a.next ∧
      (∀ e, r = .ok (.entry e) → 0 ≤ e ∧ e < a.next) ∧ (a.next = a.next ∨ (a.next = a.next + 1 ∧ r = .ok (.entry a.next))) :=
    fun r hr => ⟨h, Int.le_refl _, fun e he => absurd he (hr e), .inl rfl⟩
  obtain ⟨t1, t2, t3, t4, t5, t6, t7⟩ := seen_take h
  obtain ⟨h0, h1, h2⟩ := h
  have add : ∀ (i : Int) (L : List (Int × α)) (v : α), (∀ p ∈ L, p = (a.entry, v) ∨ p ∈ a.lists i) →
      let b : Stored α := { a.take with lists := upd a.lists i L, total := a.total + 1 }
      Seen b ∧ a.next ≤ b.next ∧ (∀ e, (.ok (.entry a.entry) : Except Err (Out α)) = .ok (.entry e) → 0 ≤ e ∧ e < b.next) ∧
      (b.next = a.next ∨ (b.next = a.next + 1 ∧ (.ok (.entry a.entry) : Except Err (Out α)) = .ok (.entry a.next))) := by
    intro i L v hL b
    have hb : b.next = a.take.next := rfl
    refine ⟨⟨by omega, fun j p hp => ?_, fun e he => ?_⟩, by omega, fun e he => ?_, ?_⟩
    · simp only [b, upd] at hp
      by_cases hj : j = i
      · rw [if_pos hj] at hp
        rcases hL p hp with rfl | hp
        · simp only; omega
        · have := h1 i p hp; omega
      · rw [if_neg hj] at hp
        have := h1 j p hp; omega
    · have := t7 e he; omega
    · injection he with he
      injection he with he
      omega
    · rcases t5 with t5 | t5
      · left; omega
      · by_cases hn : b.next = a.next
        · exact .inl hn
        · right; exact ⟨by omega, by rw [t5]⟩
  have rem : ∀ (i : Int) (L : List (Int × α)) (e : Int) (v : α), (e, v) ∈ a.lists i → (∀ p ∈ L, p ∈ a.lists i) →
      let b : Stored α := { a with lists := upd a.lists i L, total := a.total - 1, freed := e :: a.freed }
      Seen b ∧ a.next ≤ b.next ∧ (∀ e, (.ok (.val v) : Except Err (Out α)) = .ok (.entry e) → 0 ≤ e ∧ e < b.next) ∧
      (b.next = a.next ∨ (b.next = a.next + 1 ∧ (.ok (.val v) : Except Err (Out α)) = .ok (.entry a.next))) := by
    intro i L e v he hL b
    refine ⟨⟨h0, fun j p hp => ?_, fun e' he' => ?_⟩, Int.le_refl _, fun e he => by simp at he, .inl rfl⟩
    · simp only [b, upd] at hp
      by_cases hj : j = i
      · rw [if_pos hj] at hp; exact h1 i p (hL p hp)
      · rw [if_neg hj] at hp; exact h1 j p hp
    · simp only [b, List.mem_cons] at he'
      rcases he' with rfl | he'
      · exact h1 i _ he
      · exact h2 e' he'
  cases o with
  | addFirst i v =>
    simp only [storedStep]
    by_cases hi : i < 0
    · rw [if_pos hi]; exact same _ (by simp)
    · rw [if_neg hi]
      exact add i _ v fun p hp => by simpa using hp
  | addLast i v =>
    simp only [storedStep]
    by_cases hi : i < 0
    · rw [if_pos hi]; exact same _ (by simp)
    · rw [if_neg hi]
      exact add i _ v fun p hp => by simpa [or_comm] using hp
  | removeFirst i =>
    simp only [storedStep]
    cases hl : a.lists i with
    | nil => exact same _ (by simp)
    | cons p l => exact rem i l p.1 p.2 (by rw [hl]; simp) fun q hq => by rw [hl]; simp [hq]
  | removeLast i =>
    simp only [storedStep]
    cases hl : (a.lists i).getLast? with
    | none => exact same _ (by simp)
    | some p => exact rem i _ p.1 p.2 (List.mem_of_getLast? hl) fun q hq => List.dropLast_subset _ hq
  | clear => exact ⟨⟨h0, by simp [storedStep], by simp [storedStep]⟩, Int.le_refl _, by simp [storedStep], .inl rfl⟩
  | size => exact same _ (by simp [storedStep])
  | sizeOf i => exact same _ (by simp [storedStep])
  | isEmpty => exact same _ (by simp [storedStep])
  | iterate i => simp only [storedStep]; split <;> exact same _ (by simp)
  | reverseIterate i => simp only [storedStep]; split <;> exact same _ (by simp)

theorem seen_run : ∀ (ops : List (Op α)) {a : Stored α}, Seen a →
    a.next ≤ (runS storedStep a ops).2.next ∧
    (∀ e, .ok (.entry e) ∈ (runS storedStep a ops).1 → 0 ≤ e ∧ e < (runS storedStep a ops).2.next) ∧
    ∀ e, a.next ≤ e → e < (runS storedStep a ops).2.next → .ok (.entry e) ∈ (runS storedStep a ops).1
  | [], a, _ => by simp only [runS]; exact ⟨Int.le_refl _, by simp, fun e _ _ => by omega⟩
  | o :: ops, a, h => by
    obtain ⟨s1, s2, s3, s4⟩ := seen_step o h
    obtain ⟨r1, r2, r3⟩ := seen_run ops s1
    simp only [runS]
    refine ⟨by omega, fun e he => ?_, fun e he he' => ?_⟩
    · rcases List.mem_cons.1 he with he | he
      · have := s3 e he.symm; omega
      · exact r2 e he
    · by_cases hlt : (storedStep o a).2.next ≤ e
      · exact List.mem_cons_of_mem _ (r3 e hlt he')
      · rcases s4 with s4 | ⟨s4, s5⟩
        · omega
        · have : e = a.next := by omega
          rw [this, ← s5]; exact List.mem_cons_self

end Verif.Hydra

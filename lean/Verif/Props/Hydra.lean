import Verif.Proofs.Hydra4
set_option linter.unusedSectionVars false
/-! # Properties C45 - C48, C68: the multi-headed deque -/
namespace Verif
open Hydra HydraSpec
variable {α : Type}

namespace Hydra

theorem allowed_of_fits_from : ∀ (ops : List (Op α)) (a : Stored α),
    (∀ o ∈ ops, ∀ i, idOf o = some i → -2 ^ 31 ≤ i ∧ i < 2 ^ 30) →
    a.next + (ops.countP isAdd : Int) < 2 ^ 30 → Allowed storedStep Room a ops
  | [], _, _, _ => trivial
  | o :: ops, a, hid, hn => by
    have hstep : (storedStep o a).2.next ≤ a.next + (if isAdd o then 1 else 0) := by
      have ht : a.take.next ≤ a.next + 1 := by unfold Stored.take; split <;> simp <;> omega
      cases o <;> simp only [storedStep, isAdd]
      · split
        · simp; omega
        · simp; exact ht
      · split
        · simp; omega
        · simp; exact ht
      · split <;> simp
      · split <;> simp
      all_goals (try split) <;> simp
    rw [List.countP_cons] at hn
    refine ⟨?_, allowed_of_fits_from ops _ (fun o ho => hid o (by simp [ho])) ?_⟩
    · have := hid o (by simp)
      cases o with
      | addFirst i v => have := this i rfl; simp [isAdd] at hn; exact ⟨this.1, this.2, fun _ => by omega⟩
      | addLast i v => have := this i rfl; simp [isAdd] at hn; exact ⟨this.1, this.2, fun _ => by omega⟩
      | _ => trivial
    · by_cases hc : isAdd o = true
      · rw [hc] at hstep hn; simp at hstep hn; omega
      · rw [if_neg hc] at hstep hn; simp at hstep hn; omega

theorem allowed_of_fits {ops : List (Op α)} (h : Fits ops) :
    Allowed storedStep Room (Stored.empty (α := α)) ops :=
  allowed_of_fits_from ops _ h.1 (by simp [Stored.empty]; exact h.2)

/-- Forget entries. -/
def forget (a : Stored α) : Family α := ⟨fun i => (a.lists i).map Prod.snd, a.total⟩

theorem forget_upd (L : Int → List (Int × α)) (i : Int) (l : List (Int × α)) :
    (fun j => (upd L i l j).map Prod.snd) = upd (fun j => (L j).map Prod.snd) i (l.map Prod.snd) := by
  funext j; unfold upd; split <;> rfl

theorem forget_step (o : Op α) (a : Stored α) :
    eraseOut (storedStep o a).1 = (HydraSpec.step o (forget a)).1 ∧
    forget (storedStep o a).2 = (HydraSpec.step o (forget a)).2 := by
  cases o with
  | addFirst i v =>
    by_cases hi : i < 0
    · simp [storedStep, HydraSpec.step, hi, eraseOut]
    · simp [storedStep, HydraSpec.step, hi, eraseOut, forget, forget_upd]
  | addLast i v =>
    by_cases hi : i < 0
    · simp [storedStep, HydraSpec.step, hi, eraseOut]
    · simp [storedStep, HydraSpec.step, hi, eraseOut, forget, forget_upd]
  | removeFirst i =>
    cases hl : a.lists i with
    | nil => simp [storedStep, HydraSpec.step, hl, eraseOut, forget]
    | cons p l => simp [storedStep, HydraSpec.step, hl, eraseOut, forget, forget_upd]
  | removeLast i =>
    cases hl : (a.lists i).getLast? with
    | none => simp [storedStep, HydraSpec.step, hl, eraseOut, forget]
    | some p => simp [storedStep, HydraSpec.step, hl, eraseOut, forget, forget_upd, List.map_dropLast]
  | size => simp [storedStep, HydraSpec.step, eraseOut, forget]
  | sizeOf i => simp [storedStep, HydraSpec.step, eraseOut, forget]
  | isEmpty => exact ⟨rfl, rfl⟩
  | iterate i => by_cases hi : i < 0 <;> simp [storedStep, HydraSpec.step, eraseOut, forget, hi]
  | reverseIterate i => by_cases hi : i < 0 <;> simp [storedStep, HydraSpec.step, eraseOut, forget, hi]
  | clear => simp [storedStep, HydraSpec.step, eraseOut, forget, Family.empty]

theorem forget_run : ∀ (ops : List (Op α)) (a : Stored α),
    (runS storedStep a ops).1.map eraseOut = (runS HydraSpec.step (forget a) ops).1 ∧
    forget (runS storedStep a ops).2 = (runS HydraSpec.step (forget a) ops).2
  | [], _ => ⟨rfl, rfl⟩
  | o :: ops, a => by
    obtain ⟨h1, h2⟩ := forget_step o a
    obtain ⟨h3, h4⟩ := forget_run ops (storedStep o a).2
    simp only [runS, List.map_cons, h1, h3, h4, h2, and_self]

theorem forget_empty : forget (Stored.empty (α := α)) = Family.empty := rfl

/-- Every history that fits keeps the invariant and gives the results of the stored family. -/
theorem run_spec {d : α} {q c : Int} {s : Hydra α} (hnew : Hydra.new q c d = .ok s)
    {ops : List (Op α)} (hf : Fits ops) :
    (runM (Hydra.step d) s ops).1 = (runS storedStep Stored.empty ops).1 ∧
    Inv d (runM (Hydra.step d) s ops).2 (runS storedStep Stored.empty ops).2 :=
  runM_refines (fun s a o h g => step_spec s a o h g) ops s _ (inv_new hnew) (allowed_of_fits hf)

theorem final_lists (ops : List (Op α)) (i : Int) :
    (runS HydraSpec.step Family.empty ops).2.lists i =
      ((runS storedStep (Stored.empty (α := α)) ops).2.lists i).map Prod.snd := by
  rw [← forget_empty, ← (forget_run ops _).2]; rfl

theorem sumLen_eq {β : Type} (L : Int → List β) (n : Nat) :
    Linked.sumLen L n = ((List.range n).map fun (i : Nat) => (L i).length).sum := by
  induction n with
  | zero => rfl
  | succ n ih => rw [Linked.sumLen, ih, List.range_succ]; simp

end Hydra

/-- C45: for every element type, initial sizes and every history that fits the arrays, every
result is that of a family of independent ideal lists (`HydraSpec.step`), entry numbers aside. -/
theorem C45_family (d : α) (q c : Int) (s : Hydra α) (hnew : Hydra.new q c d = .ok s)
    (ops : List (Op α)) (hf : Fits ops) :
    (runM (Hydra.step d) s ops).1.map eraseOut = (runS HydraSpec.step Family.empty ops).1 := by
  rw [(run_spec hnew hf).1, (forget_run ops _).1, forget_empty]

/-- C45: a call on one list does not change what any other list contains: iterating list `j`
gives the same values before and after any call on a list `i ≠ j`. -/
theorem C45_independent (d : α) (q c : Int) (s0 : Hydra α) (hnew : Hydra.new q c d = .ok s0)
    (ops : List (Op α)) (o : Op α) (i j : Int) (hf : Fits (ops ++ [o])) (ho : idOf o = some i)
    (hij : j ≠ i) :
    let s := (runM (Hydra.step d) s0 ops).2
    (Hydra.step d (.iterate j) (Hydra.step d o s).state).out =
      (Hydra.step d (.iterate j) s).out := by
  intro s
  have hf1 : Fits ops := by
    refine ⟨fun x hx => hf.1 x (by simp [hx]), ?_⟩
    have := hf.2; rw [List.countP_append] at this; omega
  have h1 := (run_spec hnew hf1).2
  have hal := (Allowed_append _ _ _ _ _).mp (allowed_of_fits hf)
  have h2 := (step_spec _ _ o h1 hal.2.1).2
  have e1 := (step_spec _ _ (.iterate j) h1 trivial).1
  have e2 := (step_spec _ _ (.iterate j) h2 trivial).1
  rw [e1, e2]
  generalize (runS storedStep Stored.empty ops).2 = a
  have hl : (storedStep o a).2.lists j = a.lists j := by
    cases o <;> simp only [idOf, Option.some.injEq, reduceCtorEq] at ho <;> subst ho <;>
      simp only [storedStep]
    all_goals first
      | rfl
      | (split <;> (first | rfl | (simp only [upd, if_neg hij])))
      | (split <;> rfl)
  have hit : ∀ b : Stored α, (storedStep (.iterate j) b).1 =
      if j < 0 then .error .indexOutOfBounds else .ok (.seq ((b.lists j).map Prod.snd)) := by
    intro b; simp only [storedStep]; split <;> rfl
  rw [hit, hit, hl]

/-- Non-vacuity: two lists share the storage, both grow it, and each end works. -/
example : ∃ s : Hydra Int, Hydra.new 0 1 0 = .ok s ∧
    Fits [Op.addLast 0 10, .addFirst 2 20, .addLast 0 11, .addFirst 0 9, .removeLast 2, .addLast 2 21,
      .iterate 0, .reverseIterate 0, .removeFirst 0, .iterate 2, .size, .sizeOf 0] ∧
    (runM (Hydra.step 0) s [Op.addLast 0 10, .addFirst 2 20, .addLast 0 11, .addFirst 0 9,
      .removeLast 2, .addLast 2 21,
      .iterate 0, .reverseIterate 0, .removeFirst 0, .iterate 2, .size, .sizeOf 0]).1 =
      [.ok (.entry 0), .ok (.entry 1), .ok (.entry 2), .ok (.entry 3), .ok (.val 20), .ok (.entry 1),
       .ok (.seq [9, 10, 11]), .ok (.seq [11, 10, 9]), .ok (.val 9), .ok (.seq [21]), .ok (.int 3),
       .ok (.int 2)] := ⟨_, rfl, by
    refine ⟨?_, by decide⟩
    intro o ho i hi
    simp only [List.mem_cons, List.not_mem_nil, or_false] at ho
    rcases ho with rfl | rfl | rfl | rfl | rfl | rfl | rfl | rfl | rfl | rfl | rfl | rfl <;>
      simp only [idOf, Option.some.injEq, reduceCtorEq] at hi <;> omega, by decide +kernel⟩

/-- The constructor: which arguments are accepted. -/
theorem C45_new (q c : Int) (d : α) :
    (0 ≤ q → 1 ≤ c → c ≤ 2 ^ 30 → ∃ s, Hydra.new q c d = .ok s) ∧
    (c < 1 → Hydra.new q c d = .error .illegalArgument) := by
  constructor
  · intro h0 h1 h2
    have := nextPowerOf2_range h1 h2
    unfold Hydra.new
    rw [if_neg (by omega)]
    simp only
    rw [if_neg (by omega)]
    exact ⟨_, rfl⟩
  · intro h; unfold Hydra.new; rw [if_pos h]

/-- C46: after every history, `size()` is the sum of the lengths of the ideal lists (over any range of
ids `0..n-1` outside which all lists are empty), `size(id)` the length of list `id`, which is 0 for
every id never added to, and `isEmpty()` says that all lists are empty. -/
theorem C46_sizes (d : α) (q c : Int) (s0 : Hydra α) (hnew : Hydra.new q c d = .ok s0)
    (ops : List (Op α)) (hf : Fits ops) :
    let s := (runM (Hydra.step d) s0 ops).2
    let L := (runS HydraSpec.step Family.empty ops).2.lists
    (∃ n : Nat, ∀ i : Int, i < 0 ∨ (n : Int) ≤ i → L i = []) ∧
    (∀ n : Nat, (∀ i : Int, (n : Int) ≤ i → L i = []) →
      (Hydra.step d .size s).out = .ok (.int ((List.range n).map fun (i : Nat) => (L i).length).sum)) ∧
    (∀ i, (Hydra.step d (.sizeOf i) s).out = .ok (.int (L i).length)) ∧
    ((Hydra.step d .isEmpty s).out = .ok (.bool true) ↔ ∀ i, L i = []) := by
  intro s L
  have h := (run_spec hnew hf).2
  have hL : ∀ i, L i = ((runS storedStep (Stored.empty (α := α)) ops).2.lists i).map Prod.snd :=
    final_lists ops
  generalize hA : (runS storedStep (Stored.empty (α := α)) ops).2 = a at h hL
  have hlen : ∀ i, (L i).length = (a.lists i).length := by intro i; rw [hL]; simp
  have hnil : ∀ i, L i = [] ↔ a.lists i = [] := by intro i; rw [hL]; simp
  have e1 := (step_spec _ _ .size h trivial).1
  have e3 := (step_spec _ _ .isEmpty h trivial).1
  refine ⟨⟨s.heads.len, fun i hi => (hnil i).mpr (h.out i hi)⟩, ?_, ?_, ?_⟩
  · intro n hn
    rw [e1]
    simp only [storedStep]
    rw [h.sum, ← sumLen_eq]
    have : Linked.sumLen L n = Linked.sumLen a.lists s.heads.len := by
      rw [Linked.sumLen_ext (L := L) (M := a.lists) n (fun i _ => hlen i)]
      by_cases hc : n ≤ s.heads.len
      · exact (Linked.sumLen_mono a.lists n s.heads.len hc (fun i hi => (hnil i).mp (hn i hi))).symm
      · exact Linked.sumLen_mono a.lists s.heads.len n (by omega) (fun i hi => h.out i (.inr hi))
    rw [this]
  · intro i
    have e2 := (step_spec _ _ (.sizeOf i) h trivial).1
    rw [e2]; simp only [storedStep, hlen]
  · rw [e3]
    simp only [storedStep, Except.ok.injEq, Out.bool.injEq, decide_eq_true_eq]
    rw [h.sum]
    constructor
    · intro h0 i
      rw [hnil]
      by_cases hi : i < 0 ∨ (s.heads.len : Int) ≤ i
      · exact h.out i hi
      · have h0' : (Linked.sumLen a.lists s.heads.len : Int) = 0 := h0
        have := Linked.sumLen_zero a.lists s.heads.len (by omega) i.toNat (by omega)
        rwa [Int.toNat_of_nonneg (by omega)] at this
    · intro h0
      have := Linked.sumLen_mono a.lists 0 s.heads.len (by omega) (fun i _ => (hnil i).mp (h0 i))
      rw [show (runM (Hydra.step d) s0 ops).2.heads.len = s.heads.len from rfl, this]; rfl

/-- C46: removing from a list that is empty or was never used throws NoSuchElementException and leaves
the deque exactly as it was; otherwise the call returns a value. -/
theorem C46_empty_removal (d : α) (q c : Int) (s0 : Hydra α) (hnew : Hydra.new q c d = .ok s0)
    (ops : List (Op α)) (hf : Fits ops) (i : Int) (o : Op α)
    (ho : o = .removeFirst i ∨ o = .removeLast i) :
    let s := (runM (Hydra.step d) s0 ops).2
    let L := (runS HydraSpec.step Family.empty ops).2.lists
    (L i = [] → Hydra.step d o s = .err .noSuchElement s) ∧
    (L i ≠ [] → ∃ v ∈ L i, (Hydra.step d o s).out = .ok (.val v)) := by
  intro s L
  have h := (run_spec hnew hf).2
  have hL : ∀ i, L i = ((runS storedStep (Stored.empty (α := α)) ops).2.lists i).map Prod.snd :=
    final_lists ops
  generalize hA : (runS storedStep (Stored.empty (α := α)) ops).2 = a at h hL
  constructor
  · intro hn
    rw [hL] at hn
    have hn' : a.lists i = [] := by simpa using hn
    obtain ⟨v1, v2⟩ := validate_none h hn'
    rcases ho with rfl | rfl
    · simp only [Hydra.step]; rw [JM.bind_err]
      unfold removeFirst; rw [JM.bind_err v1]
    · simp only [Hydra.step]; rw [JM.bind_err]
      unfold removeLast; rw [JM.bind_err v2]
  · intro hn
    rw [hL] at hn ⊢
    have hn' : a.lists i ≠ [] := by simpa using hn
    rcases ho with rfl | rfl
    · have e := (step_spec _ _ (.removeFirst i) h trivial).1
      cases hl : a.lists i with
      | nil => exact absurd hl hn'
      | cons p l =>
        refine ⟨p.2, by simp, ?_⟩
        rw [e]; simp [storedStep, hl]
    · have e := (step_spec _ _ (.removeLast i) h trivial).1
      cases hl : (a.lists i).getLast? with
      | none => exact absurd (List.getLast?_eq_none_iff.mp hl) hn'
      | some p =>
        refine ⟨p.2, List.mem_map_of_mem (List.mem_of_getLast? hl), ?_⟩
        rw [e]; simp [storedStep, hl]

example : ∃ s : Hydra Int, Hydra.new 2 4 0 = .ok s ∧
    (runM (Hydra.step 0) s [Op.removeFirst 0, .addLast 1 7, .removeLast 0, .removeFirst 5,
      .removeFirst (-1), .sizeOf 9, .size, .isEmpty]).1 =
      [.error .noSuchElement, .ok (.entry 0), .error .noSuchElement, .error .noSuchElement,
       .error .noSuchElement, .ok (.int 0), .ok (.int 1), .ok (.bool false)] :=
  ⟨_, rfl, by decide +kernel⟩

/-- C47: after every history, running the iterator of any list id to its end yields that list front to
back, and the reverse iterator yields it back to front; neither changes the deque. -/
theorem C47_iterators (d : α) (q c : Int) (s0 : Hydra α) (hnew : Hydra.new q c d = .ok s0)
    (ops : List (Op α)) (hf : Fits ops) (i : Int) (hi : 0 ≤ i) :
    let s := (runM (Hydra.step d) s0 ops).2
    let L := (runS HydraSpec.step Family.empty ops).2.lists
    iterate i s = .ok (L i) s ∧ reverseIterate i s = .ok (L i).reverse s := by
  intro s L
  have h := (run_spec hnew hf).2
  rw [iterate_spec h, reverseIterate_spec h, if_neg (by omega), if_neg (by omega)]
  rw [show L i = _ from final_lists ops i]
  exact ⟨rfl, rfl⟩

/-- C47: `hasNext()` says whether `next()` will return; an exhausted iterator throws
InvalidEntryException and stays where it is. -/
theorem C47_exhausted (s : Hydra α) (link : Hydra α → Arr Int) (e : Int) (h : iterHasNext e = false) :
    iterNext link e s = .err .invalidEntry s := by
  simp [iterHasNext] at h
  unfold iterNext; rw [if_pos h]; rfl

example : ∃ s : Hydra Int, Hydra.new 1 1 0 = .ok s ∧ iterHasNext (s.heads.get 0) = false ∧
    iterNext Hydra.nexts (s.heads.get 0) s = .err .invalidEntry s := ⟨_, rfl, rfl, rfl⟩

/-- C48: every entry number returned by an addition is the most recently freed entry that is still
free, or else the first entry never used (`HydraSpec.storedStep` tracks the freed entries). -/
theorem C48_allocation (d : α) (q c : Int) (s : Hydra α) (hnew : Hydra.new q c d = .ok s)
    (ops : List (Op α)) (hf : Fits ops) :
    (runM (Hydra.step d) s ops).1 = (runS storedStep Stored.empty ops).1 :=
  (run_spec hnew hf).1

/-- The largest number of values stored at the same time during a history. -/
def hydraPeak : Family α → List (Op α) → Int
  | a, [] => a.total
  | a, o :: ops => max a.total (hydraPeak (HydraSpec.step o a).2 ops)

theorem hydraPeak_ge (a : Family α) (ops : List (Op α)) : a.total ≤ hydraPeak a ops := by
  cases ops with
  | nil => exact Int.le_refl _
  | cons o ops => exact Int.le_max_left _ _

/-- Without `clear`, used entries are live or freed. -/
theorem next_accounting (o : Op α) (a : Stored α) (hc : o ≠ .clear)
    (h : a.next = a.total + a.freed.length) :
    (storedStep o a).2.next = (storedStep o a).2.total + (storedStep o a).2.freed.length ∧
    ((storedStep o a).2.next ≤ a.next ∨ (storedStep o a).2.next = (storedStep o a).2.total) := by
  have htake : ∀ t L, ({ a.take with lists := L, total := t } : Stored α).next =
      a.total + 1 + ({ a.take with lists := L, total := t } : Stored α).freed.length ∧
      (({ a.take with lists := L, total := t } : Stored α).next ≤ a.next ∨
       ({ a.take with lists := L, total := t } : Stored α).next = a.total + 1) := by
    intro t L
    unfold Stored.take
    cases hf : a.freed with
    | nil => simp [hf] at h ⊢; omega
    | cons e fs => simp [hf] at h ⊢; omega
  cases o with
  | clear => exact absurd rfl hc
  | addFirst i v =>
    simp only [storedStep]; split
    · exact ⟨h, .inl (Int.le_refl _)⟩
    · exact htake _ _
  | addLast i v =>
    simp only [storedStep]; split
    · exact ⟨h, .inl (Int.le_refl _)⟩
    · exact htake _ _
  | removeFirst i =>
    simp only [storedStep]; split
    · exact ⟨h, .inl (Int.le_refl _)⟩
    · simp only [List.length_cons]; omega
  | removeLast i =>
    simp only [storedStep]; split
    · exact ⟨h, .inl (Int.le_refl _)⟩
    · simp only [List.length_cons]; omega
  | size => exact ⟨h, .inl (Int.le_refl _)⟩
  | sizeOf i => exact ⟨h, .inl (Int.le_refl _)⟩
  | isEmpty => exact ⟨h, .inl (Int.le_refl _)⟩
  | iterate i => simp only [storedStep]; split <;> exact ⟨h, .inl (Int.le_refl _)⟩
  | reverseIterate i => simp only [storedStep]; split <;> exact ⟨h, .inl (Int.le_refl _)⟩

theorem next_le_hydraPeak : ∀ (ops : List (Op α)) (a : Stored α), Op.clear ∉ ops →
    a.next = a.total + a.freed.length →
    (runS storedStep a ops).2.next ≤ max a.next (hydraPeak (forget a) ops)
  | [], a, _, _ => Int.le_max_left _ _
  | o :: ops, a, hc, h => by
    have ho : o ≠ .clear := by rintro rfl; simp at hc
    obtain ⟨h1, h2⟩ := next_accounting o a ho h
    have ih := next_le_hydraPeak ops _ (fun hm => hc (by simp [hm])) h1
    have hp := hydraPeak_ge (forget (storedStep o a).2) ops
    rw [(forget_step o a).2] at ih hp
    have ht : (HydraSpec.step o (forget a)).2.total = (storedStep o a).2.total := by
      rw [← (forget_step o a).2]; rfl
    have e : hydraPeak (forget a) (o :: ops) =
      max (forget a).total (hydraPeak (HydraSpec.step o (forget a)).2 ops) := rfl
    simp only [runS]
    omega

/-- C48 (without `clear`): the entries ever used, and so all entry numbers in use, stay below the
largest number of values that were stored at the same time. -/
theorem C48_peak_partial (d : α) (q c : Int) (s0 : Hydra α) (hnew : Hydra.new q c d = .ok s0)
    (ops : List (Op α)) (hf : Fits ops) (hc : Op.clear ∉ ops) (e : Int)
    (he : .ok (.entry e) ∈ (runM (Hydra.step d) s0 ops).1) :
    0 ≤ e ∧ e < hydraPeak Family.empty ops := by
  -- every returned entry is below the final `next`
  have key : ∀ (ops : List (Op α)) (a : Stored α), Op.clear ∉ ops →
      (0 ≤ a.next ∧ ∀ x ∈ a.freed, 0 ≤ x ∧ x < a.next) →
      (∀ i, ∀ p ∈ a.lists i, 0 ≤ p.1 ∧ p.1 < a.next) →
      .ok (.entry e) ∈ (runS storedStep a ops).1 → 0 ≤ e ∧ e < (runS storedStep a ops).2.next := by
    intro ops
    induction ops with
    | nil => intro a _ _ _ hm; simp [runS] at hm
    | cons o ops ih =>
      intro a hc hfr hli hm
      have htake : a.take.next = a.next ∨ a.take.next = a.next + 1 := by
        unfold Stored.take; split <;> simp
      have hent : 0 ≤ a.entry ∧ a.entry < a.take.next := by
        unfold Stored.entry Stored.take
        cases hfl : a.freed with
        | nil => simp; omega
        | cons x fs => simpa using hfr.2 x (by rw [hfl]; simp)
      have htf : ∀ x ∈ a.take.freed, x ∈ a.freed := by
        intro x hx; unfold Stored.take at hx
        cases hfl : a.freed with
        | nil => rw [hfl] at hx; simpa [hfl] using hx
        | cons y fs => rw [hfl] at hx; simp at hx; simp [hx]
      -- the state after one step is again in range and `next` only grows
      have hnext : a.next ≤ (storedStep o a).2.next ∧
          (∀ x ∈ (storedStep o a).2.freed, 0 ≤ x ∧ x < (storedStep o a).2.next) ∧
          (∀ i, ∀ p ∈ (storedStep o a).2.lists i, 0 ≤ p.1 ∧ p.1 < (storedStep o a).2.next) ∧
          (∀ x, (storedStep o a).1 = .ok (.entry x) → 0 ≤ x ∧ x < (storedStep o a).2.next) := by
        cases o with
        | clear => simp at hc
        | addFirst i v =>
          simp only [storedStep]; split
          · exact ⟨Int.le_refl _, hfr.2, hli, by simp⟩
          · refine ⟨by simp only; omega, ?_, ?_, ?_⟩
            · intro x hx; have := hfr.2 x (htf x hx); simp only; omega
            · intro j p hp
              simp only [upd] at hp ⊢
              split at hp
              · rcases List.mem_cons.mp hp with rfl | hp
                · exact hent
                · have := hli i p hp; omega
              · have := hli j p hp; omega
            · intro x hx; simp at hx; rw [← hx]; exact hent
        | addLast i v =>
          simp only [storedStep]; split
          · exact ⟨Int.le_refl _, hfr.2, hli, by simp⟩
          · refine ⟨by simp only; omega, ?_, ?_, ?_⟩
            · intro x hx; have := hfr.2 x (htf x hx); simp only; omega
            · intro j p hp
              simp only [upd] at hp ⊢
              split at hp
              · rcases List.mem_append.mp hp with hp | hp
                · have := hli i p hp; omega
                · rw [List.mem_singleton.mp hp]; exact hent
              · have := hli j p hp; omega
            · intro x hx; simp at hx; rw [← hx]; exact hent
        | removeFirst i =>
          cases hl : a.lists i with
          | nil => simp only [storedStep, hl]; exact ⟨Int.le_refl _, hfr.2, hli, by simp⟩
          | cons p l =>
            simp only [storedStep, hl]
            have hp := hli i p (by rw [hl]; simp)
            refine ⟨Int.le_refl _, ?_, ?_, by simp⟩
            · intro x hx
              rcases List.mem_cons.mp hx with rfl | hx
              · exact hp
              · exact hfr.2 x hx
            · intro j r hr
              simp only [upd] at hr
              split at hr
              · exact hli i r (by rw [hl]; simp [hr])
              · exact hli j r hr
        | removeLast i =>
          cases hl : (a.lists i).getLast? with
          | none => simp only [storedStep, hl]; exact ⟨Int.le_refl _, hfr.2, hli, by simp⟩
          | some p =>
            simp only [storedStep, hl]
            have hp := hli i p (List.mem_of_getLast? hl)
            refine ⟨Int.le_refl _, ?_, ?_, by simp⟩
            · intro x hx
              rcases List.mem_cons.mp hx with rfl | hx
              · exact hp
              · exact hfr.2 x hx
            · intro j r hr
              simp only [upd] at hr
              split at hr
              · exact hli i r (List.dropLast_subset _ hr)
              · exact hli j r hr
        | size => exact ⟨Int.le_refl _, hfr.2, hli, by simp [storedStep]⟩
        | sizeOf i => exact ⟨Int.le_refl _, hfr.2, hli, by simp [storedStep]⟩
        | isEmpty => exact ⟨Int.le_refl _, hfr.2, hli, by simp [storedStep]⟩
        | iterate i => simp only [storedStep]; split <;> exact ⟨Int.le_refl _, hfr.2, hli, by simp⟩
        | reverseIterate i =>
          simp only [storedStep]; split <;> exact ⟨Int.le_refl _, hfr.2, hli, by simp⟩
      have hmono : ∀ (ops : List (Op α)) (b : Stored α), b.next ≤ (runS storedStep b ops).2.next := by
        intro ops
        induction ops with
        | nil => intro b; exact Int.le_refl _
        | cons o ops ih =>
          intro b
          have h1 : b.next ≤ (storedStep o b).2.next := by
            have ht : b.next ≤ b.take.next := by unfold Stored.take; split <;> simp; omega
            cases o <;> simp only [storedStep] <;> (try split) <;>
              first | exact Int.le_refl _ | exact ht
          have := ih (storedStep o b).2
          simp only [runS]; omega
      simp only [runS, List.mem_cons] at hm ⊢
      rcases hm with hm | hm
      · have h1 := hnext.2.2.2 e hm.symm
        have h2 := hmono ops (storedStep o a).2
        omega
      · exact ih _ (fun hx => hc (by simp [hx])) ⟨by omega, hnext.2.1⟩ hnext.2.2.1 hm
  rw [(run_spec hnew hf).1] at he
  have h1 := key ops Stored.empty hc (by simp [Stored.empty]) (by simp [Stored.empty]) he
  have h2 := next_le_hydraPeak ops (Stored.empty (α := α)) hc (by simp [Stored.empty])
  rw [forget_empty] at h2
  have h3 := hydraPeak_ge (Family.empty (α := α)) ops
  have h4 : (Stored.empty (α := α)).next = 0 := rfl
  have h5 : (Family.empty (α := α)).total = 0 := rfl
  omega

example : ∃ s : Hydra Int, Hydra.new 1 1 0 = .ok s ∧
    (runM (Hydra.step 0) s [Op.addLast 0 1, .addLast 0 2, .removeFirst 0, .addFirst 1 3]).1 =
      [.ok (.entry 0), .ok (.entry 1), .ok (.val 1), .ok (.entry 0)] ∧
    hydraPeak Family.empty [Op.addLast 0 1, .addLast 0 2, .removeFirst 0, .addFirst 1 (3 : Int)] = 2 :=
  ⟨_, rfl, by decide +kernel, by decide +kernel⟩

/-- C48 is false across `clear()`: entries are not reused after it.  Adding one value and clearing,
`n` times, makes the next addition use entry `n`, although never more than one value was stored. -/
theorem C48_clear_refuted (d v : α) (q c : Int) (s0 : Hydra α) (hnew : Hydra.new q c d = .ok s0)
    (n : Nat) (hn : (n : Int) + 1 < 2 ^ 30) :
    let ops := (List.replicate n [Op.addLast 0 v, Op.clear]).flatten ++ [Op.addLast 0 v]
    (runM (Hydra.step d) s0 ops).1.getLast? = some (.ok (.entry n)) ∧
    hydraPeak (Family.empty (α := α)) ops ≤ 1 := by
  intro ops
  have hrun : ∀ (n : Nat) (a : Stored α), a.freed = [] → a.total = 0 → a.lists = (fun _ => []) →
      (runS storedStep a (List.replicate n [Op.addLast 0 v, Op.clear]).flatten).2 =
        { a with next := a.next + n } := by
    intro n
    induction n with
    | zero => intro a _ _ _; simp [runS]
    | succ n ih =>
      intro a h1 h2 h3
      rw [List.replicate_succ, List.flatten_cons, runS_append]
      have : (runS storedStep a [Op.addLast 0 v, Op.clear]).2 = { a with next := a.next + 1 } := by
        simp [runS, storedStep, Stored.take, h1, h2, h3]
      rw [this]
      show (runS storedStep _ _).2 = _
      rw [ih { a with next := a.next + 1 } h1 h2 h3]
      simp; omega
  have hpeak : ∀ (n : Nat), hydraPeak (Family.empty (α := α))
      ((List.replicate n [Op.addLast 0 v, Op.clear]).flatten ++ [Op.addLast 0 v]) ≤ 1 := by
    intro n
    induction n with
    | zero => simp [hydraPeak, HydraSpec.step, Family.empty]; omega
    | succ n ih =>
      rw [List.replicate_succ, List.flatten_cons]
      simp only [List.cons_append, List.nil_append, hydraPeak, HydraSpec.step]
      simp only [if_neg (show ¬ (0:Int) < 0 by omega)]
      simp only [Family.empty] at ih ⊢
      omega
  refine ⟨?_, hpeak n⟩
  have hf : Fits ops := by
    constructor
    · intro o ho i hi
      simp only [ops, List.mem_append, List.mem_flatten, List.mem_replicate, List.mem_singleton] at ho
      rcases ho with ⟨l, ⟨_, rfl⟩, ho⟩ | rfl
      · simp only [List.mem_cons, List.not_mem_nil, or_false] at ho
        rcases ho with rfl | rfl
        · simp only [idOf, Option.some.injEq] at hi; omega
        · simp [idOf] at hi
      · simp only [idOf, Option.some.injEq] at hi; omega
    · have : ∀ n : Nat, (List.replicate n [Op.addLast 0 v, Op.clear]).flatten.countP isAdd = n := by
        intro n
        induction n with
        | zero => rfl
        | succ n ih =>
          rw [List.replicate_succ, List.flatten_cons, List.countP_append, ih]
          simp [List.countP_cons, isAdd]; omega
      simp only [ops, List.countP_append, this]
      simp [List.countP_cons, isAdd]; omega
  rw [(run_spec hnew hf).1, runS_append, hrun n _ rfl rfl rfl]
  simp [runS, storedStep, Stored.entry, Stored.empty]

/-- C68: after every history, every cell of the value array that does not hold a current value holds
the type's default: removed and cleared values are not kept alive. -/
theorem C68_no_stale_references (d : α) (q c : Int) (s0 : Hydra α) (hnew : Hydra.new q c d = .ok s0)
    (ops : List (Op α)) (hf : Fits ops) :
    let s := (runM (Hydra.step d) s0 ops).2
    let L := (runS HydraSpec.step Family.empty ops).2.lists
    ∀ e : Int, 0 ≤ e → e < s.values.len → s.values.get e = d ∨ ∃ i, s.values.get e ∈ L i := by
  intro s L e h0 h1
  have h := (run_spec hnew hf).2
  by_cases hc : ∃ i, e ∈ E (runS storedStep (Stored.empty (α := α)) ops).2 i
  · obtain ⟨i, hi⟩ := hc
    obtain ⟨p, hp, rfl⟩ := List.mem_map.mp hi
    right
    refine ⟨i, ?_⟩
    rw [show L i = _ from final_lists ops i, h.vals i p.1 p.2 hp]
    exact List.mem_map_of_mem hp
  · exact .inl (h.idle e h0 h1 (fun i hi => hc ⟨i, hi⟩)).2

/-- C68: no value occupies two cells: the number of cells with a value is the number of values,
because different values have different entries. -/
theorem C68_one_cell_each (d : α) (q c : Int) (s0 : Hydra α) (hnew : Hydra.new q c d = .ok s0)
    (ops : List (Op α)) (hf : Fits ops) :
    let s := (runM (Hydra.step d) s0 ops).2
    let L := (runS HydraSpec.step Family.empty ops).2.lists
    ∃ cell : Int → Nat → Int,
      (∀ i k, k < (L i).length → (0 ≤ cell i k ∧ cell i k < s.values.len) ∧
        (L i)[k]? = some (s.values.get (cell i k))) ∧
      (∀ i k j l, k < (L i).length → l < (L j).length → cell i k = cell j l → i = j ∧ k = l) ∧
      (∀ e : Int, 0 ≤ e → e < s.values.len →
        (∀ i k, k < (L i).length → cell i k ≠ e) → s.values.get e = d) := by
  intro s L
  have h := (run_spec hnew hf).2
  have hL : ∀ i, L i = ((runS storedStep (Stored.empty (α := α)) ops).2.lists i).map Prod.snd :=
    final_lists ops
  generalize hA : (runS storedStep (Stored.empty (α := α)) ops).2 = a at h hL
  have hlen : ∀ i, (L i).length = (a.lists i).length := by intro i; rw [hL]; simp
  have hget : ∀ i k, k < (L i).length → ∃ p, (a.lists i)[k]? = some p := by
    intro i k hk
    rw [hlen] at hk
    exact ⟨_, List.getElem?_eq_getElem hk⟩
  refine ⟨fun i k => ((E a i)[k]?).getD 0, ?_, ?_, ?_⟩
  · intro i k hk
    obtain ⟨p, hp⟩ := hget i k hk
    have hm := List.mem_of_getElem? hp
    have he : (E a i)[k]? = some p.1 := by simp [E, hp]
    have hr := h.rng i p.1 (List.mem_of_getElem? he)
    have hx := h.nx0
    simp only [he, Option.getD_some]
    refine ⟨⟨hr.1, ?_⟩, ?_⟩
    · have : a.next ≤ s.values.len := hx.2
      omega
    · rw [hL, List.getElem?_map, hp, Option.map_some, h.vals i p.1 p.2 hm]
  · intro i k j l hk hl heq
    obtain ⟨p, hp⟩ := hget i k hk
    obtain ⟨r, hr⟩ := hget j l hl
    have he : (E a i)[k]? = some p.1 := by simp [E, hp]
    have he' : (E a j)[l]? = some r.1 := by simp [E, hr]
    simp only [he, he', Option.getD_some] at heq
    have hij := h.dj i j p.1 (List.mem_of_getElem? he) (heq ▸ List.mem_of_getElem? he')
    subst hij
    refine ⟨rfl, ?_⟩
    have hkl : k < (E a i).length := by
      rw [hlen] at hk; simpa [E] using hk
    exact (List.getElem?_inj hkl (h.nd i)).mp (by rw [he, he', heq])
  · intro e h0 h1 hno
    refine (h.idle e h0 h1 ?_).2
    intro i hi
    obtain ⟨k, hk, hke⟩ := List.mem_iff_getElem.mp hi
    have hk' : k < (L i).length := by rw [hlen]; simpa [E] using hk
    refine hno i k hk' ?_
    simp only [List.getElem?_eq_getElem hk, Option.getD_some, hke]

example : ∃ s0 : Hydra (Option Int), Hydra.new 1 1 none = .ok s0 ∧
    (runM (Hydra.step none) s0 [.addLast 0 (some 1), .addLast 1 (some 2), .removeFirst 0]).2.values.toList
      = [none, some 2] := ⟨_, rfl, by decide +kernel⟩

end Verif

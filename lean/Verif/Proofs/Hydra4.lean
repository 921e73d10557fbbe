import Verif.Proofs.Hydra3
import Mathlib.Data.List.Perm.Subperm
import Mathlib.Data.List.Nodup
set_option linter.unusedSectionVars false
/-! Clearing, iterating, and the step lemma of the hydra deque. -/
namespace Verif.Hydra
open Verif.HydraSpec Verif.Linked
variable {α : Type}

theorem fillAll_ok {σ β : Type} (a : Arr β) (v : β) (s : σ) :
    (fillAll a v : JM σ (Arr β)) s = .ok (a.fillRange v 0 a.len) s := by
  unfold fillAll; exact fill_ok a v (by omega)

theorem fillAll_get {β : Type} (a : Arr β) (v : β) {i : Int} (h : 0 ≤ i ∧ i < a.len) :
    (a.fillRange v 0 a.len).get i = v := by
  rw [Arr.get_fillRange, if_pos (by omega)]

theorem clear_spec {d : α} {s : Hydra α} {a : Stored α} (h : Inv d s a) :
    ∃ s', clear d s = .ok () s' ∧
      Inv d s' { a with lists := fun _ => [], total := 0, freed := [] } := by
  unfold clear
  rw [JM.bind_ok (JM.get_apply _), JM.bind_ok (fillAll_ok _ _ _), JM.bind_ok (JM.modify_apply _ _),
    JM.bind_ok (fillAll_ok _ _ _), JM.bind_ok (JM.modify_apply _ _),
    JM.bind_ok (fillAll_ok _ _ _), JM.bind_ok (JM.modify_apply _ _),
    JM.bind_ok (fillAll_ok _ _ _), JM.bind_ok (JM.modify_apply _ _),
    JM.bind_ok (fillAll_ok _ _ _), JM.bind_ok (JM.modify_apply _ _),
    JM.bind_ok (fillAll_ok _ _ _), JM.bind_ok (JM.modify_apply _ _)]
  have h1 := h.hl
  have h2 := h.hc
  have h3 := h.vn
  have h4 := h.vp
  refine ⟨_, rfl, ?_⟩
  exact {
    hl := h.hl
    hc := h.hc
    vn := h.vn
    vp := h.vp
    out := fun _ _ => rfl
    head := fun i h0 hi => fillAll_get s.heads (-1) ⟨h0, hi⟩
    tail := fun i h0 hi => fillAll_get s.tails (-1) ⟨h0, by simp only [Arr.len_fillRange] at hi; omega⟩
    cnt := fun i h0 hi => fillAll_get s.count 0 ⟨h0, by simp only [Arr.len_fillRange] at hi; omega⟩
    fwd := fun _ => trivial
    bwd := fun _ => trivial
    vals := fun _ _ _ hm => by simp at hm
    idle := fun e h0 hi _ => by
      simp only [Arr.len_fillRange] at hi
      exact ⟨fillAll_get s.prevs (-1) ⟨h0, by omega⟩, fillAll_get s.values d ⟨h0, by omega⟩⟩
    rng := fun _ _ hm => by simp at hm
    frng := fun _ hm => by simp at hm
    nd := fun _ => List.nodup_nil
    dj := fun _ _ _ hm => by simp at hm
    fnd := by simp
    fdj := fun _ _ hm => by simp at hm
    fch := trivial
    fl := rfl
    nx := h.nx
    nx0 := h.nx0
    tot := rfl
    sum := by
      have hs : ∀ n, sumLen (fun _ => [] : Int → List (Int × α)) n = 0 := by
        intro n; induction n with
        | zero => rfl
        | succ n ih => simp [sumLen, ih]
      simp [hs] }

theorem length_le {l : List Int} {n : Nat} (hn : l.Nodup) (hr : ∀ e ∈ l, 0 ≤ e ∧ e < (n : Int)) :
    l.length ≤ n := by
  have h2 : (l.map Int.toNat).Nodup := by
    refine List.Nodup.map_on ?_ hn
    intro p hp q hq e
    have := hr p hp; have := hr q hq; omega
  have h3 : (l.map Int.toNat) ⊆ List.range n := by
    intro p hp
    obtain ⟨q, hq, rfl⟩ := List.mem_map.1 hp
    have := hr q hq
    exact List.mem_range.2 (by omega)
  have := (List.Nodup.subperm h2 h3).length_le
  simpa using this

theorem iterLoop_spec (s : Hydra α) (link : Hydra α → Arr Int) : ∀ (l : List (Int × α)) (fuel : Nat),
    Links (link s).get (l.map Prod.fst) → (∀ p ∈ l, s.values.get p.1 = p.2) →
    (∀ p ∈ l, 0 ≤ p.1 ∧ p.1 < s.values.len ∧ p.1 < (link s).len) → l.length < fuel →
    iterLoop link fuel (hd (l.map Prod.fst)) s = .ok (l.map Prod.snd) s
  | _, 0, _, _, _, hf => by omega
  | [], fuel + 1, _, _, _, _ => rfl
  | p :: l, fuel + 1, hL, hv, hr, hf => by
    have h1 := hr p (by simp)
    rw [iterLoop]
    simp only [List.map_cons, hd_cons]
    rw [if_pos (by simp [iterHasNext]; omega)]
    have hn : iterNext link p.1 s = .ok (p.2, hd (l.map Prod.fst)) s := by
      unfold iterNext
      rw [if_neg (by omega), JM.bind_ok (rd_ok _ (by omega)), JM.bind_ok (rd_ok _ (by omega)),
        hv p (by simp), hL.1]; rfl
    rw [JM.bind_ok hn]
    simp only
    rw [JM.bind_ok (iterLoop_spec s link l fuel hL.2 (fun q hq => hv q (by simp [hq]))
      (fun q hq => hr q (by simp [hq])) (by simpa using hf))]
    rfl

theorem iterate_spec {d : α} {s : Hydra α} {a : Stored α} (h : Inv d s a) (i : Int) :
    iterate i s = if i < 0 then .err .indexOutOfBounds s
      else .ok ((a.lists i).map Prod.snd) s := by
  unfold iterate iterReset
  have hx := h.nx0
  have hvn := h.vn
  by_cases hi : i < 0
  · rw [if_pos hi, JM.bind_err]
    rw [JM.bind_ok (JM.get_apply _), if_neg (by omega)]
    unfold rd; simp only; rw [if_neg (by omega)]
  · rw [if_neg hi]
    have hr : (do
        let s ← (get : JM (Hydra α) _)
        if i ≥ s.heads.len then pure (-1) else rd Hydra.heads i : JM (Hydra α) Int) s =
        .ok (hd (E a i)) s := by
      rw [JM.bind_ok (JM.get_apply _)]
      by_cases hl : i ≥ s.heads.len
      · rw [if_pos hl, E, h.out i (by omega)]; rfl
      · rw [if_neg hl, rd_ok _ (by omega), h.head i (by omega) (by omega)]
    rw [JM.bind_ok hr, JM.bind_ok (JM.get_apply _)]
    have hm : ∀ p ∈ a.lists i, p.1 ∈ E a i := fun p hp => List.mem_map_of_mem (f := Prod.fst) hp
    refine iterLoop_spec s Hydra.nexts (a.lists i) _ (h.fwd i) (fun p hp => h.vals i p.1 p.2 hp) ?_ ?_
    · intro p hp
      have := h.rng i p.1 (hm p hp); omega
    · have := length_le (n := s.nexts.len) (h.nd i) (fun e he => by have := h.rng i e he; omega)
      simp at this; omega

theorem reverseIterate_spec {d : α} {s : Hydra α} {a : Stored α} (h : Inv d s a) (i : Int) :
    reverseIterate i s = if i < 0 then .err .indexOutOfBounds s
      else .ok ((a.lists i).map Prod.snd).reverse s := by
  unfold reverseIterate iterReset
  have hx := h.nx0
  have hvp := h.vp
  have hl := h.hl
  by_cases hi : i < 0
  · rw [if_pos hi, JM.bind_err]
    rw [JM.bind_ok (JM.get_apply _), if_neg (by omega)]
    unfold rd; simp only; rw [if_neg (by omega)]
  · rw [if_neg hi]
    have hr : (do
        let s ← (get : JM (Hydra α) _)
        if i ≥ s.tails.len then pure (-1) else rd Hydra.tails i : JM (Hydra α) Int) s =
        .ok (hd ((a.lists i).reverse.map Prod.fst)) s := by
      rw [JM.bind_ok (JM.get_apply _)]
      by_cases hl : i ≥ s.tails.len
      · rw [if_pos hl, h.out i (by omega)]; rfl
      · rw [if_neg hl, rd_ok _ (by omega), h.tail i (by omega) (by omega), E, List.map_reverse]
    rw [JM.bind_ok hr, JM.bind_ok (JM.get_apply _), ← List.map_reverse]
    have hm : ∀ p ∈ (a.lists i).reverse, p.1 ∈ E a i :=
      fun p hp => List.mem_map_of_mem (f := Prod.fst) (List.mem_reverse.mp hp)
    refine iterLoop_spec s Hydra.prevs (a.lists i).reverse _ ?_
      (fun p hp => h.vals i p.1 p.2 (List.mem_reverse.mp hp)) ?_ ?_
    · rw [List.map_reverse]; exact h.bwd i
    · intro p hp
      have := h.rng i p.1 (hm p hp); omega
    · have := length_le (n := s.prevs.len) (h.nd i) (fun e he => by have := h.rng i e he; omega)
      simp at this; simp; omega

theorem sizeOf_spec {d : α} {s : Hydra α} {a : Stored α} (h : Inv d s a) (i : Int) :
    sizeOf i s = .ok ((a.lists i).length : Int) s := by
  unfold sizeOf
  have hc := h.hc
  rw [JM.bind_ok (JM.get_apply _)]
  by_cases hi : i ≥ s.count.len ∨ i < 0
  · rw [if_pos hi, h.out i (by omega)]; rfl
  · rw [if_neg hi, rd_ok _ (by omega), h.cnt i (by omega) (by omega)]

theorem add_neg {d : α} {s : Hydra α} {a : Stored α} (_ : Inv d s a) {i : Int} (v : α) (hi : i < 0)
    (hi' : -2147483648 ≤ i) :
    addFirst d i v s = .err .indexOutOfBounds s ∧ addLast d i v s = .err .indexOutOfBounds s := by
  have hens : ∀ {β : Type} (x : Arr β) (dd : β) (t : Hydra α), ensureEntry x i dd t = .ok x t := by
    intro β x dd t
    unfold ensureEntry ensureSize
    rw [i32_of_range (by omega), if_neg (by omega)]; rfl
  have hel : ensureList i s = .ok () s := by
    unfold ensureList
    rw [JM.bind_ok (JM.get_apply _), JM.bind_ok (hens _ _ _), JM.bind_ok (JM.modify_apply _ _),
      JM.bind_ok (hens _ _ _), JM.bind_ok (JM.modify_apply _ _), JM.bind_ok (hens _ _ _)]
    rfl
  constructor
  · unfold addFirst
    rw [JM.bind_ok hel, JM.bind_err]
    unfold rd; simp only; rw [if_neg (by omega)]
  · unfold addLast
    rw [JM.bind_ok hel, JM.bind_err]
    unfold rd; simp only; rw [if_neg (by omega)]

theorem getLast_split {β : Type} {l : List β} {x : β} (h : l.getLast? = some x) :
    l = l.dropLast ++ [x] := by
  have hne : l ≠ [] := by rintro rfl; simp at h
  rw [List.getLast?_eq_some_getLast hne] at h
  simp at h
  rw [← h, List.dropLast_append_getLast hne]

theorem step_spec {d : α} (s : Hydra α) (a : Stored α) (o : Op α) (h : Inv d s a)
    (g : Room o a) :
    (step d o s).out = (storedStep o a).1 ∧ Inv d (step d o s).state (storedStep o a).2 := by
  cases o with
  | addFirst i v =>
    by_cases hi : i < 0
    · have := (add_neg h v hi (by simp only [Room] at g; omega)).1
      simp only [step, JM.bind_apply, this, storedStep, if_pos hi]
      exact ⟨rfl, h⟩
    · simp only [Room] at g
      obtain ⟨s', e, h'⟩ := addFirst_spec h (i := i) (v := v) ⟨by omega, by omega⟩ g.2.2
      simp only [step, JM.bind_apply, e, storedStep, if_neg hi]
      exact ⟨rfl, h'⟩
  | addLast i v =>
    by_cases hi : i < 0
    · have := (add_neg h v hi (by simp only [Room] at g; omega)).2
      simp only [step, JM.bind_apply, this, storedStep, if_pos hi]
      exact ⟨rfl, h⟩
    · simp only [Room] at g
      obtain ⟨s', e, h'⟩ := addLast_spec h (i := i) (v := v) ⟨by omega, by omega⟩ g.2.2
      simp only [step, JM.bind_apply, e, storedStep, if_neg hi]
      exact ⟨rfl, h'⟩
  | removeFirst i =>
    cases hl : a.lists i with
    | nil =>
      have hv := (validate_none h hl).1
      have : removeFirst d i s = .err .noSuchElement s := by
        unfold removeFirst; rw [JM.bind_err hv]
      simp only [step, JM.bind_apply, this, storedStep, hl]
      exact ⟨rfl, h⟩
    | cons p l =>
      obtain ⟨e, v⟩ := p
      obtain ⟨s', he, h'⟩ := removeFirst_spec h hl
      simp only [step, JM.bind_apply, he, storedStep, hl]
      exact ⟨rfl, h'⟩
  | removeLast i =>
    cases hl : (a.lists i).getLast? with
    | none =>
      have hv := (validate_none h (List.getLast?_eq_none_iff.mp hl)).2
      have : removeLast d i s = .err .noSuchElement s := by
        unfold removeLast; rw [JM.bind_err hv]
      simp only [step, JM.bind_apply, this, storedStep, hl]
      exact ⟨rfl, h⟩
    | some p =>
      obtain ⟨e, v⟩ := p
      obtain ⟨s', he, h'⟩ := removeLast_spec h (getLast_split hl)
      simp only [step, JM.bind_apply, he, storedStep, hl]
      exact ⟨rfl, h'⟩
  | size =>
    have : getSize s = .ok a.total s := by unfold getSize; rw [← h.tot]; rfl
    simp only [step, JM.bind_apply, this, storedStep]
    exact ⟨rfl, h⟩
  | sizeOf i =>
    simp only [step, JM.bind_apply, sizeOf_spec h i, storedStep]
    exact ⟨rfl, h⟩
  | isEmpty =>
    have : isEmpty s = .ok (decide (a.total = 0)) s := by unfold isEmpty; rw [← h.tot]; rfl
    simp only [step, JM.bind_apply, this, storedStep]
    exact ⟨rfl, h⟩
  | iterate i =>
    by_cases hi : i < 0 <;>
    simp only [step, JM.bind_apply, iterate_spec h i, storedStep, hi, if_true, if_false] <;>
    exact ⟨rfl, h⟩
  | reverseIterate i =>
    by_cases hi : i < 0 <;>
    simp only [step, JM.bind_apply, reverseIterate_spec h i, storedStep, hi, if_true, if_false] <;>
    exact ⟨rfl, h⟩
  | clear =>
    obtain ⟨s', he, h'⟩ := clear_spec h
    simp only [step, JM.bind_apply, he, storedStep]
    exact ⟨rfl, h'⟩

end Verif.Hydra

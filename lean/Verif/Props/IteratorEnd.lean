import Verif.Props.IndexWalk
/-! # Property C104: an iterator that has come to the end stays there -/
set_option linter.unusedSectionVars false
namespace Verif
open Index IndexSpec Iterating
variable {K V : Type} [Inhabited K] [Inhabited V]

/-! ## helpers -/

theorem next_off {m : Index K V} {it : Iter} (hi : it.initialized = true)
    (hm : it.internalModCount = m.modificationCount) (hn : it.next < 0) (hl : (m.heads.len : Int) ≤ it.head)
    (hb : it.head + 1 < 2 ^ 31) : Iterating.next (⟨m, it⟩ : Iterating K V) =
      .ok false ⟨m, { it with head := it.head + 1, entry := -1, isRemoved := false }⟩ := by
  unfold Iterating.next nextHead
  rw [JM.bind_ok (JM.get_apply _)]
  simp only
  rw [if_neg (by simp [hm]), if_neg (by simp [hi]), if_neg (by omega)]
  rw [JM.bind_ok (a := ()) (s' := ⟨m, { it with head := it.head + 1, entry := -1, isRemoved := false }⟩)]
  · rfl
  · rw [JM.bind_ok (setIt_ok _ _), JM.bind_ok (JM.get_apply _)]
    simp only
    rw [i32_of_range (show -2147483648 ≤ it.head + 1 ∧ it.head + 1 < 2147483648 by omega)]
    rw [JM.bind_ok (a := ()) (s' := ⟨m, { it with head := it.head + 1, entry := -1 }⟩)]
    · rfl
    · rw [nextHeadLoop, JM.bind_ok (JM.get_apply _)]
      simp only
      rw [if_neg (by omega)]; rfl

theorem next_wrap {m : Index K V} {it : Iter} (hi : it.initialized = true)
    (hm : it.internalModCount = m.modificationCount) (hn : it.next < 0) (hb : it.head = 2147483647) :
    (Iterating.next (⟨m, it⟩ : Iterating K V)).out = .error .indexOutOfBounds := by
  unfold Iterating.next nextHead
  rw [JM.bind_ok (JM.get_apply _)]
  simp only
  rw [if_neg (by simp [hm]), if_neg (by simp [hi]), if_neg (by omega)]
  rw [JM.bind_err (e := .indexOutOfBounds) (s' := ⟨m, { it with head := -2147483648, entry := -1 }⟩)]
  · rfl
  · rw [JM.bind_ok (setIt_ok _ _), JM.bind_ok (JM.get_apply _)]
    simp only
    rw [hb, show i32 (2147483647 + 1) = -2147483648 by decide]
    apply JM.bind_err
    rw [nextHeadLoop, JM.bind_ok (JM.get_apply _)]
    simp only
    rw [if_pos (by omega)]
    apply JM.bind_err
    unfold onMap rd
    simp only
    rw [if_neg (by omega)]

theorem getLast_cons_run {o : ItOp} {s : Iterating K V} {os : List ItOp} {x : Except Err (Option Int)}
    (h : (runM itStep (itStep o s).state os).1.getLast? = some x) :
    (runM itStep s (o :: os)).1.getLast? = some x := by
  simp only [runM]
  cases hr : (runM itStep (itStep o s).state os).1 with
  | nil => rw [hr] at h; simp at h
  | cons y ys => rw [hr] at h; rw [List.getLast?_cons_cons]; exact h

theorem run_off : ∀ (j : Nat) (m : Index K V) (it : Iter), it.initialized = true →
    it.internalModCount = m.modificationCount → it.next < 0 → (m.heads.len : Int) ≤ it.head →
    it.head + j = 2147483647 →
    (runM itStep (⟨m, it⟩ : Iterating K V) (List.replicate (j + 1) .next)).1.getLast? =
      some (.error .indexOutOfBounds)
  | 0, m, it, h1, h2, h3, _, h5 => by
    have := next_wrap h1 h2 h3 (by omega)
    cases hr : Iterating.next (⟨m, it⟩ : Iterating K V) with
    | ok b t => rw [hr] at this; simp at this
    | err e t =>
      rw [hr] at this
      have e2 : itStep .next (⟨m, it⟩ : Iterating K V) = .err e t := by
        unfold itStep; exact JM.bind_err hr
      simp only [List.replicate, runM, e2]
      simpa using this
  | j + 1, m, it, h1, h2, h3, h4, h5 => by
    rw [List.replicate_succ]
    apply getLast_cons_run
    have := next_off h1 h2 h3 h4 (by omega)
    rw [itStep_next_false this]
    exact run_off j m _ h1 h2 h3 (by simp only; omega) (by simp only; omega)

/-! ## C104 -/

/-- C104 (partial: during the first 2^30 calls; `C104_wraps_refuted` shows what happens later): once `next()` has
returned false, it returns false, and the collection is not changed. -/
theorem C104_stays_exhausted_partial {exact : Prop} {s : Index K V} {a : Abs K V} (h : Reach exact s a) (it : Iter)
    (its : List ItOp) (n : Nat) (hlen : its.length + n ≤ 2 ^ 30) :
    ∃ t, reset ⟨s, it⟩ = .ok () t ∧
      let u := (runM itStep t its).2
      ((itStep .next u).out = .ok none →
        (runM itStep u (List.replicate n .next)).1 = List.replicate n (.ok none) ∧
        (runM itStep u (List.replicate n .next)).2.map = u.map) := by
  have e : (2 : Nat) ^ 30 = 1073741824 := by decide
  obtain ⟨F, hF⟩ := reach_inv h
  obtain ⟨it', h1, h2⟩ := cinv_reset hF it
  obtain ⟨-, h4⟩ := cursor_run its 0 _ _ h2 (by omega) (by omega)
  refine ⟨_, h1, ?_⟩
  intro u hu
  cases n with
  | zero => exact ⟨rfl, rfl⟩
  | succ n =>
    have h5 := (cursor_step (by omega) (by omega) _ _ .next h4).1
    rw [hu] at h5
    obtain ⟨h6, h7⟩ := next_run (n + 1) _ _ _ h4 (by omega) (by omega)
    refine ⟨?_, h7⟩
    rw [h6]
    have ht : (runS Cursor.step ⟨.start, order s, a⟩ its).2.todo = [] := by
      cases hc : (runS Cursor.step ⟨.start, order s, a⟩ its).2.todo with
      | nil => rfl
      | cons x l => simp [Cursor.step, hc] at h5
    rw [ht]
    apply List.ext_getElem
    · simp
    · intro i _ _; simp

/-- C104 is false in the long run, for every collection: `next()` moves to a further bucket each time it is called,
also after the end, so that after at most 2^31 calls its counter overflows and `next()` throws
ArrayIndexOutOfBoundsException. -/
theorem C104_wraps_refuted {exact : Prop} {s : Index K V} {a : Abs K V} (h : Reach exact s a) (it : Iter) :
    ∃ t n, reset ⟨s, it⟩ = .ok () t ∧ n ≤ 2 ^ 31 + 2 ^ 30 ∧
      (runM itStep t (List.replicate n .next)).1.getLast? = some (.error .indexOutOfBounds) := by
  have e : (2 : Nat) ^ 30 = 1073741824 := by decide
  have e31 : (2 : Nat) ^ 31 = 2147483648 := by decide
  obtain ⟨F, hF⟩ := reach_inv h
  obtain ⟨it', h1, h2⟩ := cinv_reset hF it
  have hl : (order s).length ≤ 536870912 := by
    have h3 := (order_perm hF).length_eq
    have h4 := hF.perm.length_eq
    simp only [List.length_append, List.length_map, List.length_range] at h4
    have := hF.next_le
    rw [hF.next] at this
    have h0 := hF.next0
    have hc := hF.cap_pos
    rw [show ((2 : Int) ^ 29) = 536870912 by decide] at hc
    omega
  obtain ⟨h5, h6⟩ := cursor_run (List.replicate ((order s).length + 1) .next) 0 _ _ h2 (by omega)
    (by simp only [List.length_replicate]; omega)
  have hpos : ∀ (l : List Int) (p : Pos), (runS Cursor.step (⟨p, l, a⟩ : Cursor K V)
      (List.replicate (l.length + 1) .next)).2 = ⟨.done, [], a⟩ := by
    intro l
    induction l with
    | nil => intro p; rfl
    | cons x l ih => intro p; rw [List.length_cons, List.replicate_succ]; exact ih _
  rw [hpos] at h6
  obtain ⟨_, hd, _⟩ := h6
  obtain ⟨d1, d2, d3, d4, d5, d6, d7⟩ := hd
  have hh := hF.hlen
  generalize hu : (runM itStep (⟨s, it'⟩ : Iterating K V) (List.replicate ((order s).length + 1) .next)).2 = u at *
  have hm : u.map = s := by
    rw [← hu]; exact (next_run _ 0 _ _ h2 (by omega) (by omega)).2
  obtain ⟨m, ut⟩ := u
  simp only at hm d1 d2 d3 d4 d5
  subst hm
  simp only [List.length_replicate] at d4
  rw [show ((2 : Nat) ^ 29) = 536870912 by decide] at hh
  have hj := run_off (2147483647 - ut.head).toNat m ut d1 d2 d5 d3 (by omega)
  refine ⟨_, ((order m).length + 1) + ((2147483647 - ut.head).toNat + 1), h1, by omega, ?_⟩
  rw [← List.replicate_append_replicate, runM_append, hu]
  rw [List.getLast?_append, hj]; rfl

/- Non-vacuity: an exhausted iterator of a map with two entries. -/
example : ∃ s, exampleNew 2 1 1 = .ok s ∧
    let s := final s [Op.put 1 11, .put 9 99]
    let u := (runM itStep (reset (⟨s, exampleIter⟩ : Iterating Int Int)).state [.next, .next]).2
    (itStep .next u).out = .ok none ∧
    (runM itStep u (List.replicate 5 .next)).1 = List.replicate 5 (.ok none) ∧
    (runM itStep ⟨u.map, { (itStep .next u).state.it with head := 2147483645 }⟩ [.next, .next, .next]).1 =
      [.ok none, .ok none, .error .indexOutOfBounds] :=
  ⟨_, rfl, by decide +kernel⟩

end Verif

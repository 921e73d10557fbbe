import Verif.Proofs.Timeout
/-! # Properties C82 - C84: the timeout manager (a client of the heap)

`run` is the model (Model/Timeout.lean); `Legal` the specification (Spec/Timeout.lean). -/
namespace Verif
open Timeout TimeoutSpec TimeoutProof

/-! ## C82 -/

/-- C82: for every schedule of additions, acknowledgements and rounds of the manager's thread, every clock and every
latch: every result is the right one.  In particular a timeout is only reported for an item that was added, not
acknowledged and not reported before, after its deadline, earliest deadline first; no overdue item is left; the delay
is the time to the earliest deadline left. -/
theorem C82_timeouts (n : Nat) {s : Manager} (hs : Timeout.new n = .ok s) (es : List Event) (hr : ∀ e ∈ es, InRange e)
    (hn : adds es ≤ 2 ^ 29) (hp : Proper [] (Timeout.run s es)) : Legal ⟨[], [], n⟩ (Timeout.run s es) := by
  obtain ⟨h1, h2⟩ := new_rel hs
  rw [← h2]
  exact run_legal es s _ [] [] h1 hr (by simpa using hn) hp

/-- C82: the manager can be created. -/
theorem C82_new (n : Nat) : ∃ s, Timeout.new n = .ok s ∧ s.latch = n := ⟨_, rfl, rfl⟩

namespace TimeoutProof

/-- Number of items with the value. -/
def cnt (v : Int) (p : List Item) : Nat := p.countP fun i => i.value == v

theorem cnt_perm {v : Int} {p q : List Item} (h : p.Perm q) : cnt v p = cnt v q := h.countP_eq _

theorem reported_cons (v : Int) (e : Event) (r : Result) (t : List (Event × Result)) :
    reported v ((e, r) :: t) = (match r with | .polled rs _ => rs.countP fun r => r.value == v | _ => 0) + reported v t := by
  unfold reported reportsOf
  rw [List.flatMap_cons, List.countP_append]
  cases r <;> rfl

theorem cnt_reports {v : Int} {clock : Nat → Int} {fired rest : List Item} {rs : List Report} {delay : Int}
    (h : Fires clock fired rest rs delay) : (rs.countP fun r => r.value == v) = cnt v fired := by
  rw [h.reports]
  unfold cnt
  have : ∀ (l : List Item) (f : Nat → Item → Report), (∀ n i, (f n i).value = i.value) →
      (l.mapIdx f).countP (fun r => r.value == v) = l.countP fun i => i.value == v := by
    intro l
    induction l with
    | nil => intro f _; rfl
    | cons x l ih =>
      intro f hf
      rw [List.mapIdx_cons, List.countP_cons, List.countP_cons, ih _ (fun n i => hf (n + 1) i), hf]
  exact this _ _ (fun _ _ => rfl)

/-- Splitting a legal schedule; reports and pending items with the value are at most those there were. -/
theorem split {v : Int} : ∀ {t1 t2 : List (Event × Result)} {s : Ideal}, Legal s (t1 ++ t2) → (∀ x ∈ t1, ¬ IsAdd v x) →
    ∃ s', Legal s' t2 ∧ reported v t1 + cnt v s'.pending ≤ cnt v s.pending ∧
      ((s.pending.map Item.entry).Nodup → (s'.pending.map Item.entry).Nodup) ∧
      ∀ i ∈ s.pending, i.value = v → reported v t1 = 0 → (∀ x ∈ t1, x.1 ≠ .acknowledge i.entry) → i ∈ s'.pending := by
  intro t1
  induction t1 with
  | nil => intro t2 s h _; exact ⟨s, h, by simp [reported, reportsOf], id, fun i hi _ _ _ => hi⟩
  | cons x t1 ih =>
    intro t2 s h hx
    have hx' := fun y hy => hx y (List.mem_cons_of_mem _ hy)
    rw [List.cons_append] at h
    cases h with
    | @add _ v' d e _ hf ht =>
      obtain ⟨s', l1, l2, l3, l4⟩ := ih ht hx'
      have hv : v' ≠ v := fun hv => hx _ List.mem_cons_self ⟨d, .entry e, by rw [hv]⟩
      refine ⟨s', l1, ?_, fun hnd => l3 ?_, fun i hi hiv hr ha => ?_⟩
      · rw [reported_cons]
        simp only [cnt, List.countP_cons] at l2 ⊢
        have : ¬ (v' == v) = true := by simpa using hv
        rw [if_neg this] at l2
        omega
      · rw [List.map_cons, List.nodup_cons]
        refine ⟨fun hm => ?_, hnd⟩
        obtain ⟨i, hi, hie⟩ := List.mem_map.1 hm
        exact hf i hi hie
      · rw [reported_cons] at hr
        exact l4 i (List.mem_cons_of_mem _ hi) hiv (by omega) (fun y hy => ha y (List.mem_cons_of_mem _ hy))
    | @acknowledge _ j _ hj ht =>
      obtain ⟨s', l1, l2, l3, l4⟩ := ih ht hx'
      refine ⟨s', l1, ?_, fun hnd => l3 ?_, fun i hi hiv hr ha => ?_⟩
      · rw [reported_cons]
        have : cnt v (s.pending.erase j) ≤ cnt v s.pending := List.Sublist.countP_le (List.erase_sublist)
        simp only [] at l2 ⊢
        omega
      · exact hnd.sublist (List.Sublist.map _ (List.erase_sublist))
      · rw [reported_cons] at hr
        have hij : i ≠ j := fun hij => ha _ List.mem_cons_self (by rw [hij])
        exact l4 i ((List.mem_erase_of_ne hij).2 hi) hiv (by omega) (fun y hy => ha y (List.mem_cons_of_mem _ hy))
    | late hf ht =>
      obtain ⟨s', l1, l2, l3, l4⟩ := ih ht hx'
      refine ⟨s', l1, by rw [reported_cons]; simpa using l2, l3, fun i hi hiv hr ha => ?_⟩
      rw [reported_cons] at hr
      exact l4 i hi hiv (by omega) (fun y hy => ha y (List.mem_cons_of_mem _ hy))
    | @poll _ clock fired rest rs delay _ hl hp hf ht =>
      obtain ⟨s', l1, l2, l3, l4⟩ := ih ht hx'
      have hc := cnt_reports (v := v) hf
      have hcp := cnt_perm (v := v) hp
      unfold cnt at hcp
      rw [List.countP_append] at hcp
      refine ⟨s', l1, ?_, fun hnd => l3 ?_, fun i hi hiv hr ha => ?_⟩
      · rw [reported_cons]
        simp only [cnt] at hc l2 hcp ⊢
        omega
      · have := (hp.map Item.entry).nodup_iff.2 hnd
        rw [List.map_append] at this
        exact (List.nodup_append.1 this).2.1
      · rw [reported_cons] at hr
        simp only [] at hr
        have hi' := hp.mem_iff.2 hi
        rcases List.mem_append.1 hi' with hif | hir
        · have : 0 < cnt v fired := List.countP_pos_iff.2 ⟨i, hif, by simpa using hiv⟩
          omega
        · exact l4 i hir hiv (by omega) (fun y hy => ha y (List.mem_cons_of_mem _ hy))
    | stopped hl ht =>
      obtain ⟨s', l1, l2, l3, l4⟩ := ih ht hx'
      refine ⟨s', l1, by rw [reported_cons]; simpa using l2, l3, fun i hi hiv hr ha => ?_⟩
      rw [reported_cons] at hr
      exact l4 i hi hiv (by omega) (fun y hy => ha y (List.mem_cons_of_mem _ hy))

/-- Reports of items with the value come after their deadline. -/
theorem after_deadline {v d : Int} {t : List (Event × Result)} {s : Ideal} (h : Legal s t) :
    (∀ x ∈ t, ¬ IsAdd v x) → (∀ i ∈ s.pending, i.value = v → i.deadline = d) →
    ∀ r ∈ reportsOf t, r.value = v → d < r.now ∧ r.pastDue = r.now - d := by
  induction h with
  | nil => intro _ _ r hr; simp [reportsOf] at hr
  | @add s v' d' e t hf ht ih =>
    intro hx hi r hr
    have hr' : r ∈ reportsOf t := by simpa [reportsOf] using hr
    refine ih (fun y hy => hx y (List.mem_cons_of_mem _ hy)) (fun i hi' hv => ?_) r hr'
    rcases List.mem_cons.1 hi' with rfl | hi'
    · exact absurd ⟨d', .entry e, by rw [← hv]⟩ (hx _ List.mem_cons_self)
    · exact hi i hi' hv
  | @acknowledge s j t hj ht ih =>
    intro hx hi r hr
    have hr' : r ∈ reportsOf t := by simpa [reportsOf] using hr
    exact ih (fun y hy => hx y (List.mem_cons_of_mem _ hy)) (fun i hi' hv => hi i (List.mem_of_mem_erase hi') hv) r hr'
  | @late s e t hf ht ih =>
    intro hx hi r hr
    have hr' : r ∈ reportsOf t := by simpa [reportsOf] using hr
    exact ih (fun y hy => hx y (List.mem_cons_of_mem _ hy)) hi r hr'
  | @poll s clock fired rest rs delay t hl hp hf ht ih =>
    intro hx hi r hr
    have hr' : r ∈ rs ∨ r ∈ reportsOf t := by
      have : r ∈ rs ++ reportsOf t := by simpa [reportsOf] using hr
      exact List.mem_append.1 this
    rcases hr' with hr' | hr'
    · intro hv
      rw [hf.reports, List.mem_mapIdx] at hr'
      obtain ⟨n, hn, hrn⟩ := hr'
      have hdl := hf.due n _ (List.getElem?_eq_getElem hn)
      have hdd := hi _ (hp.mem_iff.1 (List.mem_append_left _ (List.getElem_mem hn))) (by rw [← hv, ← hrn])
      rw [← hrn]
      exact ⟨by show d < clock n; omega, by show clock n - _ = clock n - d; rw [hdd]⟩
    · exact ih (fun y hy => hx y (List.mem_cons_of_mem _ hy))
        (fun i hi' hv => hi i (hp.mem_iff.1 (List.mem_append_right _ hi')) hv) r hr'
  | @stopped s clock t hl ht ih =>
    intro hx hi r hr
    have hr' : r ∈ reportsOf t := by simpa [reportsOf] using hr
    exact ih (fun y hy => hx y (List.mem_cons_of_mem _ hy)) hi r hr'

/-- A pending item that is not acknowledged is reported by the first round whose clock has passed its deadline. -/
theorem fires {v d e : Int} {t : List (Event × Result)} {s : Ideal} (h : Legal s t) :
    ⟨e, v, d⟩ ∈ s.pending → (∀ x ∈ t, x.1 ≠ .acknowledge e) →
    (∃ clock rs delay, (Event.poll clock, Result.polled rs delay) ∈ t ∧ ∀ n, d < clock n) → 0 < reported v t := by
  induction h with
  | nil => rintro _ _ ⟨c, rs, dl, hm, _⟩; simp at hm
  | @add s v' d' e' t hf ht ih =>
    rintro hi ha ⟨c, rs, dl, hm, hc⟩
    rw [reported_cons]
    have := ih (List.mem_cons_of_mem _ hi) (fun y hy => ha y (List.mem_cons_of_mem _ hy))
      ⟨c, rs, dl, by simpa using hm, hc⟩
    omega
  | @acknowledge s j t hj ht ih =>
    rintro hi ha ⟨c, rs, dl, hm, hc⟩
    rw [reported_cons]
    have hij : (⟨e, v, d⟩ : Item) ≠ j := fun hij => ha _ List.mem_cons_self (by rw [← hij])
    have := ih ((List.mem_erase_of_ne hij).2 hi) (fun y hy => ha y (List.mem_cons_of_mem _ hy))
      ⟨c, rs, dl, by simpa using hm, hc⟩
    omega
  | @late s e' t hf ht ih =>
    rintro hi ha ⟨c, rs, dl, hm, hc⟩
    rw [reported_cons]
    have := ih hi (fun y hy => ha y (List.mem_cons_of_mem _ hy)) ⟨c, rs, dl, by simpa using hm, hc⟩
    omega
  | @poll s clock fired rest rs delay t hl hp hf ht ih =>
    rintro hi ha ⟨c, rs', dl, hm, hc⟩
    rw [reported_cons]
    rcases List.mem_append.1 (hp.mem_iff.2 hi) with hif | hir
    · have h1 : 0 < cnt v fired := List.countP_pos_iff.2 ⟨_, hif, by simp⟩
      have h2 := cnt_reports (v := v) hf
      simp only []
      omega
    · rcases List.mem_cons.1 hm with hm | hm
      · simp only [Prod.mk.injEq, Event.poll.injEq] at hm
        have h1 := hf.notDue _ hir
        have h2 := hc fired.length
        rw [← hm.1] at h1
        exact absurd h1 (by show ¬ c fired.length ≤ d; omega)
      · have := ih hir (fun y hy => ha y (List.mem_cons_of_mem _ hy)) ⟨c, rs', dl, hm, hc⟩
        omega
  | @stopped s clock t hl ht ih =>
    rintro hi ha ⟨c, rs, dl, hm, hc⟩
    rw [reported_cons]
    have := ih hi (fun y hy => ha y (List.mem_cons_of_mem _ hy)) ⟨c, rs, dl, by simpa using hm, hc⟩
    omega

end TimeoutProof

/-- The situation of C83 and C84: a schedule in which exactly one item with the value `v` is added. -/
structure TimeoutProof.Case (n : Nat) (v d e : Int) (t1 t2 : List (Event × Result)) : Prop where
  /-- the schedule is one of the manager -/
  ran : ∃ (s : Manager) (es : List Event), Timeout.new n = .ok s ∧ (∀ e ∈ es, InRange e) ∧ adds es ≤ 2 ^ 29 ∧
    Timeout.run s es = t1 ++ (.add v d, .entry e) :: t2
  /-- acknowledged handles were handed out before -/
  proper : Proper [] (t1 ++ (.add v d, .entry e) :: t2)
  /-- nobody else uses the value -/
  unique : (∀ x ∈ t1, ¬ IsAdd v x) ∧ ∀ x ∈ t2, ¬ IsAdd v x

theorem TimeoutProof.Case.legal {n : Nat} {v d e : Int} {t1 t2 : List (Event × Result)} (h : Case n v d e t1 t2) :
    reported v t1 = 0 ∧ ∃ s : Ideal, Legal s t2 ∧ ⟨e, v, d⟩ ∈ s.pending ∧ cnt v s.pending = 1 ∧
      (s.pending.map Item.entry).Nodup := by
  obtain ⟨s, es, h1, h2, h3, h4⟩ := h.ran
  have hl := C82_timeouts n h1 es h2 h3 (by rw [h4]; exact h.proper)
  rw [h4] at hl
  obtain ⟨s', l1, l2, l3, -⟩ := split hl h.unique.1
  have l2' : reported v t1 + cnt v s'.pending ≤ 0 := l2
  have l3' := l3 (by simp)
  refine ⟨by omega, ?_⟩
  cases l1 with
  | add hf ht =>
    refine ⟨_, ht, List.mem_cons_self, ?_, ?_⟩
    · simp only [cnt, List.countP_cons] at l2' ⊢
      simp only [beq_self_eq_true, if_true]
      omega
    · rw [List.map_cons, List.nodup_cons]
      refine ⟨fun hm => ?_, l3'⟩
      obtain ⟨i, hi, hie⟩ := List.mem_map.1 hm
      exact hf i hi hie

/-! ## C83 -/

/-- C83: the timeout of an item is never reported before the item is added, at most once afterwards, and only after its
deadline; if its handle is never acknowledged and the manager makes a round in which the clock has passed the deadline,
it is reported exactly once. -/
theorem C83_exactly_once {n : Nat} {v d e : Int} {t1 t2 : List (Event × Result)} (h : TimeoutProof.Case n v d e t1 t2) :
    reported v t1 = 0 ∧ reported v t2 ≤ 1 ∧
    (∀ r ∈ reportsOf t2, r.value = v → d < r.now ∧ r.pastDue = r.now - d) ∧
    ((∀ x ∈ t2, x.1 ≠ .acknowledge e) →
      (∃ clock rs delay, (Event.poll clock, Result.polled rs delay) ∈ t2 ∧ ∀ n, d < clock n) → reported v t2 = 1) := by
  obtain ⟨h1, s, l1, l2, l3, l4⟩ := h.legal
  obtain ⟨s', m1, m2, -⟩ := split (t2 := []) (v := v) (by rw [List.append_nil]; exact l1) h.unique.2
  refine ⟨h1, by omega, after_deadline l1 h.unique.2 fun i hi hv => ?_, fun ha hp => ?_⟩
  · have : i = ⟨e, v, d⟩ := by
      by_contra hne
      have hmem : i ∈ s.pending.erase ⟨e, v, d⟩ := (List.mem_erase_of_ne hne).2 hi
      have hc : cnt v s.pending = 1 + cnt v (s.pending.erase ⟨e, v, d⟩) := by
        rw [cnt_perm (List.perm_cons_erase l2)]
        simp only [cnt, List.countP_cons, beq_self_eq_true, if_true]; omega
      have : 0 < cnt v (s.pending.erase ⟨e, v, d⟩) := List.countP_pos_iff.2 ⟨i, hmem, by simpa using hv⟩
      omega
    rw [this]
  · have := fires l1 l2 ha hp
    omega

/-- A schedule with two items, one acknowledged and rejected later, two rounds with reports, and a stopped thread. -/
def TimeoutProof.sample : List Event :=
  [.add 1 5, .add 7 20, .poll fun n => 10 + (n % 3 : Nat), .acknowledge 0, .add 8 40, .poll fun n => 30 + (n % 3 : Nat), .acknowledge 0,
    .poll fun _ => 50]

/-- The hypotheses of C82 and C83 are met by a schedule in which item 7 is reported at the second round. -/
example : ∃ s t2, Timeout.new 2 = .ok s ∧ Proper [] (Timeout.run s TimeoutProof.sample) ∧
    (Timeout.run s TimeoutProof.sample).map Prod.snd = [.entry 0, .entry 1, .polled [⟨10, 1, 5⟩] 9,
      .error .invalidEntry, .entry 0, .polled [⟨30, 7, 10⟩] 9, .done, .stopped] ∧
    TimeoutProof.Case 2 7 20 1 [(.add 1 5, .entry 0)] t2 ∧ reported 7 t2 = 1 := by
  refine ⟨_, _, rfl, ?_, ?_, ⟨⟨_, TimeoutProof.sample, rfl, ?_, by decide, rfl⟩, ?_, ?_, ?_⟩, ?_⟩
  · refine ⟨?_, ?_, trivial⟩ <;> decide +kernel
  · decide +kernel
  · intro e he
    simp only [TimeoutProof.sample, List.mem_cons, List.not_mem_nil, or_false] at he
    rcases he with rfl | rfl | rfl | rfl | rfl | rfl | rfl | rfl <;> simp only [InRange] <;> intros <;> omega
  · refine ⟨?_, ?_, trivial⟩ <;> decide +kernel
  · rintro x hx ⟨d, r, rfl⟩; simp at hx
  · rintro x hx ⟨d, r, rfl⟩
    have : (Event.add 7 d, r).1 ∈ TimeoutProof.sample.drop 2 := List.mem_map.2 ⟨_, hx, rfl⟩
    simp [TimeoutProof.sample] at this
  · decide +kernel

/-! ## C84 -/

/-- C84, for the first acknowledgement of the handle, made before the item is reported: it succeeds, and the item's timeout
is never reported.  (That no other item is affected is part of C82.)  Missing: acknowledgements after the timeout,
which can hit another item (`C84_late_acknowledge_refuted`). -/
theorem C84_acknowledged_partial {n : Nat} {v d e : Int} {t1 t2 t3 : List (Event × Result)} {r : Result}
    (h : TimeoutProof.Case n v d e t1 (t2 ++ (.acknowledge e, r) :: t3)) (hf : ∀ x ∈ t2, x.1 ≠ .acknowledge e)
    (hr : reported v t2 = 0) : r = .done ∧ reported v t3 = 0 := by
  obtain ⟨-, s, l1, l2, l3, l4⟩ := h.legal
  obtain ⟨s', m1, m2, m3, m4⟩ := split l1 (fun x hx => h.unique.2 x (List.mem_append_left _ hx))
  have hmem := m4 _ l2 rfl hr hf
  have hnd := m3 l4
  cases m1 with
  | @acknowledge _ i _ hi ht =>
    have hie : i = ⟨i.entry, v, d⟩ := List.inj_on_of_nodup_map hnd hi hmem rfl
    refine ⟨rfl, ?_⟩
    obtain ⟨s2, k1, k2, -⟩ := split (t2 := []) (v := v) (by rw [List.append_nil]; exact ht)
      (fun x hx => h.unique.2 x (List.mem_append_right _ (List.mem_cons_of_mem _ hx)))
    have hc : cnt v s'.pending = 1 + cnt v (s'.pending.erase i) := by
      rw [cnt_perm (List.perm_cons_erase hi), hie]
      simp only [cnt, List.countP_cons, beq_self_eq_true, if_true]; omega
    simp only [] at k2
    omega
  | late hx ht => exact absurd rfl (hx _ hmem)

/-- C84 is false for an acknowledgement that arrives after the timeout: item 1 times out and is reported, item 2 gets
the same handle, and the late acknowledgement of item 1 silently cancels item 2, whose timeout is never reported. -/
theorem C84_late_acknowledge_refuted : ∃ s, Timeout.new 4 = .ok s ∧
    (Timeout.run s [.add 1 5, .poll fun _ => 10, .add 2 20, .acknowledge 0, .poll fun _ => 30]).map Prod.snd =
      [.entry 0, .polled [⟨10, 1, 5⟩] 100, .entry 0, .done, .polled [] 100] := by
  refine ⟨_, rfl, ?_⟩
  decide +kernel

end Verif

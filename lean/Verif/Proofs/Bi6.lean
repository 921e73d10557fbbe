import Verif.Proofs.Bi5
/-! Proofs about the two-sided collections, part 6: iterators and edits. -/
set_option linter.unusedSectionVars false
namespace Verif
namespace Bi
open BiSpec
variable {s : Bi} {i : Ideal}

theorem setCursor_other {d d' : Dir} {k k' : Kind} {c : Cursor} (h : ¬ (d' = d ∧ k' = k)) :
    (i.setCursor d' k' c).cursor d k = i.cursor d k := by
  show (if d = d' ∧ k = k' then _ else _) = _
  rw [if_neg]
  rintro ⟨rfl, rfl⟩
  exact h ⟨rfl, rfl⟩

theorem rest_live (h : Inv s i) {d : Dir} {k : Kind} (hd : i.has d) {l : List Int}
    (hr : (i.cursor d k).rest = some l) : ∀ x ∈ l, x ∈ i.live := by
  intro x hx
  have := ((h.curs d k hd).2 l hr).2.subset hx
  obtain ⟨a, ha, _, rfl⟩ := entries_mem.1 this
  exact List.mem_map_of_mem ha

theorem rest_nodup (h : Inv s i) {d : Dir} {k : Kind} (hd : i.has d) {l : List Int}
    (hr : (i.cursor d k).rest = some l) : l.Nodup := by
  have h1 := ((h.curs d k hd).2 l hr).2
  have h2 := entries_nodup h d (i.cursor d k).key
  rw [listOf_entry] at h2
  exact h2.sublist h1.sublist

theorem filter_all {l L : List Int} (h : ∀ x ∈ l, x ∈ L) : l.filter (fun x => decide (x ∈ L)) = l := by
  rw [List.filter_eq_self]
  intro x hx
  simpa using h x hx

theorem live_drop (e : Int) : (i.drop e).live = i.live.filter (· ≠ e) := by
  unfold Ideal.live Ideal.drop
  simp only
  rw [List.filter_map]
  rfl

/-- What an edit does to an iterator that is not touched by it: the entries still to be handed out
are those that are still held. -/
theorem edit_cursor (h : Inv s i) {d : Dir} {k : Kind} (hd : i.has d) {o : Op} (hg : Guard o i)
    (ho : ¬ Moves d k o) {e : Int} {l : List Int} (hr : (i.cursor d k).rest = some (e :: l))
    (hkeep : e ∈ (after o (step o s).out i).live) :
    (after o (step o s).out i).cursor d k = ⟨(i.cursor d k).key,
      some (e :: l.filter fun x => decide (x ∈ (after o (step o s).out i).live))⟩ := by
  have hlive := rest_live h hd hr
  have hnd := rest_nodup h hd hr
  have hsame : ∀ j : Ideal, j.cursor d k = i.cursor d k → (∀ x ∈ i.live, x ∈ j.live) →
      j.cursor d k = ⟨(i.cursor d k).key, some (e :: l.filter fun x => decide (x ∈ j.live))⟩ := by
    intro j hj hl
    rw [hj, filter_all (fun x hx => hl x (hlive x (List.mem_cons_of_mem _ hx))), ← hr]
  have hdrop : ∀ (x : Int) (j : Ideal), j.cursor d k = (i.drop x).cursor d k → j.live = (i.drop x).live →
      e ∈ j.live →
      j.cursor d k = ⟨(i.cursor d k).key, some (e :: l.filter fun y => decide (y ∈ j.live))⟩ := by
    intro x j hj hl he
    rw [hl, live_drop] at he
    have hne : e ≠ x := by simpa using (List.mem_filter.1 he).2
    rw [hj, hl, live_drop]
    show Ideal.Cursor.drop x (i.cursor d k) = _
    unfold Ideal.Cursor.drop
    rw [hr]
    simp only
    rw [if_neg hne]
    congr 3
    apply List.filter_congr
    intro y hy
    have := hlive y (List.mem_cons_of_mem _ hy)
    simp [this]
  generalize hj : after o (step o s).out i = j at hkeep ⊢
  cases o with
  | put a b =>
    simp only [after] at hj
    split at hj <;> subst hj
    · exact hsame _ rfl (fun x hx => List.mem_cons_of_mem _ hx)
    · exact hsame _ rfl (fun x hx => hx)
  | remove a b =>
    simp only [after] at hj
    cases hf : i.find a b with
    | none => simp only [hf] at hj; subst hj; exact hsame _ rfl (fun x hx => hx)
    | some y => simp only [hf] at hj; subst hj; exact hdrop y.entry _ rfl rfl hkeep
  | removeAt x => subst hj; exact hdrop x _ rfl rfl hkeep
  | removeAtAndReserve x => subst hj; exact hdrop x _ rfl rfl hkeep
  | forEachOf d' k' => subst hj; exact hsame _ (setCursor_other ho) (fun x hx => hx)
  | iterator d' k' => subst hj; exact hsame _ (setCursor_other ho) (fun x hx => hx)
  | iterReset d' k' => subst hj; exact hsame _ (setCursor_other ho) (fun x hx => hx)
  | next d' k' =>
    simp only [after] at hj
    split at hj <;> subst hj
    · exact hsame _ (setCursor_other ho) (fun x hx => hx)
    · exact hsame _ rfl (fun x hx => hx)
  | _ => subst hj; exact hsame _ rfl (fun x hx => hx)

/-- Asking an iterator until it is exhausted. -/
theorem drain {d : Dir} {k : Kind} : ∀ (l : List Int) (s : Bi) (i : Ideal), Inv s i → i.has d →
    (i.cursor d k).rest = some l → i.Covered d (i.cursor d k).key →
    ∃ A : List Assoc, A.map (·.entry) = l ∧ (∀ a ∈ A, a ∈ i.assocs ∧ a.key d = (i.cursor d k).key) ∧
      (runM step s (List.replicate l.length (.next d k) ++ [.hasNext d k])).1 =
        A.map (fun a => .ok (.int (a.show d k))) ++ [.ok (.bool false)]
  | [], s, i, h, hd, hr, _ => by
    refine ⟨[], rfl, by simp, ?_⟩
    have := (step_spec h (.hasNext d k) ⟨hd, by rw [hr]; simp⟩).1 [] hr
    show [_] = _
    rw [this]; rfl
  | e :: l, s, i, h, hd, hr, hc => by
    obtain ⟨h1, h2⟩ := step_spec h (.next d k) ⟨hd, by rw [hr]; simp⟩
    simp only [Ok, hr] at h1
    obtain ⟨a, ha, he, hk, h3, _⟩ := h1
    have hout := h3 hc
    rw [hout] at h2
    simp only [after, hr] at h2
    have hcur : (i.setCursor d k ⟨(i.cursor d k).key, some l⟩).cursor d k =
        ⟨(i.cursor d k).key, some l⟩ := by simp [Ideal.setCursor]
    obtain ⟨A, a1, a2, a3⟩ := drain (d := d) (k := k) l _ _ h2 (by cases d <;> exact hd) (by rw [hcur])
      (by rw [hcur]; exact hc)
    rw [hcur] at a2
    refine ⟨a :: A, by simp [he, a1], ?_, ?_⟩
    · intro b hb
      rcases List.mem_cons.1 hb with rfl | hb
      · exact ⟨ha, hk⟩
      · exact a2 b hb
    · rw [List.length_cons, List.replicate_succ, List.cons_append, List.map_cons, List.cons_append]
      show _ :: (runM step _ _).1 = _
      rw [hout, a3]

end Bi
end Verif

import Verif.Proofs.Index7
import Verif.Trace
/-! Proofs about the indexed map, part 8: every call of every history. -/
set_option linter.unusedSectionVars false
namespace Verif
namespace Index
open IndexSpec
variable {K V : Type} [Inhabited K] [Inhabited V]
variable {tight : Prop} {s : Index K V} {a : Abs K V} {F : List Int}

theorem row_range (h : Inv tight s a F) {r : Row K V} (hr : r ∈ a.rows ∨ r ∈ a.reserved) :
    0 ≤ r.entry ∧ r.entry < s.nexts.len := by
  rcases hr with hr | hr
  · exact h.live_range (mem_live hr)
  · exact h.held_range (List.mem_map_of_mem hr)

theorem rd_state {α σ : Type} (arr : σ → Arr α) (i : Int) (s : σ) : (rd arr i s).state = s := by
  unfold rd; simp only; split <;> rfl

theorem find_self (h : Inv tight s a F) {r : Row K V} (hr : r ∈ a.rows)
    (hq : a.eq r.key r.key = true) : a.find r.key = some r := by
  have hc := h.coherent (List.ne_nil_of_mem hr)
  refine find?_unique hr hq ?_
  intro r' hr' hne
  by_contra hcon
  have hq' : a.eq r.key r'.key = true := by simpa using hcon
  have hq'' := hc.symm _ _ hq'
  rcases List.pairwise_iff_getElem.1 h.distinct with hd
  obtain ⟨i, hi, rfl⟩ := List.getElem_of_mem hr
  obtain ⟨j, hj, rfl⟩ := List.getElem_of_mem hr'
  rcases Nat.lt_trichotomy i j with hlt | heq | hlt
  · rw [hd i j hi hj hlt] at hq'; simp at hq'
  · subst heq; exact hne rfl
  · rw [hd j i hj hi hlt] at hq''; simp at hq''

theorem reserve_ok (h : Inv tight s a F) {e : Int}
    (hg : ∃ r ∈ a.rows, r.entry = e ∧ a.eq r.key r.key) :
    ∃ s' F', removeAtAndReserve e s = .ok () s' ∧
      Inv tight s' { a.drop e with reserved := (a.rows.filter fun r => r.entry = e) ++ a.reserved } F' ∧
      s'.modificationCount = i32 (s.modificationCount + 1) ∧ Pres s s' [e] := by
  obtain ⟨r, hr, rfl, hq⟩ := hg
  have hrng := row_range h (.inl hr)
  have hf := find_self h hr hq
  obtain ⟨s', F', h1, h2, h3, h4, _⟩ := removeKey_present h hf false
  refine ⟨s', F', ?_, h2, h3, h4⟩
  unfold removeAtAndReserve
  rw [JM.bind_ok (rd_ok _ ⟨hrng.1, by rw [klen_eq h]; exact hrng.2⟩), (h.rowsOk r (.inl hr)).1,
    JM.bind_ok h1]
  rfl

theorem wrValues_out (e : Int) (v : V) (s : Index K V) :
    (0 ≤ e ∧ e < s.values.len ∧ wrValues e v s = .ok () { s with values := s.values.set e v }) ∨
    (¬ (0 ≤ e ∧ e < s.values.len) ∧ wrValues e v s = .err .indexOutOfBounds s) := by
  by_cases hh : 0 ≤ e ∧ e < s.values.len
  · left; exact ⟨hh.1, hh.2, wr_ok _ _ hh⟩
  · right
    refine ⟨hh, ?_⟩
    show wr Index.values _ e v s = _
    unfold wr
    simp only
    rw [if_neg hh]

theorem entryOf_eq_neg (h : Inv tight s a F) (k : K) :
    entryOf a k = -1 ↔ a.find k = none := by
  cases hf : a.find k with
  | none => simp [entryOf, hf]
  | some r =>
    obtain ⟨_, h1, h2, _⟩ := entryOf_nonneg h hf
    rw [h1]
    simp only [reduceCtorEq, iff_false]
    omega

/-- One call: the result is right and the invariant is kept. -/
theorem step_spec (h : Inv tight s a F) (o : Op K V) (hg : Guard o a) :
    Ok o (step o s).out a ∧ (tight → OkExact o (step o s).out a) ∧
      ∃ F', Inv tight (step o s).state (after o (step o s).out a) F' := by
  have triv : ∀ {out : Except Err (Out K V)}, Ok o out a → Exact o out a →
      (tight → OkExact o out a) := fun h1 h2 _ => ⟨h1, h2⟩
  cases o with
  | add k =>
    simp only [step]
    cases hf : a.find k with
    | some r =>
      have hr : step (.add k) s = .ok (.int r.entry) s := by
        simp only [step]; rw [JM.bind_ok (add_present h hf)]; rfl
      simp only [step] at hr
      rw [hr]
      simp only [Res.out_ok, Res.state_ok, Ok, after, OkExact, Exact, hf]
      exact ⟨trivial, by simp, F, h⟩
    | none =>
      obtain ⟨e, s', F', h1, h2, _, _, h5, h6, _⟩ := add_absent h hf hg.1 hg.2
      have hr : step (.add k) s = .ok (.int e) s' := by
        simp only [step]; rw [JM.bind_ok h1]; rfl
      simp only [step] at hr
      rw [hr]
      simp only [Res.out_ok, Res.state_ok, Ok, after, OkExact, Exact, hf]
      refine ⟨⟨e, rfl, fresh_alloc h h5⟩, fun ht => ⟨⟨e, rfl, fresh_alloc h h5⟩, fun _ => ?_⟩, F', h2⟩
      rw [h6.1 ht]
  | put k v =>
    simp only [step]
    cases hf : a.find k with
    | some r =>
      obtain ⟨p1, p2⟩ := put_present h hf v
      have hr : step (.put k v) s = .ok (.int r.entry) { s with values := s.values.set r.entry v } := by
        simp only [step]; rw [JM.bind_ok p1]; rfl
      simp only [step] at hr
      rw [hr]
      simp only [Res.out_ok, Res.state_ok, Ok, after, OkExact, Exact, hf]
      exact ⟨trivial, by simp, F, p2⟩
    | none =>
      obtain ⟨e, s', F', _, _, h3, h4, h5, h6, _⟩ := add_absent h hf hg.1 hg.2
      have hr : step (.put k v) s = .ok (.int e) { s' with values := s'.values.set e v } := by
        simp only [step]; rw [JM.bind_ok (h3 v)]; rfl
      simp only [step] at hr
      rw [hr]
      simp only [Res.out_ok, Res.state_ok, Ok, after, OkExact, Exact, hf]
      refine ⟨⟨e, rfl, fresh_alloc h h5⟩, fun ht => ⟨⟨e, rfl, fresh_alloc h h5⟩, fun _ => ?_⟩, F', h4 v⟩
      rw [h6.1 ht]
  | lookupEntry k =>
    have hr : step (.lookupEntry k) s = .ok (.int (entryOf a k)) s := by
      simp only [step]; rw [JM.bind_ok (lookupEntry_spec h k)]; rfl
    rw [hr]
    have hok : Ok (.lookupEntry k) (Res.ok (Out.int (entryOf a k) : Out K V) s).out a := by
      simp only [Res.out_ok, Ok, entryOf]
      cases hf : a.find k <;> rfl
    exact ⟨hok, triv hok trivial, F, h⟩
  | containsKey k =>
    have hr : step (.containsKey k) s = .ok (.bool (decide (entryOf a k ≠ -1))) s := by
      simp only [step, containsKey]; rw [JM.bind_ok (JM.bind_ok (lookupEntry_spec h k))]; rfl
    rw [hr]
    have hok : Ok (.containsKey k) (Res.ok (Out.bool (decide (entryOf a k ≠ -1)) : Out K V) s).out a := by
      simp only [Res.out_ok, Ok]
      congr 2
      have := entryOf_eq_neg h k
      cases hf : a.find k with
      | none => simp [this.2 hf]
      | some r =>
        simp only [Option.isSome_some, decide_eq_true_eq]
        intro hh
        rw [this.1 hh] at hf; simp at hf
    exact ⟨hok, triv hok trivial, F, h⟩
  | get k =>
    cases hf : a.find k with
    | none =>
      have hr : step (.get k) s = .err .keyNotFound s := by
        simp only [step, getValue]
        apply JM.bind_err
        rw [JM.bind_ok (lookupEntry_spec h k), if_pos ((entryOf_eq_neg h k).2 hf)]; rfl
      rw [hr]
      have hok : Ok (.get k) (Res.err .keyNotFound s : Res (Index K V) (Out K V)).out a := by
        simp only [Res.out_err, Ok, hf]
      exact ⟨hok, triv hok trivial, F, h⟩
    | some r =>
      obtain ⟨g1, g2, g3, g4⟩ := entryOf_nonneg h hf
      have hr : step (.get k) s = .ok (.val r.val) s := by
        simp only [step, getValue]
        refine JM.bind_ok (a := r.val) (s' := s) ?_
        rw [JM.bind_ok (lookupEntry_spec h k), g2, if_neg (by omega),
          rd_ok _ ⟨g3, by rw [vlen_eq h]; exact g4⟩, (h.rowsOk r (.inl g1)).2]
      rw [hr]
      have hok : Ok (.get k) (Res.ok (Out.val r.val) s : Res (Index K V) (Out K V)).out a := by
        simp only [Res.out_ok, Ok, hf]
      exact ⟨hok, triv hok trivial, F, h⟩
  | getOrDefault k d =>
    cases hf : a.find k with
    | none =>
      have hr : step (.getOrDefault k d) s = .ok (.val d) s := by
        simp only [step, getOrDefault]
        refine JM.bind_ok (a := d) (s' := s) ?_
        rw [JM.bind_ok (lookupEntry_spec h k), if_pos ((entryOf_eq_neg h k).2 hf)]; rfl
      rw [hr]
      have hok : Ok (.getOrDefault k d) (Res.ok (Out.val d) s : Res (Index K V) (Out K V)).out a := by
        simp only [Res.out_ok, Ok, hf]
      exact ⟨hok, triv hok trivial, F, h⟩
    | some r =>
      obtain ⟨g1, g2, g3, g4⟩ := entryOf_nonneg h hf
      have hr : step (.getOrDefault k d) s = .ok (.val r.val) s := by
        simp only [step, getOrDefault]
        refine JM.bind_ok (a := r.val) (s' := s) ?_
        rw [JM.bind_ok (lookupEntry_spec h k), g2, if_neg (by omega),
          rd_ok _ ⟨g3, by rw [vlen_eq h]; exact g4⟩, (h.rowsOk r (.inl g1)).2]
      rw [hr]
      have hok : Ok (.getOrDefault k d) (Res.ok (Out.val r.val) s : Res (Index K V) (Out K V)).out a := by
        simp only [Res.out_ok, Ok, hf]
      exact ⟨hok, triv hok trivial, F, h⟩
  | remove k =>
    cases hf : a.find k with
    | none =>
      have hr : step (.remove k) s = .ok (.int (-1)) s := by
        simp only [step, remove]; rw [JM.bind_ok (removeKey_absent h hf true)]; rfl
      rw [hr]
      have hok : Ok (.remove k) (Res.ok (Out.int (-1)) s : Res (Index K V) (Out K V)).out a := by
        simp only [Res.out_ok, Ok, hf]
      refine ⟨hok, triv hok trivial, F, ?_⟩
      simp only [after, hf]; exact h
    | some r =>
      obtain ⟨s', F', h1, h2, _⟩ := removeKey_present h hf true
      have hr : step (.remove k) s = .ok (.int r.entry) s' := by
        simp only [step, remove]; rw [JM.bind_ok h1]; rfl
      rw [hr]
      have hok : Ok (.remove k) (Res.ok (Out.int r.entry) s' : Res (Index K V) (Out K V)).out a := by
        simp only [Res.out_ok, Ok, hf]
      refine ⟨hok, triv hok trivial, F', ?_⟩
      simp only [after, hf]
      simpa using h2
  | removeAt e =>
    by_cases he : e ∈ a.live
    · obtain ⟨s', h1, h2, _⟩ := removeAt_live h he
      have hr : step (.removeAt e) s = .ok .unit s' := by
        simp only [step]; rw [JM.bind_ok h1]; rfl
      rw [hr]
      have hok : Ok (.removeAt e) (Res.ok Out.unit s' : Res (Index K V) (Out K V)).out a := .inl rfl
      refine ⟨hok, triv hok trivial, e :: F, ?_⟩
      simp only [after, if_pos he]; exact h2
    · rcases removeAt_other h he with h1 | h1
      · have hr : step (.removeAt e) s = .ok .unit s := by
          simp only [step]; rw [JM.bind_ok h1]; rfl
        rw [hr]
        have hok : Ok (.removeAt e) (Res.ok Out.unit s : Res (Index K V) (Out K V)).out a := .inl rfl
        refine ⟨hok, triv hok trivial, F, ?_⟩
        simp only [after, if_neg he]; exact h
      · have hr : step (.removeAt e) s = .err .indexOutOfBounds s := by
          simp only [step]; rw [JM.bind_err h1]
        rw [hr]
        have hok : Ok (.removeAt e) (Res.err .indexOutOfBounds s : Res (Index K V) (Out K V)).out a :=
          .inr ⟨he, rfl⟩
        refine ⟨hok, triv hok trivial, F, ?_⟩
        simp only [after, if_neg he]; exact h
  | removeAtAndReserve e =>
    obtain ⟨s', F', h1, h2, _⟩ := reserve_ok h hg
    have hr : step (.removeAtAndReserve e) s = .ok .unit s' := by
      simp only [step]; rw [JM.bind_ok h1]; rfl
    rw [hr]
    exact ⟨rfl, triv rfl trivial, F', h2⟩
  | freeReservedEntry e =>
    obtain ⟨s', h1, h2, _⟩ := freeReserved_spec h hg
    have hr : step (.freeReservedEntry e) s = .ok .unit s' := by
      simp only [step]; rw [JM.bind_ok h1]; rfl
    rw [hr]
    exact ⟨rfl, triv rfl trivial, _, h2⟩
  | getKeyAt e =>
    have hst : (step (.getKeyAt e) s).state = s := by
      simp only [step, getKeyAt, JM.bind_apply]
      unfold rd; simp only
      split <;> rename_i hh <;> split at hh <;> simp at hh
      · rw [← hh.2]; rfl
      · rw [← hh.2]; rfl
    have hok : Ok (.getKeyAt e) (step (.getKeyAt e) s).out a := by
      intro r hr he
      subst he
      have hrng := row_range h hr
      have : step (.getKeyAt r.entry) s = .ok (.key r.key) s := by
        simp only [step, getKeyAt]
        rw [JM.bind_ok (rd_ok _ ⟨hrng.1, by rw [klen_eq h]; exact hrng.2⟩), (h.rowsOk r hr).1]; rfl
      rw [this]; rfl
    exact ⟨hok, triv hok trivial, F, by rw [hst]; exact h⟩
  | getValueAt e =>
    have hst : (step (.getValueAt e) s).state = s := by
      simp only [step, getValueAt, JM.bind_apply]
      unfold rd; simp only
      split <;> rename_i hh <;> split at hh <;> simp at hh
      · rw [← hh.2]; rfl
      · rw [← hh.2]; rfl
    have hok : Ok (.getValueAt e) (step (.getValueAt e) s).out a := by
      intro r hr he
      subst he
      have hrng := row_range h hr
      have : step (.getValueAt r.entry) s = .ok (.val r.val) s := by
        simp only [step, getValueAt]
        rw [JM.bind_ok (rd_ok _ ⟨hrng.1, by rw [vlen_eq h]; exact hrng.2⟩), (h.rowsOk r hr).2]; rfl
      rw [this]; rfl
    exact ⟨hok, triv hok trivial, F, by rw [hst]; exact h⟩
  | getValueAtOrDefault e d =>
    have hcases : ∃ v, step (.getValueAtOrDefault e d) s = .ok (.val v) s ∧
        (e < 0 → v = d) ∧ (0 ≤ e ∧ e < s.values.len → v = s.values.get e) := by
      simp only [step, getValueAtOrDefault]
      by_cases hh : e < 0 ∨ e ≥ s.values.len
      · refine ⟨d, ?_, fun _ => rfl, fun hh2 => by omega⟩
        refine JM.bind_ok (a := d) (s' := s) ?_
        rw [JM.bind_ok (JM.get_apply _), if_pos hh]; rfl
      · refine ⟨s.values.get e, ?_, fun hh2 => by omega, fun _ => rfl⟩
        refine JM.bind_ok (a := s.values.get e) (s' := s) ?_
        rw [JM.bind_ok (JM.get_apply _), if_neg hh, rd_ok _ ⟨by omega, by omega⟩]
    obtain ⟨v, hr, h1, h2⟩ := hcases
    rw [hr]
    have hok : Ok (.getValueAtOrDefault e d) (Res.ok (Out.val v) s : Res (Index K V) (Out K V)).out a := by
      refine ⟨?_, ?_⟩
      · intro r hr' he
        subst he
        have hrng := row_range h hr'
        rw [h2 ⟨hrng.1, by rw [vlen_eq h]; exact hrng.2⟩, (h.rowsOk r hr').2]; rfl
      · intro hneg; rw [h1 hneg]; rfl
    exact ⟨hok, triv hok trivial, F, h⟩
  | putValueAt e v =>
    rcases wrValues_out e v s with ⟨h0, h1, hw⟩ | ⟨hn, hw⟩
    · have hr : step (.putValueAt e v) s = .ok .unit { s with values := s.values.set e v } := by
        simp only [step, putValueAt]; rw [JM.bind_ok hw]; rfl
      rw [hr]
      have hok : Ok (.putValueAt e v) (Res.ok Out.unit { s with values := s.values.set e v } :
        Res (Index K V) (Out K V)).out a := fun _ => rfl
      exact ⟨hok, triv hok trivial, F, setVal_inv h e v _⟩
    · have hr : step (.putValueAt e v) s = .err .indexOutOfBounds s := by
        simp only [step, putValueAt]; rw [JM.bind_err hw]
      rw [hr]
      have hne : ¬ (e ∈ a.live ∨ e ∈ a.held) := by
        rintro (hh | hh)
        · have := h.live_range hh; rw [vlen_eq h] at hn; exact hn this
        · have := h.held_range hh; rw [vlen_eq h] at hn; exact hn this
      have hok : Ok (.putValueAt e v) (Res.err .indexOutOfBounds s : Res (Index K V) (Out K V)).out a :=
        fun hh => absurd hh hne
      refine ⟨hok, triv hok trivial, F, ?_⟩
      have e1 : Abs.setVal e v a.rows = a.rows := setVal_notin v (fun hh => hne (.inl hh))
      have e2 : Abs.setVal e v a.reserved = a.reserved := setVal_notin v (fun hh => hne (.inr hh))
      simp only [after, e1, e2]
      exact h
  | size =>
    have hr : step .size s = .ok (.int s.size) s := rfl
    rw [hr, h.size]
    exact ⟨rfl, triv rfl trivial, F, h⟩
  | isEmpty =>
    have hr : step .isEmpty s = .ok (.bool (decide (s.size = 0))) s := rfl
    rw [hr]
    have hok : Ok .isEmpty (Res.ok (Out.bool (decide (s.size = 0))) s : Res (Index K V) (Out K V)).out a := by
      simp only [Res.out_ok, Ok]
      congr 2
      have := size_zero h
      cases hrr : a.rows <;> simp_all
    exact ⟨hok, triv hok trivial, F, h⟩
  | capacity =>
    have hr : step .capacity s = .ok (.int s.capacity) s := rfl
    rw [hr]
    have hok : Ok .capacity (Res.ok (Out.int s.capacity) s : Res (Index K V) (Out K V)).out a := by
      refine ⟨s.capacity, rfl, ?_⟩
      have h1 := h.count; have h2 := h.next_le; have h3 := h.next
      omega
    exact ⟨hok, triv hok trivial, F, h⟩
  | forEach =>
    have hr : step .forEach s = .ok (.keys ((order s).map s.keys.get)) s := by
      simp only [step]; rw [JM.bind_ok (forEach_spec h)]; rfl
    rw [hr]
    have hok : Ok .forEach (Res.ok (Out.keys ((order s).map s.keys.get)) s :
        Res (Index K V) (Out K V)).out a := by
      refine ⟨_, rfl, ?_⟩
      rw [← live_keys h]
      exact (order_perm h).map _
    exact ⟨hok, triv hok trivial, F, h⟩
  | forEachEntry =>
    have hr : step .forEachEntry s = .ok (.ints (order s)) s := by
      simp only [step]; rw [JM.bind_ok (forEachEntry_spec h)]; rfl
    rw [hr]
    have hok : Ok .forEachEntry (Res.ok (Out.ints (order s)) s :
        Res (Index K V) (Out K V)).out a := ⟨_, rfl, order_perm h⟩
    exact ⟨hok, triv hok trivial, F, h⟩
  | forEachValue =>
    have hr : step .forEachValue s = .ok (.vals ((order s).map s.values.get)) s := by
      simp only [step]; rw [JM.bind_ok (forEachValue_spec h)]; rfl
    rw [hr]
    have hok : Ok .forEachValue (Res.ok (Out.vals ((order s).map s.values.get)) s :
        Res (Index K V) (Out K V)).out a := by
      refine ⟨_, rfl, ?_⟩
      rw [← live_vals h]
      exact (order_perm h).map _
    exact ⟨hok, triv hok trivial, F, h⟩
  | clear =>
    obtain ⟨s', h1, h2, _⟩ := clear_spec h
    have hr : step .clear s = .ok .unit s' := by
      simp only [step]; rw [JM.bind_ok h1]; rfl
    rw [hr]
    exact ⟨rfl, triv rfl trivial, [], h2⟩
  | setHashMethod hash =>
    by_cases hz : a.rows = []
    · have hsz := (size_zero h).2 hz
      have hr : step (.setHashMethod hash) s = .ok .unit { s with hashFunc := hash } := by
        simp only [step, setHashMethod]
        refine JM.bind_ok (a := ()) (s' := { s with hashFunc := hash }) ?_
        rw [JM.bind_ok (JM.get_apply _), if_neg (by omega)]; rfl
      rw [hr]
      have hok : Ok (.setHashMethod hash) (Res.ok Out.unit { s with hashFunc := hash } :
          Res (Index K V) (Out K V)).out a := by simp only [Res.out_ok, Ok, if_pos hz]
      refine ⟨hok, triv hok trivial, F, ?_⟩
      simp only [after, if_pos hz]
      have hl : a.live = [] := by simp [Abs.live, hz]
      refine { h with hash := rfl, coherent := by simp [hz], chained := ?_, maxHead := ?_ }
      · show Chained s.heads s.nexts _ a.live
        rw [hl]
        exact Chained.empty (fun i h0 h1 => heads_empty h hz h0 h1)
      · refine ⟨h.maxHead.1, ?_⟩
        intro e he
        have he' : e ∈ a.live := he
        rw [hl] at he'; simp at he'
    · have hsz : ¬ s.size = 0 := fun hh => hz ((size_zero h).1 hh)
      have hnn := h.size
      have hr : step (.setHashMethod hash) s = .err .illegalState s := by
        simp only [step, setHashMethod]
        apply JM.bind_err
        rw [JM.bind_ok (JM.get_apply _), if_pos (by omega)]; rfl
      rw [hr]
      have hok : Ok (.setHashMethod hash) (Res.err .illegalState s : Res (Index K V) (Out K V)).out a := by
        simp only [Res.out_err, Ok, if_neg hz]
      refine ⟨hok, triv hok trivial, F, ?_⟩
      simp only [after, if_neg hz]; exact h
  | setEqMethod q =>
    by_cases hz : a.rows = []
    · have hsz := (size_zero h).2 hz
      have hr : step (.setEqMethod q) s = .ok .unit { s with equalFunc := q } := by
        simp only [step, setEqMethod]
        refine JM.bind_ok (a := ()) (s' := { s with equalFunc := q }) ?_
        rw [JM.bind_ok (JM.get_apply _), if_neg (by omega)]; rfl
      rw [hr]
      have hok : Ok (.setEqMethod q) (Res.ok Out.unit { s with equalFunc := q } :
          Res (Index K V) (Out K V)).out a := by simp only [Res.out_ok, Ok, if_pos hz]
      refine ⟨hok, triv hok trivial, F, ?_⟩
      simp only [after, if_pos hz]
      exact { h with eq := rfl, coherent := by simp [hz], distinct := by simp [hz] }
    · have hsz : ¬ s.size = 0 := fun hh => hz ((size_zero h).1 hh)
      have hnn := h.size
      have hr : step (.setEqMethod q) s = .err .illegalState s := by
        simp only [step, setEqMethod]
        apply JM.bind_err
        rw [JM.bind_ok (JM.get_apply _), if_pos (by omega)]; rfl
      rw [hr]
      have hok : Ok (.setEqMethod q) (Res.err .illegalState s : Res (Index K V) (Out K V)).out a := by
        simp only [Res.out_err, Ok, if_neg hz]
      refine ⟨hok, triv hok trivial, F, ?_⟩
      simp only [after, if_neg hz]; exact h

theorem legal (ops : List (Op K V)) : ∀ {s : Index K V} {a : Abs K V} {F : List Int},
    Inv tight s a F → Legal Ok a ops (runM step s ops).1 := by
  induction ops with
  | nil => intro s a F _; trivial
  | cons o os ih =>
    intro s a F h hg
    obtain ⟨h1, _, F', h3⟩ := step_spec h o hg
    exact ⟨h1, ih h3⟩

theorem legal_exact (ht : tight) (ops : List (Op K V)) :
    ∀ {s : Index K V} {a : Abs K V} {F : List Int},
    Inv tight s a F → Legal OkExact a ops (runM step s ops).1 := by
  induction ops with
  | nil => intro s a F _; trivial
  | cons o os ih =>
    intro s a F h hg
    obtain ⟨_, h2, F', h3⟩ := step_spec h o hg
    exact ⟨h2 ht, ih h3⟩

end Index
end Verif

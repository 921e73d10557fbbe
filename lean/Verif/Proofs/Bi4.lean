import Verif.Proofs.Bi3
/-! Proofs about the two-sided collections, part 4: reading, iterating, and every call. -/
set_option linter.unusedSectionVars false
namespace Verif
namespace Bi
open BiSpec
variable {s : Bi} {i : Ideal}

theorem getLeftAt_ok (h : Inv s i) {a : Assoc} (ha : a ∈ i.assocs ∨ a ∈ i.reserved) :
    getLeftAt a.entry s = .ok a.left s := by
  obtain ⟨h1, h2, h3⟩ := key_at h ha
  have hk : onMappings (Index.getKeyAt a.entry) s = .ok (pack a.left a.right) s := by
    rw [onMappings_ok (t := s.mappings) (a := pack a.left a.right)]
    unfold Index.getKeyAt
    rw [rd_ok _ ⟨h1, h2⟩, h3]
  unfold getLeftAt
  rw [JM.bind_ok hk, unpackHi a.right (h.ints a ha).1]
  rfl

theorem getRightAt_ok (h : Inv s i) {a : Assoc} (ha : a ∈ i.assocs ∨ a ∈ i.reserved) :
    getRightAt a.entry s = .ok a.right s := by
  obtain ⟨h1, h2, h3⟩ := key_at h ha
  have hk : onMappings (Index.getKeyAt a.entry) s = .ok (pack a.left a.right) s := by
    rw [onMappings_ok (t := s.mappings) (a := pack a.left a.right)]
    unfold Index.getKeyAt
    rw [rd_ok _ ⟨h1, h2⟩, h3]
  unfold getRightAt
  rw [JM.bind_ok hk, unpackLo a.left (h.ints a ha).2]
  rfl

theorem keyAt_state (e : Int) : (onMappings (Index.getKeyAt e) s).state = s := by
  by_cases hh : 0 ≤ e ∧ e < s.mappings.keys.len
  · have : Index.getKeyAt e s.mappings = .ok (s.mappings.keys.get e) s.mappings := rd_ok _ hh
    rw [onMappings_ok this]; rfl
  · have : Index.getKeyAt e s.mappings = .err .indexOutOfBounds s.mappings := by
      unfold Index.getKeyAt rd; simp only; rw [if_neg hh]
    rw [onMappings_err this]; rfl

theorem getLeftAt_state (e : Int) : (getLeftAt e s).state = s := by
  have := keyAt_state (s := s) e
  unfold getLeftAt
  rw [JM.bind_apply]
  cases hc : onMappings (Index.getKeyAt e) s <;> rw [hc] at this <;> simpa using this

theorem getRightAt_state (e : Int) : (getRightAt e s).state = s := by
  have := keyAt_state (s := s) e
  unfold getRightAt
  rw [JM.bind_apply]
  cases hc : onMappings (Index.getKeyAt e) s <;> rw [hc] at this <;> simpa using this

/-- Reading the mappings only needs the mappings. -/
theorem setCur_inv (h : Inv s i) {d : Dir} {k : Kind} {c : Cur} {c' : Cursor} (hk : c.key = c'.key)
    (hr : ∀ l, c'.rest = some l → c.entry = l.headD (-1) ∧ l <:+ i.entriesOf d c'.key) :
    Inv (setCur d k s c) (i.setCursor d k c') := by
  refine { idx := ?_, many := ?_, key := ?_, sides := ?_, ints := h.ints, curs := ?_ }
  · rw [mappings_setCur]; exact h.idx
  · rw [many_setCur]; exact h.many
  · intro d'; rw [key_setCur]; exact h.key d'
  · intro d' hd
    rw [side_setCur]
    exact h.sides d' (by cases d' <;> exact hd)
  · intro d' k' hd
    have hd' : i.has d' := by cases d' <;> exact hd
    have hof : ∀ key, (i.setCursor d k c').entriesOf d' key = i.entriesOf d' key := fun _ => rfl
    rw [cur_setCur', hof]
    have hcu : (i.setCursor d k c').cursor d' k' = if d' = d ∧ k' = k then c' else i.cursor d' k' := rfl
    rw [hcu]
    by_cases hc : d' = d ∧ k' = k
    · rw [if_pos hc, if_pos hc]
      obtain ⟨rfl, rfl⟩ := hc
      exact ⟨hk, hr⟩
    · rw [if_neg hc, if_neg hc]
      exact h.curs d' k' hd'

/-- Setting the cursor of one iterator. -/
theorem head_read (h : Inv s i) {d : Dir} (hd : i.has d) {key : Int} (h0 : 0 ≤ key)
    (h1 : key < (side d s).heads.len) :
    onSide d (rd Side.heads key) s = .ok ((i.entriesOf d key).headD (-1)) s := by
  have := (h.sides d hd).hd key h0 h1
  rw [ent_pairs] at this
  rw [onSide_ok (rd_ok _ ⟨h0, h1⟩), this, setSide_self]

theorem entries_out (h : Inv s i) {d : Dir} (hd : i.has d) {key : Int}
    (hk : ¬ (key ≥ 0 ∧ key < (side d s).heads.len)) : i.entriesOf d key = [] := by
  rw [← ent_pairs, List.eq_nil_iff_forall_not_mem]
  intro e he
  rw [Side.mem_ent] at he
  have h1 := (h.sides d hd).ks _ he
  have h2 := (h.sides d hd).sp
  simp only at h1
  omega

/-- `reset` of an iterator whose key is `key`. -/
theorem iterReset_entry (h : Inv s i) {d : Dir} (hd : i.has d) :
    iterReset d .entry s = .ok () (setCur d .entry s
      ⟨(cur d .entry s).key, (i.entriesOf d (cur d .entry s).key).headD (-1)⟩) := by
  unfold iterReset
  rw [JM.bind_ok (JM.get_apply _)]
  simp only
  by_cases hc : (cur d .entry s).key ≥ 0 ∧ (cur d .entry s).key < (side d s).heads.len
  · rw [if_pos hc, JM.bind_ok (head_read h hd hc.1 hc.2)]
    rfl
  · rw [if_neg hc, JM.bind_ok (JM.pure_apply _ _), entries_out h hd hc]
    rfl

theorem iterReset_value (h : Inv s i) {d : Dir} (hd : i.has d) :
    (0 ≤ (cur d .value s).key ∧ (cur d .value s).key < (side d s).heads.len ∧
      iterReset d .value s = .ok () (setCur d .value s
        ⟨(cur d .value s).key, (i.entriesOf d (cur d .value s).key).headD (-1)⟩)) ∨
    (¬ (0 ≤ (cur d .value s).key ∧ (cur d .value s).key < (side d s).heads.len) ∧
      iterReset d .value s = .err .indexOutOfBounds s) := by
  unfold iterReset
  rw [JM.bind_ok (JM.get_apply _)]
  simp only
  by_cases hc : 0 ≤ (cur d .value s).key ∧ (cur d .value s).key < (side d s).heads.len
  · left
    refine ⟨hc.1, hc.2, ?_⟩
    rw [JM.bind_ok (head_read h hd hc.1 hc.2)]
    rfl
  · right
    refine ⟨hc, ?_⟩
    have : onSide d (rd Side.heads (cur d .value s).key) s = .err .indexOutOfBounds s := by
      rw [onSide_err (t := side d s) (e := .indexOutOfBounds), setSide_self]
      unfold rd; simp only; rw [if_neg hc]
    rw [JM.bind_err this]

/-- The read of `nexts` in `next`. -/
theorem next_read {d : Dir} {e : Int} :
    (0 ≤ e ∧ e < (side d s).nexts.len ∧
      onSide d (rd Side.nexts e) s = .ok ((side d s).nexts.get e) s) ∨
    (¬ (0 ≤ e ∧ e < (side d s).nexts.len) ∧ onSide d (rd Side.nexts e) s = .err .indexOutOfBounds s) := by
  by_cases hc : 0 ≤ e ∧ e < (side d s).nexts.len
  · left
    refine ⟨hc.1, hc.2, ?_⟩
    rw [onSide_ok (rd_ok _ hc), setSide_self]
  · right
    refine ⟨hc, ?_⟩
    rw [onSide_err (t := side d s) (e := .indexOutOfBounds), setSide_self]
    unfold rd; simp only; rw [if_neg hc]

/-- `next` at an association. -/
theorem next_at (h : Inv s i) {d : Dir} {k : Kind} {a : Assoc} (ha : a ∈ i.assocs)
    (hc : (cur d k s).entry = a.entry) :
    (a.entry < (side d s).nexts.len ∧ next d k s = .ok (a.show d k)
      (setCur d k s ⟨(cur d k s).key, (side d s).nexts.get a.entry⟩)) ∨
    ((side d s).nexts.len ≤ a.entry ∧ next d k s = .err .indexOutOfBounds s) := by
  have hpos := (key_at h (.inl ha)).1
  have hlk : k = .value → lookupFunc d a.entry s = .ok (a.show d k) s := by
    rintro rfl
    cases d
    · exact getRightAt_ok h (.inl ha)
    · exact getLeftAt_ok h (.inl ha)
  have hsh : a.show d .entry = a.entry := by cases d <;> rfl
  unfold next
  rw [JM.bind_ok (JM.get_apply _)]
  simp only
  rw [hc]
  rcases next_read (s := s) (d := d) (e := a.entry) with ⟨_, h2, h3⟩ | ⟨h2, h3⟩
  · left
    refine ⟨h2, ?_⟩
    cases k
    · simp only
      rw [JM.bind_ok (JM.pure_apply _ _), JM.bind_ok h3, hsh]
      rfl
    · simp only
      rw [JM.bind_ok (hlk rfl), JM.bind_ok h3]
      rfl
  · right
    refine ⟨by omega, ?_⟩
    cases k
    · simp only
      rw [JM.bind_ok (JM.pure_apply _ _), JM.bind_err h3]
    · simp only
      rw [JM.bind_ok (hlk rfl), JM.bind_err h3]

/-- `next` at the end. -/
theorem next_end {d : Dir} {k : Kind} (hc : (cur d k s).entry = -1) :
    next d k s = .err .indexOutOfBounds s := by
  have hneg : ∀ {β : Type} (f : Int → JM Bi β),
      (onSide d (rd Side.nexts (-1)) >>= f) s = .err .indexOutOfBounds s := by
    intro β f
    rcases next_read (s := s) (d := d) (e := -1) with ⟨h1, _, _⟩ | ⟨_, h3⟩
    · omega
    · rw [JM.bind_err h3]
  have hkey : onMappings (Index.getKeyAt (-1)) s = .err .indexOutOfBounds s := by
    rw [onMappings_err (t := s.mappings) (e := .indexOutOfBounds)]
    unfold Index.getKeyAt rd; simp only; rw [if_neg (by omega)]
  unfold next
  rw [JM.bind_ok (JM.get_apply _)]
  simp only
  rw [hc]
  cases k
  · simp only
    rw [JM.bind_ok (JM.pure_apply _ _)]
    exact hneg _
  · simp only
    have : lookupFunc d (-1) s = .err .indexOutOfBounds s := by
      cases d
      · show getRightAt (-1) s = _
        unfold getRightAt; rw [JM.bind_err hkey]
      · show getLeftAt (-1) s = _
        unfold getLeftAt; rw [JM.bind_err hkey]
    rw [JM.bind_err this]

/-- Walking a chain all of whose entries have cells. -/
theorem iterAll_ok {d : Dir} {k : Kind} : ∀ (L : List Assoc) (i : Ideal) (s : Bi) (fuel : Nat),
    Inv s i → (∀ a ∈ L, a ∈ i.assocs) → (∀ a ∈ L, a.entry < (side d s).nexts.len) →
    (cur d k s).entry = (L.map (·.entry)).headD (-1) →
    Side.Links (side d s).nexts (side d s).prevs (L.map (·.entry)) → L.length < fuel →
    iterAll d k fuel s = .ok (L.map (Assoc.show d k)) (setCur d k s ⟨(cur d k s).key, -1⟩)
  | [], i, s, fuel + 1, h, _, _, hc, _, _ => by
    have hc' : (cur d k s).entry = -1 := hc
    unfold iterAll
    have hn : hasNext d k s = .ok false s := by
      unfold hasNext
      rw [JM.bind_ok (JM.get_apply _), hc']; rfl
    rw [JM.bind_ok hn]
    simp only [Bool.false_eq_true, if_false, List.map_nil]
    rw [JM.pure_apply]
    congr 1
    have : (⟨(cur d k s).key, -1⟩ : Cur) = cur d k s := by
      cases hh : cur d k s; rw [hh] at hc'; simp at hc' ⊢; exact hc'.symm
    rw [this]
    cases d <;> cases k <;> rfl
  | a :: L, i, s, fuel + 1, h, hm, hb, hc, hl, hf => by
    have ha := hm a (by simp)
    have hc' : (cur d k s).entry = a.entry := hc
    have hpos := (key_at h (.inl ha)).1
    have hlt := hb a (by simp)
    have hn : hasNext d k s = .ok true s := by
      unfold hasNext
      rw [JM.bind_ok (JM.get_apply _), hc', decide_eq_true (by omega)]; rfl
    have hnx : next d k s = .ok (a.show d k)
        (setCur d k s ⟨(cur d k s).key, (L.map (·.entry)).headD (-1)⟩) := by
      rcases next_at h ha hc' with ⟨_, h2⟩ | ⟨h1, _⟩
      · rw [h2, Side.Links.next hl hlt]
      · omega
    unfold iterAll
    rw [JM.bind_ok hn]
    simp only [if_true]
    rw [JM.bind_ok hnx]
    have hI' : Inv (setCur d k s ⟨(cur d k s).key, (L.map (·.entry)).headD (-1)⟩)
        (i.setCursor d k ⟨(cur d k s).key, none⟩) := by
      refine setCur_inv h rfl ?_
      intro l hl; simp at hl
    have ih := iterAll_ok (d := d) (k := k) L (i.setCursor d k ⟨(cur d k s).key, none⟩)
      (setCur d k s ⟨(cur d k s).key, (L.map (·.entry)).headD (-1)⟩) fuel hI'
      (fun b hb' => hm b (List.mem_cons_of_mem _ hb'))
      (fun b hb' => by rw [side_setCur]; exact hb b (List.mem_cons_of_mem _ hb'))
      (by rw [cur_setCur]) (by rw [side_setCur]; exact Side.Links.tail hl)
      (by simp at hf; omega)
    rw [JM.bind_ok ih, JM.pure_apply]
    rw [cur_setCur, setCur_setCur]
    rfl

/-- The result of setting an iterator, and the walk. -/
theorem iterator_spec (h : Inv s i) {d : Dir} (hd : i.has d) (k : Kind) :
    (iterator d k s = .ok () (setCur d k s ⟨i.key d, (i.entriesOf d (i.key d)).headD (-1)⟩) ∧
      (k = .value → 0 ≤ i.key d)) ∨
    (k = .value ∧ ¬ (0 ≤ i.key d ∧ i.key d < i.span d) ∧
      iterator d k s = .err .indexOutOfBounds (setCur d k s { cur d k s with key := i.key d }) ∧
      i.entriesOf d (i.key d) = []) := by
  have hkey := h.key d
  have h' : Inv (setCur d k s { cur d k s with key := i.key d })
      (i.setCursor d k ⟨i.key d, none⟩) := setCur_inv h rfl (by intro l hl; simp at hl)
  have hd' : (i.setCursor d k ⟨i.key d, none⟩).has d := by cases d <;> exact hd
  have hsp := (h.sides d hd).sp
  unfold iterator
  rw [JM.bind_ok (JM.modify_apply _ _), hkey]
  cases k with
  | entry =>
    left
    have := iterReset_entry h' hd'
    rw [cur_setCur, setCur_setCur] at this
    exact ⟨this, by simp⟩
  | value =>
    rcases iterReset_value h' hd' with ⟨g1, g2, g3⟩ | ⟨g1, g2⟩
    · left
      rw [cur_setCur] at g1 g3
      rw [setCur_setCur] at g3
      exact ⟨g3, fun _ => g1⟩
    · right
      rw [cur_setCur, side_setCur] at g1
      simp only at g1
      refine ⟨rfl, by omega, g2, ?_⟩
      exact entries_out h hd (by omega)

theorem listOf_nil {d : Dir} {k : Kind} {key : Int} (h : i.entriesOf d key = []) : i.listOf d k key = [] := by
  unfold Ideal.entriesOf at h
  unfold Ideal.listOf
  rw [List.map_eq_nil_iff] at h
  rw [h]; rfl

theorem of_mem {d : Dir} {key : Int} {a : Assoc} (h : a ∈ i.of d key) : a ∈ i.assocs ∧ a.key d = key := by
  have := List.mem_filter.1 h
  exact ⟨this.1, by simpa using this.2⟩

theorem forEachOf_spec (h : Inv s i) {d : Dir} (hd : i.has d) (k : Kind) :
    ∃ c : Cur, c.key = i.key d ∧
      ((forEachOf d k s = .ok (i.listOf d k (i.key d)) (setCur d k s c) ∧ c.entry = -1 ∧
          (k = .value → 0 ≤ i.key d)) ∨
       (forEachOf d k s = .err .indexOutOfBounds (setCur d k s c) ∧ ¬ i.Covered d (i.key d)) ∨
       (forEachOf d k s = .err .indexOutOfBounds (setCur d k s c) ∧ k = .value ∧
          ¬ (0 ≤ i.key d ∧ i.key d < i.span d) ∧ i.entriesOf d (i.key d) = [])) := by
  rcases iterator_spec h hd k with ⟨h1, hpos⟩ | ⟨h1, h2, h3, h4⟩
  · -- the walk
    have hS := h.sides d hd
    have h' : Inv (setCur d k s ⟨i.key d, (i.entriesOf d (i.key d)).headD (-1)⟩)
        (i.setCursor d k ⟨i.key d, some (i.entriesOf d (i.key d))⟩) := by
      refine setCur_inv h rfl ?_
      intro l hl
      simp only [Option.some.injEq] at hl
      subst hl
      exact ⟨rfl, List.suffix_refl _⟩
    have hd' : (i.setCursor d k ⟨i.key d, some (i.entriesOf d (i.key d))⟩).has d := by
      cases d <;> exact hd
    have hlk := hS.lk (i.key d)
    rw [ent_pairs] at hlk
    have hcurk : (i.setCursor d k ⟨i.key d, some (i.entriesOf d (i.key d))⟩).cursor d k =
        ⟨i.key d, some (i.entriesOf d (i.key d))⟩ := by simp [Ideal.setCursor]
    by_cases hall : ∀ a ∈ i.of d (i.key d), a.entry < (side d s).nexts.len
    · refine ⟨⟨i.key d, -1⟩, rfl, .inl ⟨?_, rfl, hpos⟩⟩
      unfold forEachOf
      rw [JM.bind_ok h1, JM.bind_ok (JM.get_apply _), side_setCur]
      have hlen : (i.of d (i.key d)).length < (side d s).nexts.len + 1 := by
        have hnd : (i.entriesOf d (i.key d)).Nodup := by
          rw [← ent_pairs]; exact Side.ent_nodup hS.nd _
        have h3 : ((i.entriesOf d (i.key d)).map Int.toNat).Nodup := by
          refine List.Nodup.map_on ?_ hnd
          intro x hx y hy hxy
          rw [← ent_pairs, Side.mem_ent] at hx hy
          have := hS.en _ hx; have := hS.en _ hy
          simp only at *
          omega
        have h4 : ((i.entriesOf d (i.key d)).map Int.toNat) ⊆ List.range (side d s).nexts.len := by
          intro x hx
          rw [List.mem_map] at hx
          obtain ⟨y, hy, rfl⟩ := hx
          have hy' := hy
          rw [← ent_pairs, Side.mem_ent] at hy'
          have h0 := hS.en _ hy'
          obtain ⟨a, ha, rfl⟩ := List.mem_map.1 hy
          have := hall a ha
          simp only at h0
          rw [List.mem_range]; omega
        have := (List.subperm_of_subset h3 h4).length_le
        simp [Ideal.entriesOf] at this
        omega
      have := iterAll_ok (d := d) (k := k) (i.of d (i.key d))
        (i.setCursor d k ⟨i.key d, some (i.entriesOf d (i.key d))⟩) (setCur d k s ⟨i.key d, (i.entriesOf d (i.key d)).headD (-1)⟩)
        ((side d s).nexts.len + 1) h' (fun a ha => (of_mem ha).1)
        (fun a ha => by rw [side_setCur]; exact hall a ha) (by rw [cur_setCur]; rfl)
        (by rw [side_setCur]; exact hlk) hlen
      rw [this, cur_setCur, setCur_setCur]
      rfl
    · -- a lone association beyond the cells
      have hnc : ¬ i.Covered d (i.key d) := by
        intro hcov
        apply hall
        intro a ha
        refine Side.covered_bound hS (k := i.key d) ?_ ?_
        · intro x hx; rw [ent_pairs] at hx; exact hcov x hx
        · rw [ent_pairs]; exact List.mem_map_of_mem ha
      have hone : ∃ a, i.of d (i.key d) = [a] ∧ (side d s).nexts.len ≤ a.entry := by
        rcases hof : i.of d (i.key d) with _ | ⟨a, _ | ⟨b, t⟩⟩
        · rw [hof] at hall; simp at hall
        · rw [hof] at hall
          simp at hall
          exact ⟨a, rfl, hall⟩
        · exfalso
          apply hall
          intro x hx
          have hb := Side.Links.bound hlk (by unfold Ideal.entriesOf; rw [hof]; simp)
          exact hb x.entry (List.mem_map_of_mem hx)
      obtain ⟨a, ha1, ha2⟩ := hone
      have ham : a ∈ i.assocs := (of_mem (d := d) (key := i.key d) (by rw [ha1]; simp)).1
      have hent : (i.entriesOf d (i.key d)).headD (-1) = a.entry := by
        unfold Ideal.entriesOf; rw [ha1]; rfl
      refine ⟨⟨i.key d, a.entry⟩, rfl, .inr (.inl ⟨?_, hnc⟩)⟩
      unfold forEachOf
      rw [JM.bind_ok h1, JM.bind_ok (JM.get_apply _), side_setCur, hent]
      rw [hent] at h'
      have hpos := (key_at h (.inl ham)).1
      have hn : hasNext d k (setCur d k s ⟨i.key d, a.entry⟩) = .ok true (setCur d k s ⟨i.key d, a.entry⟩) := by
        unfold hasNext
        rw [JM.bind_ok (JM.get_apply _), cur_setCur]
        simp only
        rw [decide_eq_true (by omega)]; rfl
      unfold iterAll
      rw [JM.bind_ok hn]
      simp only [if_true]
      rcases next_at h' (d := d) (k := k) (a := a) ham (by rw [cur_setCur]) with ⟨g1, _⟩ | ⟨_, g2⟩
      · rw [side_setCur] at g1; omega
      · rw [JM.bind_err g2]
  · refine ⟨{ cur d k s with key := i.key d }, rfl, .inr (.inr ⟨?_, h1, h2, h4⟩)⟩
    unfold forEachOf
    rw [JM.bind_err h3]

theorem count_spec (h : Inv s i) {d : Dir} (hd : i.has d) :
    count d s = if i.counted = false then .err .illegalState s
      else if i.key d < 0 then .err .indexOutOfBounds s
      else .ok (i.of d (i.key d)).length s := by
  have hS := h.sides d hd
  unfold count
  rw [JM.bind_ok (JM.get_apply _), h.key d]
  rcases hS.ct with ⟨c0, c1⟩ | ⟨c0, c, c1, c2, c3⟩
  · rw [if_pos c0]
    have : Side.countOf (i.key d) (side d s) = .err .illegalState (side d s) := by
      unfold Side.countOf
      rw [JM.bind_ok (JM.get_apply _), c1]; rfl
    rw [onSide_err this, setSide_self]
  · rw [if_neg (by rw [c0]; simp)]
    by_cases hneg : i.key d < 0
    · rw [if_pos hneg]
      have : Side.countOf (i.key d) (side d s) = .err .indexOutOfBounds (side d s) := by
        unfold Side.countOf
        rw [JM.bind_ok (JM.get_apply _), c1]
        simp only
        rw [if_pos (by omega)]
        unfold rdA; simp only; rw [if_neg (by omega)]
      rw [onSide_err this, setSide_self]
    · rw [if_neg hneg]
      have : Side.countOf (i.key d) (side d s) = .ok (i.of d (i.key d)).length (side d s) := by
        unfold Side.countOf
        rw [JM.bind_ok (JM.get_apply _), c1]
        simp only
        by_cases hlt : i.key d < c.len
        · rw [if_pos hlt, rdA_ok c ⟨by omega, hlt⟩, c3 _ (by omega) (by omega), ent_pairs]
          simp [Ideal.entriesOf]
        · rw [if_neg hlt]
          have := entries_out h hd (key := i.key d) (by omega)
          unfold Ideal.entriesOf at this
          rw [List.map_eq_nil_iff] at this
          rw [this]; rfl
      rw [onSide_ok this, setSide_self]

/-- One call: the result is right and the invariant is kept. -/
theorem step_spec (h : Inv s i) (o : Op) (hg : Guard o i) :
    Ok o (step o s).out i ∧ Inv (step o s).state (after o (step o s).out i) := by
  cases o with
  | put l r =>
    cases hf : i.find l r with
    | some a =>
      have hr : step (.put l r) s = .ok (.int a.entry) s := by
        simp only [step]; rw [JM.bind_ok (put_present h hg.1 hg.2.1 hf)]; rfl
      rw [hr]
      simp only [Res.out_ok, Res.state_ok, Ok, after, hf]
      exact ⟨trivial, h⟩
    | none =>
      obtain ⟨s', h1, h2, _⟩ := put_absent h hf hg
      have hr : step (.put l r) s = .ok (.int i.alloc) s' := by
        simp only [step]; rw [JM.bind_ok h1]; rfl
      rw [hr]
      simp only [Res.out_ok, Res.state_ok, Ok, after, hf]
      exact ⟨trivial, h2⟩
  | remove l r =>
    cases hf : i.find l r with
    | some a =>
      obtain ⟨s', h1, h2⟩ := remove_present h hg.1 hg.2.1 hf (hg.2.2 a hf)
      have hr : step (.remove l r) s = .ok (.int a.entry) s' := by
        simp only [step]; rw [JM.bind_ok h1]; rfl
      rw [hr]
      simp only [Res.out_ok, Res.state_ok, Ok, after, hf]
      exact ⟨trivial, h2⟩
    | none =>
      have hr : step (.remove l r) s = .ok (.int (-1)) s := by
        simp only [step]; rw [JM.bind_ok (remove_absent h hg.1 hg.2.1 hf)]; rfl
      rw [hr]
      simp only [Res.out_ok, Res.state_ok, Ok, after, hf]
      exact ⟨trivial, h⟩
  | removeAt e =>
    obtain ⟨a, ha, rfl, hrm⟩ := hg
    obtain ⟨s', h1, h2, _⟩ := removeAt_ok h ha hrm
    have hr : step (.removeAt a.entry) s = .ok (.int a.entry) s' := by
      simp only [step]; rw [JM.bind_ok h2]; rfl
    rw [hr]
    exact ⟨rfl, h1⟩
  | removeAtAndReserve e =>
    obtain ⟨a, ha, rfl, hrm⟩ := hg
    obtain ⟨s', h1, h2⟩ := reserve_ok h ha hrm
    have hr : step (.removeAtAndReserve a.entry) s = .ok .unit s' := by
      simp only [step]; rw [JM.bind_ok h1]; rfl
    rw [hr]
    exact ⟨rfl, h2⟩
  | freeReservedEntry e =>
    obtain ⟨s', h1, h2⟩ := free_ok h hg
    have hr : step (.freeReservedEntry e) s = .ok .unit s' := by
      simp only [step]; rw [JM.bind_ok h1]; rfl
    rw [hr]
    exact ⟨rfl, h2⟩
  | contains l r =>
    have hc : contains l r s = .ok (i.find l r).isSome s := by
      unfold contains Index.containsKey
      have h1 := Index.lookupEntry_spec h.idx (pack l r)
      have h2 := Index.entryOf_eq_neg h.idx (pack l r)
      rw [find_toAbs h.ints hg.1 hg.2] at h2
      rw [onMappings_ok (t := s.mappings) (a := (i.find l r).isSome)]
      rw [JM.bind_ok h1]
      rw [JM.pure_apply]
      congr 1
      cases hf : i.find l r with
      | none => rw [hf] at h2; simp [h2.2 rfl]
      | some a =>
        rw [hf] at h2
        simp only [Option.map_some, reduceCtorEq, iff_false] at h2
        simp [h2]
    have hr : step (.contains l r) s = .ok (.bool (i.find l r).isSome) s := by
      simp only [step]; rw [JM.bind_ok hc]; rfl
    rw [hr]
    exact ⟨rfl, h⟩
  | lookupEntry l r =>
    have hr : step (.lookupEntry l r) s =
        .ok (.int (match i.find l r with | some a => a.entry | none => -1)) s := by
      simp only [step, lookupEntry]; rw [JM.bind_ok (lookup_eq h hg.1 hg.2)]; rfl
    rw [hr]
    refine ⟨?_, h⟩
    simp only [Ok, Res.out_ok]
    cases i.find l r <;> rfl
  | size =>
    have hr : step .size s = .ok (.int i.assocs.length) s := by
      simp only [step, getSize]; rw [JM.bind_ok getSize_ok, size_eq h]; rfl
    rw [hr]
    exact ⟨rfl, h⟩
  | getLeftAt e =>
    constructor
    · intro a ha he
      subst he
      simp only [step]; rw [JM.bind_ok (getLeftAt_ok h ha)]; rfl
    · have : (step (.getLeftAt e) s).state = s := by
        have := getLeftAt_state (s := s) e
        simp only [step]; rw [JM.bind_apply]
        cases hc : getLeftAt e s <;> rw [hc] at this <;> simpa using this
      rw [this]; exact h
  | getRightAt e =>
    constructor
    · intro a ha he
      subst he
      simp only [step]; rw [JM.bind_ok (getRightAt_ok h ha)]; rfl
    · have : (step (.getRightAt e) s).state = s := by
        have := getRightAt_state (s := s) e
        simp only [step]; rw [JM.bind_apply]
        cases hc : getRightAt e s <;> rw [hc] at this <;> simpa using this
      rw [this]; exact h
  | forEachEntry =>
    obtain ⟨h1, _, F', h3⟩ := Index.step_spec h.idx (.forEachEntry) trivial
    obtain ⟨l, hl1, hl2⟩ := h1
    have h3' : Index.Inv True (Index.step .forEachEntry s.mappings).state (toAbs i) F' := h3
    have hF : F' = i.free := free_eq h3'
    rw [live_toAbs] at hl2
    -- split the inner call
    cases hc : Index.forEachEntry s.mappings with
    | ok l' m =>
      have hs : Index.step .forEachEntry s.mappings = .ok (.ints l') m := by
        simp only [Index.step]; rw [JM.bind_ok hc]; rfl
      rw [hs] at hl1 h3'
      have hl1' : l' = l := by simpa using hl1
      subst hl1'
      have hr : step .forEachEntry s = .ok (.ints l') { s with mappings := m } := by
        simp only [step, forEachEntry]; rw [JM.bind_ok (onMappings_ok hc)]; rfl
      rw [hr]
      refine ⟨⟨l', rfl, hl2⟩, ?_⟩
      simp only [Res.state_ok, after]
      refine { idx := by rw [← hF]; exact h3', many := h.many, ints := h.ints
               key := fun d => by cases d <;> [exact h.key .left; exact h.key .right]
               sides := fun d hd => by cases d <;> [exact h.sides .left trivial; exact h.sides .right hd]
               curs := fun d k hd => by
                 have := h.curs d k hd
                 cases d <;> cases k <;> exact this }
    | err x m =>
      have hs : Index.step .forEachEntry s.mappings = .err x m := by
        simp only [Index.step]; rw [JM.bind_err hc]
      rw [hs] at hl1; simp at hl1
  | withKey d key =>
    have hr : step (.withKey d key) s = .ok .unit (setMap d s { map d s with key := key }) := by
      simp only [step, withKey]; rw [JM.bind_ok (JM.modify_apply _ _)]; rfl
    rw [hr]
    refine ⟨rfl, ?_⟩
    simp only [Res.state_ok, after]
    refine { idx := by rw [mappings_setMap]; exact h.idx, many := by rw [many_setMap]; exact h.many
             key := ?_, sides := ?_, ints := h.ints, curs := ?_ }
    · intro d'
      rw [map_setMap']
      simp only
      by_cases hc : d' = d
      · rw [if_pos hc, if_pos hc]
      · rw [if_neg hc, if_neg hc]; exact h.key d'
    · intro d' hd'
      rw [side_setMap]
      exact h.sides d' (by cases d' <;> exact hd')
    · intro d' k' hd'
      have := h.curs d' k' (by cases d' <;> exact hd')
      have hcur : cur d' k' (setMap d s { map d s with key := key }) = cur d' k' s := by
        cases d <;> cases d' <;> cases k' <;> rfl
      rw [hcur]
      exact this
  | count d =>
    have hc := count_spec h hg
    have hr : step (.count d) s = if i.counted = false then .err .illegalState s
        else if i.key d < 0 then .err .indexOutOfBounds s
        else .ok (.int (i.of d (i.key d)).length) s := by
      simp only [step]
      rw [JM.bind_apply, hc]
      by_cases h1 : i.counted = false
      · rw [if_pos h1, if_pos h1]
      · rw [if_neg h1, if_neg h1]
        by_cases h2 : i.key d < 0
        · rw [if_pos h2, if_pos h2]
        · rw [if_neg h2, if_neg h2]; rfl
    rw [hr]
    refine ⟨?_, ?_⟩
    · simp only [Ok]
      split
      · rfl
      · split <;> rfl
    · have : (if i.counted = false then .err .illegalState s
        else if i.key d < 0 then .err .indexOutOfBounds s
        else .ok (.int (i.of d (i.key d)).length) s : Res Bi Out).state = s := by
        split
        · rfl
        · split <;> rfl
      rw [this]
      exact h
  | forEachOf d k =>
    obtain ⟨c, hck, hcase⟩ := forEachOf_spec h hg k
    rcases hcase with ⟨h1, h2, h3⟩ | ⟨h1, h2⟩ | ⟨h1, h2, h3, h4⟩
    · have hr : step (.forEachOf d k) s = .ok (.ints (i.listOf d k (i.key d))) (setCur d k s c) := by
        simp only [step]; rw [JM.bind_ok h1]; rfl
      rw [hr]
      refine ⟨⟨fun _ => ?_, .inl rfl⟩, ?_⟩
      · cases k
        · rfl
        · exact ⟨fun _ _ => rfl, fun hn => by have := h3 rfl; omega, .inl rfl⟩
      · simp only [Res.state_ok, Res.out_ok, after]
        refine setCur_inv h hck ?_
        intro l hl
        simp only [Option.some.injEq] at hl
        subst hl
        exact ⟨h2, List.nil_suffix⟩
    · have hr : step (.forEachOf d k) s = .err .indexOutOfBounds (setCur d k s c) := by
        simp only [step]; rw [JM.bind_err h1]
      rw [hr]
      refine ⟨⟨fun hh => absurd hh h2, .inr rfl⟩, ?_⟩
      simp only [Res.state_err, Res.out_err, after]
      exact setCur_inv h hck (by intro l hl; simp at hl)
    · have hr : step (.forEachOf d k) s = .err .indexOutOfBounds (setCur d k s c) := by
        simp only [step]; rw [JM.bind_err h1]
      rw [hr]
      subst h2
      refine ⟨⟨fun _ => ⟨fun h5 h6 => absurd ⟨h5, h6⟩ h3, fun _ => rfl, .inr rfl⟩, .inr rfl⟩, ?_⟩
      simp only [Res.state_err, Res.out_err, after]
      exact setCur_inv h hck (by intro l hl; simp at hl)
  | iterator d k =>
    rcases iterator_spec h hg k with ⟨h1, h2⟩ | ⟨h1, h2, h3, h4⟩
    · have hr : step (.iterator d k) s =
          .ok .unit (setCur d k s ⟨i.key d, (i.entriesOf d (i.key d)).headD (-1)⟩) := by
        simp only [step]; rw [JM.bind_ok h1]; rfl
      rw [hr]
      refine ⟨?_, ?_⟩
      · cases k
        · rfl
        · exact ⟨fun _ _ => rfl, fun hn => by have := h2 rfl; omega, .inl rfl⟩
      · simp only [Res.state_ok, Res.out_ok, after]
        refine setCur_inv h rfl ?_
        intro l hl
        simp only [Option.some.injEq] at hl
        subst hl
        exact ⟨rfl, List.suffix_refl _⟩
    · have hr : step (.iterator d k) s =
          .err .indexOutOfBounds (setCur d k s { cur d k s with key := i.key d }) := by
        simp only [step]; rw [JM.bind_err h3]
      rw [hr]
      subst h1
      refine ⟨⟨fun h5 h6 => absurd ⟨h5, h6⟩ h2, fun _ => rfl, .inr rfl⟩, ?_⟩
      simp only [Res.state_err, Res.out_err, after]
      exact setCur_inv h rfl (by intro l hl; simp at hl)
  | iterReset d k =>
    have hck := (h.curs d k hg).1
    have hsp := (h.sides d hg).sp
    cases k with
    | entry =>
      have h1 := iterReset_entry h hg
      have hr : step (.iterReset d .entry) s = .ok .unit (setCur d .entry s
          ⟨(cur d .entry s).key, (i.entriesOf d (cur d .entry s).key).headD (-1)⟩) := by
        simp only [step]; rw [JM.bind_ok h1]; rfl
      rw [hr]
      refine ⟨rfl, ?_⟩
      simp only [Res.state_ok, Res.out_ok, after]
      refine setCur_inv h hck ?_
      intro l hl
      simp only [Option.some.injEq] at hl
      subst hl
      rw [hck]
      exact ⟨rfl, List.suffix_refl _⟩
    | value =>
      rcases iterReset_value h hg with ⟨g1, g2, g3⟩ | ⟨g1, g2⟩
      · have hr : step (.iterReset d .value) s = .ok .unit (setCur d .value s
            ⟨(cur d .value s).key, (i.entriesOf d (cur d .value s).key).headD (-1)⟩) := by
          simp only [step]; rw [JM.bind_ok g3]; rfl
        rw [hr]
        rw [hck] at g1
        refine ⟨⟨fun _ _ => rfl, fun hn => by omega, .inl rfl⟩, ?_⟩
        simp only [Res.state_ok, Res.out_ok, after]
        refine setCur_inv h hck ?_
        intro l hl
        simp only [Option.some.injEq] at hl
        subst hl
        rw [hck]
        exact ⟨rfl, List.suffix_refl _⟩
      · have hr : step (.iterReset d .value) s = .err .indexOutOfBounds s := by
          simp only [step]; rw [JM.bind_err g2]
        rw [hr]
        rw [hck] at g1
        refine ⟨⟨fun h5 h6 => absurd ⟨h5, by omega⟩ g1, fun _ => rfl, .inr rfl⟩, ?_⟩
        simp only [Res.state_err, Res.out_err, after]
        have hs : setCur d .value s (cur d .value s) = s := by cases d <;> rfl
        have := setCur_inv (d := d) (k := .value) h (c := cur d .value s)
          (c' := ⟨(i.cursor d .value).key, none⟩) hck (by intro l hl; simp at hl)
        rw [hs] at this
        exact this
  | hasNext d k =>
    have hr : step (.hasNext d k) s = .ok (.bool (decide ((cur d k s).entry ≠ -1))) s := by
      simp only [step, hasNext]; rw [JM.bind_ok (JM.bind_ok (JM.get_apply _))]; rfl
    rw [hr]
    refine ⟨?_, h⟩
    intro l hl
    obtain ⟨h1, h2⟩ := (h.curs d k hg.1).2 l hl
    rw [h1]
    cases l with
    | nil => rfl
    | cons e l =>
      have he : e ∈ i.entriesOf d (i.cursor d k).key := h2.subset (by simp)
      rw [← ent_pairs, Side.mem_ent] at he
      have := (h.sides d hg.1).en _ he
      simp only at this
      simp only [List.headD_cons, Res.out_ok, List.isEmpty_cons, Bool.not_false]
      have : e ≠ -1 := by omega
      simp [this]
  | next d k =>
    cases hrest : (i.cursor d k).rest with
    | none => exact absurd hrest hg.2
    | some l =>
      obtain ⟨h1, h2⟩ := (h.curs d k hg.1).2 l hrest
      cases l with
      | nil =>
        have hr : step (.next d k) s = .err .indexOutOfBounds s := by
          simp only [step]; rw [JM.bind_err (next_end h1)]
        rw [hr]
        simp only [Ok, after, hrest, Res.out_err, Res.state_err]
        exact ⟨trivial, h⟩
      | cons e l =>
        have he : e ∈ i.entriesOf d (i.cursor d k).key := h2.subset (by simp)
        obtain ⟨a, ha, hae⟩ := List.mem_map.1 he
        obtain ⟨ham, hakey⟩ := of_mem ha
        have hS := h.sides d hg.1
        have hlk : Side.Links (side d s).nexts (side d s).prevs (e :: l) := by
          have := hS.lk (i.cursor d k).key
          rw [ent_pairs] at this
          obtain ⟨t, ht⟩ := h2
          rw [← ht] at this
          exact Side.Links.append this
        rcases next_at h ham (d := d) (k := k) (by rw [h1, hae]; rfl) with ⟨g1, g2⟩ | ⟨g1, g2⟩
        · have hr : step (.next d k) s = .ok (.int (a.show d k))
              (setCur d k s ⟨(cur d k s).key, (side d s).nexts.get a.entry⟩) := by
            simp only [step]; rw [JM.bind_ok g2]; rfl
          rw [hr]
          simp only [Ok, after, hrest, Res.out_ok, Res.state_ok]
          refine ⟨⟨a, ham, hae, hakey, fun _ => rfl, .inl rfl⟩, ?_⟩
          refine setCur_inv h (h.curs d k hg.1).1 ?_
          intro l' hl'
          simp only [Option.some.injEq] at hl'
          subst hl'
          refine ⟨?_, (List.suffix_cons _ _).trans h2⟩
          simp only
          rw [hae] at g1 ⊢
          exact Side.Links.next hlk g1
        · have hr : step (.next d k) s = .err .indexOutOfBounds s := by
            simp only [step]; rw [JM.bind_err g2]
          rw [hr]
          simp only [Ok, after, hrest, Res.out_err, Res.state_err]
          refine ⟨⟨a, ham, hae, hakey, fun hcov => ?_, .inr trivial⟩, h⟩
          exfalso
          have := Side.covered_bound hS (k := (i.cursor d k).key) (e := a.entry)
            (by intro x hx; rw [ent_pairs] at hx; exact hcov x hx)
            (by rw [ent_pairs, hae]; exact he)
          omega

end Bi
end Verif

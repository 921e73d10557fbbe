import Verif.Proofs.Heap4
set_option linter.unusedSectionVars false
/-! The heap refines the ideal heap: clearing, defaults, readers, every call. -/
namespace Verif.HeapProof
open Verif.HeapSpec Verif.Heap
variable {K V : Type}

theorem rd_oob {σ α : Type} (arr : σ → Arr α) {i : Int} {s : σ} (h : ¬ (0 ≤ i ∧ i < (arr s).len)) :
    rd arr i s = .err .indexOutOfBounds s := by simp only [rd, if_neg h]

theorem wr_oob {σ α : Type} (arr : σ → Arr α) (put : σ → Arr α → σ) {i : Int} {v : α} {s : σ}
    (h : ¬ (0 ≤ i ∧ i < (arr s).len)) :
    wr arr put i v s = .err .indexOutOfBounds s := by simp only [wr, if_neg h]

theorem fillAll_ok' {σ β : Type} (a : Arr β) (v : β) (s : σ) :
    (fillAll a v : JM σ (Arr β)) s = .ok (a.fillRange v 0 a.len) s := by
  unfold fillAll; exact fill_ok a v (by omega)

theorem fillAll_get' {β : Type} (a : Arr β) (v : β) {i : Int} (h : 0 ≤ i ∧ i < a.len) :
    (a.fillRange v 0 a.len).get i = v := by
  rw [Arr.get_fillRange, if_pos (by omega)]

theorem clear_spec [BEq K] [BEq V] {s : Heap K V} {a : Abs K V} (h : Inv s a) :
    ∃ s', Heap.clear s = .ok () s' ∧ Inv s' (after .clear a) ∧
      ∀ P, Ordered P s a → Ordered P s' (after .clear a) := by
  have hil := h.good.il
  have hkl := h.good.kl
  have hvl := h.vl
  have hsl := h.size_le
  have hul := h.used_le
  have hsz := h.sz
  unfold Heap.clear
  rw [JM.bind_ok (JM.get_apply _), JM.bind_ok (fillAll_ok' _ _ _), JM.bind_ok (JM.modify_apply _ _),
    JM.bind_ok (fillAll_ok' _ _ _), JM.bind_ok (JM.modify_apply _ _),
    JM.bind_ok (fill_ok _ _ (by omega)), JM.bind_ok (JM.modify_apply _ _),
    JM.bind_ok (fill_ok _ _ (by omega)), JM.bind_ok (JM.modify_apply _ _), JM.bind_ok (JM.modify_apply _ _)]
  refine ⟨_, rfl, ?_, fun P ho => ⟨ho.tot, by simp [after], fun p h0 h1 => ?_⟩⟩
  · exact {
      vl := h.vl
      cap := h.cap
      sz := rfl
      fc := rfl
      nd := List.nodup_nil
      mem := fun e => by
        simp only [after, List.not_mem_nil, false_iff]
        rintro ⟨p, p0, p1, _⟩
        have : p < 0 := p1
        omega
      fr := fun i hi => by simp [after] at hi
      good := ⟨h.good.il, h.good.kl, by show (0 : Int) ≤ (s.tree.len : Int); omega, fun p p0 p1 => by
        have : p < 0 := p1
        omega⟩
      rng := fun e he => by simp [after] at he
      all := fun e h0 h1 => by
        have : e < 0 := h1
        omega
      unused := fun e h0 h1 => by
        have h0' : (0 : Int) ≤ e := h0
        have h1' : e < (s.tree.len : Int) := h1
        exact fillAll_get' _ _ (by omega)
      big := by show (0 : Int) ≤ _; omega
      keys := fun e h0 h1 => by
        have h1' : e < (s.tree.len : Int) := h1
        show (s.keys.fillRange s.defaultKey 0 s.size).get e = if _ then a.dk else a.keyOf e
        rw [Arr.get_fillRange, h.dk, ← hsz]
        by_cases hc : e < s.size
        · rw [if_pos (by omega), if_pos ⟨h0, hc⟩]
        · rw [if_neg (by omega), if_neg (by omega)]; exact h.keys e h0 h1'
      vals := fun e h0 h1 => by
        have h1' : e < (s.tree.len : Int) := h1
        show (s.values.fillRange s.defaultValue 0 s.size).get e = if _ then a.dv else a.valOf e
        rw [Arr.get_fillRange, h.dv, ← hsz]
        by_cases hc : e < s.size
        · rw [if_pos (by omega), if_pos ⟨h0, hc⟩]
        · rw [if_neg (by omega), if_neg (by omega)]; exact h.vals e h0 h1'
      keysB := fun e h0 => by
        have h0' : (s.tree.len : Int) ≤ e := h0
        show (if _ then a.dk else a.keyOf e) = a.dk
        rw [if_neg (by omega)]; exact h.keysB e h0'
      valsB := fun e h0 => by
        have h0' : (s.tree.len : Int) ≤ e := h0
        show (if _ then a.dv else a.valOf e) = a.dv
        rw [if_neg (by omega)]; exact h.valsB e h0'
      cmp := h.cmp
      dk := h.dk
      dv := h.dv }
  · have : p < 0 := h1
    omega

theorem live_nil {s : Heap K V} {a : Abs K V} (h : Inv s a) : a.live = [] ↔ s.size = 0 := by
  rw [h.sz, ← List.length_eq_zero_iff]; omega

theorem setDefaultKey_spec [BEq K] [BEq V] {s : Heap K V} {a : Abs K V} (h : Inv s a) (k : K) :
    ∃ s', Heap.setDefaultKey k s =
        (if a.live = [] then .ok () s' else .err .unsupported s') ∧
      Inv s' (after (.setDefaultKey k) a) ∧
      ∀ P, Ordered P s a → Ordered P s' (after (.setDefaultKey k) a) := by
  have hln := live_nil h
  have hsz := h.sz
  have hkl := h.good.kl
  unfold Heap.setDefaultKey
  rw [JM.bind_ok (JM.get_apply _)]
  by_cases hl : a.live = []
  · have h0 := hln.1 hl
    rw [if_neg (by omega)]
    simp only [if_pos hl]
    by_cases hk : (s.defaultKey == k) = true
    · rw [if_pos hk]
      rw [h.dk] at hk
      have : after (.setDefaultKey k) a = a := by simp only [after]; rw [if_pos (.inr hk)]
      rw [this]
      exact ⟨s, rfl, h, fun _ ho => ho⟩
    · rw [if_neg hk]
      rw [JM.bind_ok (JM.modify_apply _ _), JM.bind_ok (fill_ok _ _ (by omega)), JM.modify_apply]
      rw [h.dk] at hk
      have : after (.setDefaultKey k) a = { a with dk := k, keyOf := fun _ => k } := by
        simp only [after]; rw [if_neg (fun hx => hx.elim (fun h => h hl) hk)]
      rw [this]
      refine ⟨_, rfl, { h with
        good := ⟨h.good.il, h.good.kl, h.good.ml, h.good.at'⟩
        keys := fun e h1 h2 => ?_
        keysB := fun _ _ => rfl
        dk := rfl }, fun P ho => ⟨ho.tot, fun e he => ?_, fun p p0 p1 => ?_⟩⟩
      · have h2' : e < (s.tree.len : Int) := h2
        show (s.keys.fillRange k s.size s.keys.len).get e = k
        rw [Arr.get_fillRange, if_pos (by omega)]
      · have he' : e ∈ a.live := he
        rw [hl] at he'; simp at he'
      · have p1' : p < s.size := p1
        omega
  · have h0 : s.size ≠ 0 := fun hx => hl (hln.2 hx)
    rw [if_pos (by omega)]
    simp only [if_neg hl]
    have : after (.setDefaultKey k) a = a := by simp only [after]; rw [if_pos (.inl hl)]
    rw [this]
    exact ⟨s, rfl, h, fun _ ho => ho⟩

theorem setDefaultValue_spec [BEq K] [BEq V] {s : Heap K V} {a : Abs K V} (h : Inv s a) (v : V) :
    ∃ s', Heap.setDefaultValue v s =
        (if a.live = [] then .ok () s' else .err .runtime s') ∧
      Inv s' (after (.setDefaultValue v) a) ∧
      ∀ P, Ordered P s a → Ordered P s' (after (.setDefaultValue v) a) := by
  have hln := live_nil h
  have hsz := h.sz
  have hvl := h.vl
  unfold Heap.setDefaultValue
  rw [JM.bind_ok (JM.get_apply _)]
  by_cases hl : a.live = []
  · have h0 := hln.1 hl
    rw [if_neg (by omega)]
    simp only [if_pos hl]
    by_cases hk : (s.defaultValue == v) = true
    · rw [if_pos hk]
      rw [h.dv] at hk
      have : after (.setDefaultValue v) a = a := by simp only [after]; rw [if_pos (.inr hk)]
      rw [this]
      exact ⟨s, rfl, h, fun _ ho => ho⟩
    · rw [if_neg hk]
      rw [JM.bind_ok (JM.modify_apply _ _), JM.bind_ok (fill_ok _ _ (by omega)), JM.modify_apply]
      rw [h.dv] at hk
      have : after (.setDefaultValue v) a = { a with dv := v, valOf := fun _ => v } := by
        simp only [after]; rw [if_neg (fun hx => hx.elim (fun h => h hl) hk)]
      rw [this]
      refine ⟨_, rfl, { h with
        good := ⟨h.good.il, h.good.kl, h.good.ml, h.good.at'⟩
        vals := fun e h1 h2 => ?_
        valsB := fun _ _ => rfl
        dv := rfl }, fun P ho => ⟨ho.tot, ho.keys, ho.ord⟩⟩
      have h2' : e < (s.tree.len : Int) := h2
      show (s.values.fillRange v s.size s.values.len).get e = v
      rw [Arr.get_fillRange, if_pos (by omega)]
  · have h0 : s.size ≠ 0 := fun hx => hl (hln.2 hx)
    rw [if_pos (by omega)]
    simp only [if_neg hl]
    have : after (.setDefaultValue v) a = a := by simp only [after]; rw [if_pos (.inl hl)]
    rw [this]
    exact ⟨s, rfl, h, fun _ ho => ho⟩

/-! Readers -/

theorem isValid_spec {s : Heap K V} {a : Abs K V} (h : Inv s a) (e : Int) :
    isValidEntry e s = if e < 0 then .err .indexOutOfBounds s
      else .ok (decide (e ∈ a.live ∨
        (a.live ≠ [] ∧ ((a.live.length + a.freed.length : Nat) : Int) ≤ e ∧ e < a.cap))) s := by
  have hil := h.good.il
  have hcap := h.cap
  have hsz := h.sz
  have hln := live_nil h
  have hu : used a = ((a.live.length + a.freed.length : Nat) : Int) := by unfold used; push_cast; rfl
  unfold isValidEntry
  rw [JM.bind_ok (JM.get_apply _)]
  by_cases h1 : e < (s.inverse.len : Int)
  · rw [if_pos h1]
    by_cases h0 : e < 0
    · rw [if_pos h0]
      exact JM.bind_err (rd_oob _ (by omega))
    · rw [if_neg h0, JM.bind_ok (rd_ok _ (by omega))]
      by_cases hl : e ∈ a.live
      · obtain ⟨n0, n1, n2⟩ := h.inv_live hl
        rw [if_pos n0, JM.bind_ok (rd_ok _ (by omega))]
        simp [hl, n1]
      · by_cases hx : e < used a
        · rcases h.all e (by omega) hx with hy | hy
          · exact absurd hy hl
          · have := h.inv_freed hy
            rw [if_pos (by omega), JM.bind_ok (rd_ok _ (by omega))]
            have e1 : ¬ s.inverse.get e < s.size := by omega
            have e2 : ¬ (e ∈ a.live ∨ (a.live ≠ [] ∧ ((a.live.length + a.freed.length : Nat) : Int) ≤ e ∧
              e < a.cap)) := by
              rintro (hz | ⟨_, hz, _⟩)
              · exact hl hz
              · omega
            rw [decide_eq_false e1, decide_eq_false e2]; rfl
        · rw [h.unused e (by omega) (by omega), if_pos (by omega), JM.bind_ok (rd_ok _ (by omega)),
            h.unused e (by omega) (by omega)]
          by_cases hz : a.live = []
          · have e1 : ¬ (0 < s.size) := by rw [hln.1 hz]; omega
            have e2 : ¬ (e ∈ a.live ∨ (a.live ≠ [] ∧ ((a.live.length + a.freed.length : Nat) : Int) ≤ e ∧
              e < a.cap)) := by
              rintro (hw | ⟨hw, _, _⟩)
              · exact hl hw
              · exact hw hz
            rw [decide_eq_false e1, decide_eq_false e2]; rfl
          · have e1 : 0 < s.size := by
              have : s.size ≠ 0 := fun hx => hz (hln.2 hx)
              omega
            have e2 : (e ∈ a.live ∨ (a.live ≠ [] ∧ ((a.live.length + a.freed.length : Nat) : Int) ≤ e ∧
              e < a.cap)) := .inr ⟨hz, by omega, by omega⟩
            rw [decide_eq_true e1, decide_eq_true e2]; rfl
  · rw [if_neg h1, if_neg (by omega)]
    have e2 : ¬ (e ∈ a.live ∨ (a.live ≠ [] ∧ ((a.live.length + a.freed.length : Nat) : Int) ≤ e ∧
      e < a.cap)) := by
      rintro (hw | ⟨_, _, hw⟩)
      · have := h.rng e (.inl hw); have := h.used_le; omega
      · omega
    rw [decide_eq_false e2]; rfl

theorem forEachLoop_spec {s : Heap K V} {a : Abs K V} (h : Inv s a) : ∀ (n : Nat) (m : Nat), m + n = a.live.length →
    forEachLoop n m s =
      .ok (((List.range' m n).map Int.ofNat).filter fun e => decide (e ∈ a.live)) s
  | 0, m, _ => rfl
  | n + 1, m, hm => by
    rw [forEachLoop, JM.bind_ok (by rw [isValid_spec h, if_neg (by omega)])]
    have ih := forEachLoop_spec h n (m + 1) (by omega)
    push_cast at ih
    rw [JM.bind_ok ih, JM.pure_apply, List.range'_succ, List.map_cons, List.filter_cons]
    have : ¬ (a.live ≠ [] ∧ ((a.live.length + a.freed.length : Nat) : Int) ≤ (m : Int) ∧ (m : Int) < a.cap) := by
      rintro ⟨_, hx, _⟩; omega
    simp only [this, or_false]
    rfl

theorem forEach_spec {s : Heap K V} {a : Abs K V} (h : Inv s a) :
    forEachEntry s = .ok (((List.range a.live.length).map Int.ofNat).filter fun e => decide (e ∈ a.live)) s := by
  have hsz := h.sz
  unfold forEachEntry
  rw [JM.bind_ok (JM.get_apply _)]
  have := forEachLoop_spec h s.size.toNat 0 (by omega)
  rw [show s.size.toNat = a.live.length by omega] at this ⊢
  rw [List.range_eq_range']
  exact this

theorem firstLoop_spec {s : Heap K V} {a : Abs K V} (h : Inv s a) (k : K) : ∀ (n : Nat) (i : Int), 0 ≤ i →
    i + n = s.size →
    (∃ e ∈ a.live, a.cmp.compare k (a.keyOf e) = 0 ∧ firstLoop k n i s = .ok e s) ∨
    ((∀ p, i ≤ p → p < s.size → a.cmp.compare k (a.keyOf (s.tree.get p)) ≠ 0) ∧
      firstLoop k n i s = .ok (-1) s)
  | 0, i, h0, hn => .inr ⟨fun p p0 p1 => by omega, rfl⟩
  | n + 1, i, h0, hn => by
    have hsl := h.size_le
    have hul := h.used_le
    have hkl := h.good.kl
    have hr := h.tree_rng h0 (by omega : i < used a)
    rw [firstLoop, JM.bind_ok (rd_ok _ (by omega)), JM.bind_ok (rd_ok _ (by omega)), JM.bind_ok (JM.get_apply _)]
    rw [h.keys _ hr.1 (by omega), h.cmp]
    by_cases hc : a.cmp.compare k (a.keyOf (s.tree.get i)) = 0
    · rw [if_pos hc]
      exact .inl ⟨_, h.live_at h0 (by omega), hc, rfl⟩
    · rw [if_neg hc]
      rcases firstLoop_spec h k n (i + 1) (by omega) (by omega) with hx | ⟨hx, hy⟩
      · exact .inl hx
      · refine .inr ⟨fun p p0 p1 => ?_, hy⟩
        by_cases hp : p = i
        · rw [hp]; exact hc
        · exact hx p (by omega) p1

theorem first_spec {s : Heap K V} {a : Abs K V} (h : Inv s a) (k : K) :
    (∃ e ∈ a.live, a.cmp.compare k (a.keyOf e) = 0 ∧ getFirstEntry k s = .ok e s) ∨
    (¬ a.Has k ∧ getFirstEntry k s = .ok (-1) s) := by
  have hsz := h.sz
  unfold getFirstEntry
  rw [JM.bind_ok (JM.get_apply _)]
  rcases firstLoop_spec h k s.size.toNat 0 (by omega) (by omega) with hx | ⟨hx, hy⟩
  · exact .inl hx
  · refine .inr ⟨?_, hy⟩
    rintro ⟨e, he, hc⟩
    obtain ⟨p, p0, p1, p2⟩ := (h.mem e).1 he
    rw [← p2] at hc
    exact hx p p0 p1 hc

theorem peek_spec {s : Heap K V} {a : Abs K V} (h : Inv s a) :
    (a.live = [] → Heap.peek s = .err .runtime s) ∧
    (a.live ≠ [] → s.tree.get 0 ∈ a.live ∧ Heap.peek s = .ok (s.tree.get 0) s) := by
  have hln := live_nil h
  have hsz := h.sz
  have hsl := h.size_le
  have hul := h.used_le
  unfold Heap.peek
  rw [JM.bind_ok (JM.get_apply _)]
  constructor
  · intro hl
    rw [if_pos (hln.1 hl)]; rfl
  · intro hl
    have h0 : s.size ≠ 0 := fun hx => hl (hln.2 hx)
    rw [if_neg h0]
    exact ⟨h.live_at (by omega) (by omega), rd_ok _ (by omega)⟩

/-- The root is a minimum. -/
theorem root_min {P : K → Prop} {s : Heap K V} {a : Abs K V} (h : Inv s a) (ho : Ordered P s a) :
    ∀ e ∈ a.live, a.cmp.compare (a.keyOf (s.tree.get 0)) (a.keyOf e) ≤ 0 := by
  intro e he
  obtain ⟨p, p0, p1, p2⟩ := (h.mem e).1 he
  have hsl := h.size_le
  have hul := h.used_le
  have hr := ord_root (pre_of ho.tot) (within_keys h ho.keys) ho.ord p.toNat p (by omega) p0 p1
  have r0 := h.tree_rng (p := 0) (by omega) (by omega)
  have rp := h.tree_rng p0 (by omega : p < used a)
  have hr' : s.comp.compare (s.keys.get (s.tree.get 0)) (s.keys.get (s.tree.get p)) ≤ 0 := hr
  rwa [h.keys _ r0.1 (by omega), h.keys _ rp.1 (by omega), h.cmp, p2] at hr'

/-! Every call -/

theorem step_spec [BEq K] [BEq V] {s : Heap K V} {a : Abs K V} (h : Inv s a) (o : Op K V) (hg : Guard o a) :
    Ok o (step o s).out a ∧ Inv (step o s).state (after o a) ∧
      ∀ P, Ordered P s a → Sane P o → Ordered P (step o s).state (after o a) := by
  have hil := h.good.il
  have hkl := h.good.kl
  have hvl := h.vl
  have hcap := h.cap
  have hsz := h.sz
  have hln := live_nil h
  cases o with
  | insert k =>
    simp only [step, Ok, after]
    by_cases hc : a.Full ∧ a.Stuck
    · rw [if_pos hc, if_pos hc, JM.bind_err (insert_stuck h k hc.1 hc.2)]
      exact ⟨rfl, h, fun _ ho _ => ho⟩
    · rw [if_neg hc, if_neg hc]
      obtain ⟨s', e1, e2, e3⟩ := insert_spec h k hc hg.1 hg.2
      rw [JM.bind_ok e1]
      exact ⟨rfl, e2, fun P ho hk => e3 P ho hk⟩
  | insertKV k v =>
    simp only [step, Ok, after]
    by_cases hc : a.Full ∧ a.Stuck
    · rw [if_pos hc, if_pos hc]
      have : insertKV k v s = .err .resize s := JM.bind_err (insert_stuck h k hc.1 hc.2)
      rw [JM.bind_err this]
      exact ⟨rfl, h, fun _ ho _ => ho⟩
    · rw [if_neg hc, if_neg hc]
      obtain ⟨s', e1, e2, e3⟩ := insertKV_spec h k v hc hg.1 hg.2
      rw [JM.bind_ok e1]
      exact ⟨rfl, e2, fun P ho hk => e3 P ho hk⟩
  | removeAt e =>
    simp only [step, Ok, after]
    by_cases hl : e ∈ a.live
    · rw [if_pos hl, if_pos hl]
      obtain ⟨s', e1, e2, e3⟩ := removeAt_live h hl
      rw [JM.bind_ok e1]
      exact ⟨rfl, e2, fun P ho _ => e3 P ho⟩
    · rw [if_neg hl, if_neg hl]
      by_cases hr : e < 0 ∨ a.cap ≤ e
      · rw [if_pos hr, JM.bind_err (removeAt_range h hr)]
        exact ⟨rfl, h, fun _ ho _ => ho⟩
      · rw [if_neg hr, JM.bind_err (removeAt_dead h (by omega) hl ?_)]
        · exact ⟨rfl, h, fun _ ho _ => ho⟩
        · rcases hg with hg | hg | hg
          · exact .inl hg
          · exact .inr hg
          · exact absurd (.inr hg) hr
  | resetKey e k =>
    simp only [step, Ok, after]
    by_cases hl : e ∈ a.live
    · have hr := h.rng e (.inl hl)
      have hul := h.used_le
      rw [if_pos hl, if_pos (by omega)]
      obtain ⟨s', e1, e2, e3⟩ := resetKey_live h k hl
      rw [JM.bind_ok e1]
      exact ⟨rfl, e2, fun P ho hk => e3 P ho hk⟩
    · have hr : e < 0 ∨ a.cap ≤ e := hg.resolve_left hl
      rw [if_neg hl, if_neg (by omega)]
      have : resetKey e k s = .err .indexOutOfBounds s := by
        unfold resetKey
        exact JM.bind_err (wr_oob _ _ (by omega))
      rw [JM.bind_err this]
      exact ⟨rfl, h, fun _ ho _ => ho⟩
  | setComparator c =>
    cases c with
    | none => exact ⟨rfl, h, fun _ ho _ => ho⟩
    | some c =>
      simp only [step, Ok, after]
      obtain ⟨s', e1, e2, e3⟩ := setComparator_spec h c hg
      rw [JM.bind_ok e1]
      exact ⟨rfl, e2, fun P ho hT => e3 P ho hT⟩
  | clear =>
    simp only [step, Ok]
    obtain ⟨s', e1, e2, e3⟩ := clear_spec h
    rw [JM.bind_ok e1]
    exact ⟨rfl, e2, fun P ho _ => e3 P ho⟩
  | setDefaultKey k =>
    simp only [step, Ok]
    obtain ⟨s', e1, e2, e3⟩ := setDefaultKey_spec h k
    by_cases hl : a.live = []
    · rw [if_pos hl] at e1 ⊢
      rw [JM.bind_ok e1]
      exact ⟨rfl, e2, fun P ho _ => e3 P ho⟩
    · rw [if_neg hl] at e1 ⊢
      rw [JM.bind_err e1]
      exact ⟨rfl, e2, fun P ho _ => e3 P ho⟩
  | setDefaultValue v =>
    simp only [step, Ok]
    obtain ⟨s', e1, e2, e3⟩ := setDefaultValue_spec h v
    by_cases hl : a.live = []
    · rw [if_pos hl] at e1 ⊢
      rw [JM.bind_ok e1]
      exact ⟨rfl, e2, fun P ho _ => e3 P ho⟩
    · rw [if_neg hl] at e1 ⊢
      rw [JM.bind_err e1]
      exact ⟨rfl, e2, fun P ho _ => e3 P ho⟩
  | setValueAt e v =>
    simp only [step, Ok, after, setValueAt]
    by_cases hr : 0 ≤ e ∧ e < a.cap
    · rw [if_pos hr, if_pos hr, JM.bind_ok (wr_ok _ _ (by omega))]
      exact ⟨rfl, setVal_inv h hr v, fun P ho _ => setVal_ordered ho _ _⟩
    · rw [if_neg hr, if_neg hr, JM.bind_err (wr_oob _ _ (by omega))]
      exact ⟨rfl, h, fun _ ho _ => ho⟩
  | peek =>
    obtain ⟨p1, p2⟩ := peek_spec h
    simp only [step, Ok, after]
    by_cases hl : a.live = []
    · rw [JM.bind_err (p1 hl)]
      exact ⟨⟨fun _ => rfl, fun hx => absurd hl hx⟩, h, fun _ ho _ => ho⟩
    · obtain ⟨q1, q2⟩ := p2 hl
      rw [JM.bind_ok q2]
      exact ⟨⟨fun hx => absurd hx hl, fun _ => ⟨_, q1, rfl⟩⟩, h, fun _ ho _ => ho⟩
  | getSize =>
    refine ⟨?_, h, fun _ ho _ => ho⟩
    show Except.ok (Out.int s.size) = _
    rw [hsz]
  | isEmpty =>
    refine ⟨?_, h, fun _ ho _ => ho⟩
    show Except.ok (Out.bool (decide (s.size = 0))) = _
    simp only [hln]
  | getCapacity =>
    refine ⟨?_, h, fun _ ho _ => ho⟩
    show Except.ok (Out.int s.tree.len) = _
    rw [hcap]
  | forEachEntry =>
    simp only [step, Ok, after]
    rw [JM.bind_ok (forEach_spec h)]
    exact ⟨rfl, h, fun _ ho _ => ho⟩
  | isValidEntry e =>
    have hv := isValid_spec h e
    simp only [step, Ok, after]
    by_cases h0 : e < 0
    · rw [if_pos h0] at hv ⊢
      rw [JM.bind_err hv]
      exact ⟨rfl, h, fun _ ho _ => ho⟩
    · rw [if_neg h0] at hv ⊢
      rw [JM.bind_ok hv]
      exact ⟨rfl, h, fun _ ho _ => ho⟩
  | getKeyAt e =>
    simp only [step, Ok, after, getKeyAt]
    by_cases hr : 0 ≤ e ∧ e < a.cap
    · rw [if_pos hr, JM.bind_ok (rd_ok _ (by omega)), h.keys e hr.1 (by omega)]
      exact ⟨rfl, h, fun _ ho _ => ho⟩
    · rw [if_neg hr, JM.bind_err (rd_oob _ (by omega))]
      exact ⟨rfl, h, fun _ ho _ => ho⟩
  | containsKey k =>
    simp only [step, Ok, after, containsKey]
    rcases first_spec h k with ⟨e, he, hc, hx⟩ | ⟨hn, hx⟩
    · have hr := h.rng e (.inl he)
      rw [JM.bind_ok (JM.bind_ok hx)]
      refine ⟨⟨_, rfl, ?_⟩, h, fun _ ho _ => ho⟩
      simp only [decide_eq_true_eq]
      exact ⟨fun _ => ⟨e, he, hc⟩, fun _ => by omega⟩
    · rw [JM.bind_ok (JM.bind_ok hx)]
      refine ⟨⟨_, rfl, ?_⟩, h, fun _ ho _ => ho⟩
      simp [hn]
  | getFirstEntry k =>
    simp only [step, Ok, after]
    rcases first_spec h k with ⟨e, he, hc, hx⟩ | ⟨hn, hx⟩
    · rw [JM.bind_ok hx]
      exact ⟨.inl ⟨e, he, hc, rfl⟩, h, fun _ ho _ => ho⟩
    · rw [JM.bind_ok hx]
      exact ⟨.inr ⟨hn, rfl⟩, h, fun _ ho _ => ho⟩
  | getValueAt e =>
    simp only [step, Ok, after, getValueAt]
    by_cases hr : 0 ≤ e ∧ e < a.cap
    · rw [if_pos hr, JM.bind_ok (rd_ok _ (by omega)), h.vals e hr.1 (by omega)]
      exact ⟨rfl, h, fun _ ho _ => ho⟩
    · rw [if_neg hr, JM.bind_err (rd_oob _ (by omega))]
      exact ⟨rfl, h, fun _ ho _ => ho⟩
  | getValueAtOrDefault e d =>
    simp only [step, Ok, after]
    have : getValueAtOrDefault e d s = if 0 ≤ e ∧ e < a.cap then .ok (a.valOf e) s else .ok d s := by
      unfold getValueAtOrDefault
      rw [JM.bind_ok (JM.get_apply _)]
      by_cases hr : 0 ≤ e ∧ e < a.cap
      · rw [if_pos hr, if_neg (by omega), rd_ok _ (by omega), h.vals e hr.1 (by omega)]
      · rw [if_neg hr, if_pos (by omega)]; rfl
    by_cases hr : 0 ≤ e ∧ e < a.cap
    · rw [if_pos hr] at this ⊢
      rw [JM.bind_ok this]
      exact ⟨rfl, h, fun _ ho _ => ho⟩
    · rw [if_neg hr] at this ⊢
      rw [JM.bind_ok this]
      exact ⟨rfl, h, fun _ ho _ => ho⟩
  | getDefaultKey =>
    refine ⟨?_, h, fun _ ho _ => ho⟩
    show Except.ok (Out.key s.defaultKey) = _
    rw [h.dk]
  | getDefaultValue =>
    refine ⟨?_, h, fun _ ho _ => ho⟩
    show Except.ok (Out.val s.defaultValue) = _
    rw [h.dv]

end Verif.HeapProof

namespace Verif.HeapProof
open Verif.HeapSpec Verif.Heap
variable {K V : Type}

theorem run_spec [BEq K] [BEq V] : ∀ (ops : List (Op K V)) (s : Heap K V) (a : Abs K V), Inv s a → Guarded a ops →
    Legal a ops (runM step s ops).1 ∧ Inv (runM step s ops).2 (ideal a ops) ∧
      ∀ P, Ordered P s a → (∀ o ∈ ops, Sane P o) → Ordered P (runM step s ops).2 (ideal a ops)
  | [], s, a, h, _ => ⟨trivial, h, fun _ ho _ => ho⟩
  | o :: ops, s, a, h, hg => by
    obtain ⟨e1, e2, e3⟩ := step_spec h o hg.1
    obtain ⟨f1, f2, f3⟩ := run_spec ops _ _ e2 hg.2
    refine ⟨⟨e1, f1⟩, f2, fun P ho hs => ?_⟩
    exact f3 P (e3 P ho (hs o List.mem_cons_self)) (fun o' ho' => hs o' (List.mem_cons_of_mem _ ho'))

/-- A new comparator object that orders the live keys puts any heap in order. -/
theorem setComparator_any {s : Heap K V} {a : Abs K V} (h : Inv s a) (c : Comparator K)
    (hc : c.ref ≠ a.cmp.ref) {P : K → Prop} (hP : TotalOn P c.compare) (hk : ∀ e ∈ a.live, P (a.keyOf e)) :
    ∃ s', setComparator (some c) s = .ok () s' ∧ Inv s' { a with cmp := c } ∧
      Ordered P s' { a with cmp := c } := by
  have hcmp := h.cmp
  unfold setComparator
  simp only
  rw [JM.bind_ok (JM.get_apply _)]
  rw [if_neg (by rw [hcmp]; exact fun hx => hc hx.symm)]
  have h1 : Inv { s with comp := c } { a with cmp := c } := { h with
    good := ⟨h.good.il, h.good.kl, h.good.ml, h.good.at'⟩
    cmp := rfl }
  have hs0 : 0 ≤ s.size := by rw [h.sz]; omega
  obtain ⟨s', e1, e2, e3, e4, e5⟩ := rebuild_spec s.size.toNat _ 0 h1 (by omega) (by
    show _ = s.size; omega)
  rw [JM.bind_ok (JM.modify_apply _ _), JM.bind_ok e1]
  refine ⟨_, rfl, { e2 with good := ⟨e2.good.il, e2.good.kl, e2.good.ml, e2.good.at'⟩ }, ?_⟩
  refine ⟨by show TotalOn P s'.comp.compare; rw [e4]; exact hP, hk, ?_⟩
  exact e5 P hP hk (fun p p0 p1 => by omega)

/-- Taking the minimum until the heap is empty. -/
theorem drain_spec {P : K → Prop} : ∀ (fuel : Nat) (s : Heap K V) (a : Abs K V), Inv s a → Ordered P s a →
    a.live.length ≤ fuel →
    ∃ (l : List K) (s' : Heap K V) (a' : Abs K V), drain fuel s = .ok l s' ∧ Inv s' a' ∧ a'.live = [] ∧
      l.Perm (a.live.map a.keyOf) ∧ l.Pairwise (fun x y => a.cmp.compare x y ≤ 0)
  | 0, s, a, h, ho, hf => by
    have : a.live = [] := List.length_eq_zero_iff.mp (by omega)
    exact ⟨[], s, a, rfl, h, this, by simp [this], List.Pairwise.nil⟩
  | fuel + 1, s, a, h, ho, hf => by
    have hln := live_nil h
    rw [drain]
    rw [show (Heap.isEmpty : JM (Heap K V) Bool) = (do return decide ((← get).size = 0)) from rfl]
    rw [JM.bind_ok (s' := s) (a := decide (s.size = 0)) rfl]
    by_cases hl : a.live = []
    · rw [if_pos (by simp [hln.1 hl])]
      exact ⟨[], s, a, rfl, h, hl, by simp [hl], List.Pairwise.nil⟩
    · have h0 : s.size ≠ 0 := fun hx => hl (hln.2 hx)
      rw [if_neg (by simpa using h0)]
      obtain ⟨q1, q2⟩ := (peek_spec h).2 hl
      have hr := h.rng _ (.inl q1)
      have hul := h.used_le
      have hkl := h.good.kl
      obtain ⟨s1, e1, e2, e3⟩ := removeAt_live h q1
      have hlen := List.length_erase_of_mem q1
      obtain ⟨l, s', a', f1, f2, f3, f4, f5⟩ := drain_spec fuel s1 _ e2 (e3 P ho) (by
        show (a.live.erase _).length ≤ fuel; omega)
      have hgone : ((Abs.gone a (s.tree.get 0)).live.map (Abs.gone a (s.tree.get 0)).keyOf) =
          (a.live.erase (s.tree.get 0)).map a.keyOf := by
        refine List.map_congr_left fun x hx => ?_
        have hx' : x ∈ a.live.erase (s.tree.get 0) := hx
        rw [h.nd.mem_erase_iff] at hx'
        show upd a.keyOf (s.tree.get 0) a.dk x = _
        unfold upd; rw [if_neg hx'.1]
      rw [hgone] at f4
      refine ⟨a.keyOf (s.tree.get 0) :: l, s', a', ?_, f2, f3, ?_, ?_⟩
      · rw [JM.bind_ok q2, show Heap.getKeyAt (s.tree.get 0) = (rd Heap.keys (s.tree.get 0) : JM (Heap K V) K) from rfl,
          JM.bind_ok (rd_ok _ (by omega)), JM.bind_ok e1, JM.bind_ok f1, h.keys _ hr.1 (by omega)]
        rfl
      · refine (f4.cons _).trans ?_
        rw [← List.map_cons]
        exact (List.perm_cons_erase q1).symm.map _
      · refine List.pairwise_cons.mpr ⟨fun y hy => ?_, f5⟩
        rw [f4.mem_iff, List.mem_map] at hy
        obtain ⟨x, hx, rfl⟩ := hy
        exact root_min h ho x (List.mem_of_mem_erase hx)

end Verif.HeapProof

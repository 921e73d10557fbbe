import Verif.Proofs.Index4
/-! Proofs about the indexed map, part 5: add, put, reads and writes at entries. -/
set_option linter.unusedSectionVars false
namespace Verif
namespace Index
open IndexSpec
variable {K V : Type} [Inhabited K] [Inhabited V]
variable {tight : Prop} {s : Index K V} {a : Abs K V} {F : List Int}

theorem baseAdd_present (h : Inv tight s a F) {k : K} {r : Row K V} (hf : a.find k = some r) :
    baseAdd k s = .ok r.entry s := by
  obtain ⟨l, t, hp, hfe⟩ := chain_find h k
  obtain ⟨hr, he, h0, h1⟩ := entryOf_nonneg h hf
  have hc : computeHead k s = .ok (headOf s.hashFunc s.heads.len k) s := rfl
  unfold baseAdd
  rw [JM.bind_ok hc, JM.bind_ok (rd_ok _ (h.hd_range k)), JM.bind_ok (JM.get_apply _),
    JM.bind_ok (lookupLoop_spec k s (klen_eq h) _ _ l t hp (by have := hp.length_le; omega)), hfe, he,
    if_pos h0]
  rfl

theorem fresh_alloc (h : Inv tight s a F) {e : Int} (he : e ∈ a.free ∨ e = a.next) : Fresh a e := by
  have h0 := h.next0
  rcases he with he | rfl
  · exact ⟨((h.mem_range e).1 (.inr (.inr he))).1, fun hh => h.live_free hh he,
      fun hh => h.held_free hh he⟩
  · refine ⟨h0, fun hh => ?_, fun hh => ?_⟩
    · have := (h.mem_range _).1 (.inl hh); omega
    · have := (h.mem_range _).1 (.inr (.inl hh)); omega

theorem baseAdd_absent (h : Inv tight s a F) {k : K} (hf : a.find k = none)
    (hc : Coherent a.hash a.eq) (hb : a.rows.length + a.reserved.length + 29 < 2 ^ 29) :
    ∃ e s' F', baseAdd k s = .ok e s' ∧
      (∀ v, Inv tight { s' with values := s'.values.set e v } (a.insert e k v) F') ∧
      (e ∈ a.free ∨ e = a.next) ∧ ((tight → e = a.alloc) ∧ (∀ x F', F = x :: F' → e = x) ∧
        (e = a.next → a.next ≤ a.rows.length + a.reserved.length + 29)) ∧ s'.size = s.size + 1 ∧
      0 ≤ e ∧ e < s'.values.len ∧
      (s'.modificationCount = i32 (s.modificationCount + 1) ∨
       s'.modificationCount = i32 (i32 (s.modificationCount + 1) + 1)) := by
  obtain ⟨l, t, hp, hfe⟩ := chain_find h k
  have hent : entryOf a k = -1 := by unfold entryOf; rw [hf]
  have hch : computeHead k s = .ok (headOf s.hashFunc s.heads.len k) s := rfl
  obtain ⟨e, s1, s2, F2, hal, hre, hR, hmem, hex, hh1, hh2, hsz, hmd⟩ := alloc_spec h hb
  have hr := headOf_range s2.hashFunc hR.hlen.1 hR.hlen.2 k
  refine ⟨e, { s2 with
      heads := s2.heads.set (headOf s2.hashFunc s2.heads.len k) e
      nexts := s2.nexts.set e (if s2.heads.get (headOf s2.hashFunc s2.heads.len k) ≥ 0 then
        s2.heads.get (headOf s2.hashFunc s2.heads.len k) else -(headOf s2.hashFunc s2.heads.len k) - 1)
      keys := s2.keys.set e k
      maxHead := if headOf s2.hashFunc s2.heads.len k > s2.maxHead then
        headOf s2.hashFunc s2.heads.len k else s2.maxHead
      size := s2.size + 1
      modificationCount := i32 (s2.modificationCount + 1) }, F2, ?_, ?_, hmem, hex, ?_, hR.he0, ?_, ?_⟩
  · unfold baseAdd
    rw [JM.bind_ok hch, JM.bind_ok (rd_ok _ (h.hd_range k)), JM.bind_ok (JM.get_apply _),
      JM.bind_ok (lookupLoop_spec k s (klen_eq h) _ _ l t hp (by have := hp.length_le; omega)), hfe,
      hent, if_neg (by decide), JM.bind_ok hal, JM.bind_ok (JM.get_apply _)]
    have htail := register_ok (s := s2) hr.1 hr.2 hR.he0 hR.he1
    have hkl : e < (s2.keys.len : Int) := by
      have := hR.klen; have := hR.nlen; have := hR.he1; omega
    rcases hre with ⟨g1, rfl⟩ | ⟨g1, g2⟩
    · simp only
      rw [if_neg (by omega), JM.bind_ok (JM.pure_apply _ _), ← hh1, ← hh2, JM.bind_ok htail,
        JM.bind_ok (wr_ok _ _ ⟨hR.he0, by exact hkl⟩)]
      rfl
    · have hc2 : computeHead k s2 = .ok (headOf s2.hashFunc s2.heads.len k) s2 := rfl
      simp only
      rw [if_pos g1, JM.bind_ok g2, JM.bind_ok hc2, JM.bind_ok htail,
        JM.bind_ok (wr_ok _ _ ⟨hR.he0, by exact hkl⟩)]
      rfl
  · intro v
    exact inv_register h hc hf hmem hR v _
  · simp only; rw [hsz]
  · have := hR.vlen; have := hR.nlen; have := hR.he1; simp only; omega
  · simp only
    rcases hmd with g | g
    · left; rw [g]
    · right; rw [g]

theorem add_present (h : Inv tight s a F) {k : K} {r : Row K V} (hf : a.find k = some r) :
    add k s = .ok r.entry s := by
  unfold add
  rw [JM.bind_ok (JM.get_apply _), JM.bind_ok (baseAdd_present h hf), JM.bind_ok (JM.get_apply _),
    JM.when_neg (by simp)]
  rfl

/-- Values can be overwritten at live and reserved entries. -/
theorem setVal_inv (h : Inv tight s a F) (e : Int) (v : V) (m : Int) :
    Inv tight { s with values := s.values.set e v, modificationCount := m }
      { a with rows := Abs.setVal e v a.rows, reserved := Abs.setVal e v a.reserved } F := by
  have hl : ∀ l : List (Row K V), (Abs.setVal e v l).map (·.entry) = l.map (·.entry) := by
    intro l
    unfold Abs.setVal
    rw [List.map_map]
    apply List.map_congr_left
    intro r _
    simp only [Function.comp]
    split <;> rfl
  have hrows : ∀ l : List (Row K V), ∀ r ∈ Abs.setVal e v l, ∃ r0 ∈ l, r.entry = r0.entry ∧
      r.key = r0.key ∧ r.val = if r0.entry = e then v else r0.val := by
    intro l r hr
    unfold Abs.setVal at hr
    obtain ⟨r0, h0, rfl⟩ := List.mem_map.1 hr
    refine ⟨r0, h0, ?_⟩
    split <;> simp_all
  have hlive : ({ a with rows := Abs.setVal e v a.rows, reserved := Abs.setVal e v a.reserved } :
    Abs K V).live = a.live := hl _
  have hheld : ({ a with rows := Abs.setVal e v a.rows, reserved := Abs.setVal e v a.reserved } :
    Abs K V).held = a.held := hl _
  have hlen : (Abs.setVal e v a.rows).length = a.rows.length := by simp [Abs.setVal]
  refine { cap := h.cap, nlen := h.nlen, klen := h.klen, vlen := h.vlen, hlen := h.hlen,
           lf := h.lf, thr := h.thr, size := by simp only [hlen]; exact h.size, next := h.next,
           next0 := h.next0, perm := by rw [hlive, hheld]; exact h.perm,
           rowsOk := ?_, distinct := ?_, coherent := ?_, hash := h.hash, eq := h.eq,
           chained := by rw [hlive]; exact h.chained, maxHead := by rw [hlive]; exact h.maxHead,
           free := h.free, freeSub := h.freeSub, leak := h.leak, room := h.room, tight := h.tight,
           ends := h.ends }
  · intro r hr
    have : ∃ r0, (r0 ∈ a.rows ∨ r0 ∈ a.reserved) ∧ r.entry = r0.entry ∧
        r.key = r0.key ∧ r.val = if r0.entry = e then v else r0.val := by
      rcases hr with hr | hr
      · obtain ⟨r0, h0, h1⟩ := hrows _ r hr
        exact ⟨r0, .inl h0, h1⟩
      · obtain ⟨r0, h0, h1⟩ := hrows _ r hr
        exact ⟨r0, .inr h0, h1⟩
    obtain ⟨r0, h0, h1, h2, h3⟩ := this
    have := h.rowsOk r0 h0
    simp only [Arr.get_set]
    rw [h1, h2, h3, this.1, this.2]
    exact ⟨rfl, rfl⟩
  · show (Abs.setVal e v a.rows).Pairwise _
    unfold Abs.setVal
    rw [List.pairwise_map]
    refine h.distinct.imp ?_
    intro r r' hh
    split <;> split <;> exact hh
  · intro hne
    refine h.coherent ?_
    rintro h0
    exact hne (by simp [Abs.setVal, h0])

theorem add_absent (h : Inv tight s a F) {k : K} (hf : a.find k = none)
    (hc : Coherent a.hash a.eq) (hb : a.rows.length + a.reserved.length + 29 < 2 ^ 29) :
    ∃ e s' F', add k s = .ok e s' ∧ Inv tight s' (a.insert e k default) F' ∧
      (∀ v, put k v s = .ok e { s' with values := s'.values.set e v }) ∧
      (∀ v, Inv tight { s' with values := s'.values.set e v } (a.insert e k v) F') ∧
      (e ∈ a.free ∨ e = a.next) ∧ ((tight → e = a.alloc) ∧ (∀ x F', F = x :: F' → e = x) ∧
        (e = a.next → a.next ≤ a.rows.length + a.reserved.length + 29)) ∧
      (s'.modificationCount = i32 (s.modificationCount + 1) ∨
       s'.modificationCount = i32 (i32 (s.modificationCount + 1) + 1)) := by
  obtain ⟨e, s', F', h1, h2, h3, h4, h5, h6, h7, h8⟩ := baseAdd_absent h hf hc hb
  have hadd : add k s = .ok e { s' with values := s'.values.set e default } := by
    unfold add
    rw [JM.bind_ok (JM.get_apply _), JM.bind_ok h1, JM.bind_ok (JM.get_apply _),
      JM.when_pos (by omega), JM.bind_ok (wr_ok _ _ ⟨h6, h7⟩)]
    rfl
  have hss : ∀ v, (s'.values.set e default).set e v = s'.values.set e v := by
    intro v
    unfold Arr.set
    congr 1
    funext j
    by_cases hj : j = e <;> simp [hj]
  refine ⟨e, _, F', hadd, h2 default, ?_, ?_, h3, h4, h8⟩
  · intro v
    unfold put
    rw [JM.bind_ok hadd, JM.bind_ok (wr_ok _ _ ⟨h6, by simpa using h7⟩)]
    rfl
  · intro v
    simp only [hss]
    exact h2 v

theorem setVal_notin {l : List (Row K V)} {e : Int} (v : V) (h : e ∉ l.map (·.entry)) :
    Abs.setVal e v l = l := by
  unfold Abs.setVal
  conv_rhs => rw [← List.map_id l]
  apply List.map_congr_left
  intro r hr
  rw [if_neg]
  · rfl
  · rintro rfl; exact h (List.mem_map_of_mem hr)

theorem put_present (h : Inv tight s a F) {k : K} {r : Row K V} (hf : a.find k = some r) (v : V) :
    put k v s = .ok r.entry { s with values := s.values.set r.entry v } ∧
      Inv tight { s with values := s.values.set r.entry v }
        { a with rows := Abs.setVal r.entry v a.rows } F := by
  obtain ⟨hr, he, h0, h1⟩ := entryOf_nonneg h hf
  constructor
  · unfold put
    rw [JM.bind_ok (add_present h hf), JM.bind_ok (wr_ok _ _ ⟨h0, by rw [vlen_eq h]; exact h1⟩)]
    rfl
  · have := setVal_inv h r.entry v s.modificationCount
    rw [setVal_notin v (l := a.reserved) (h.live_held (mem_live hr))] at this
    exact this

end Index
end Verif

import Verif.Proofs.Catalog2
/-! Proofs about the inverted index of the examples. -/
namespace Verif.InvertedIndex
open Verif.Catalog Verif.CatalogSpec Verif.Convert

theorem stringEq_iff (a b : Option JString) : Strings.stringEq a b = true ↔ a = b := by
  unfold Strings.stringEq KeyTypes.objectsEq
  cases a <;> cases b <;> simp

theorem longEq_iff (a b : BitVec 64) : KeyTypes.longEq a b = true ↔ a = b := by
  unfold KeyTypes.longEq; simp

variable {o : Index (BitVec 64) Unit} {t : Index (Option JString) Unit} {b : Bi}

theorem onOrders_ok {α : Type} {m : JM (Index (BitVec 64) Unit) α} {a : α} {o'} (h : m o = .ok a o') :
    onOrders m ⟨o, t, b⟩ = .ok a ⟨o', t, b⟩ := by
  show (match m o with | .ok a t => _ | .err e t => _) = _
  rw [h]

theorem onTerms_ok {α : Type} {m : JM (Index (Option JString) Unit) α} {a : α} {t'}
    (h : m t = .ok a t') : onTerms m ⟨o, t, b⟩ = .ok a ⟨o, t', b⟩ := by
  show (match m t with | .ok a t => _ | .err e t => _) = _
  rw [h]

theorem onIndex_ok {α : Type} {m : JM Bi α} {a : α} {b'} (h : m b = .ok a b') :
    onIndex m ⟨o, t, b⟩ = .ok a ⟨o, t, b'⟩ := by
  show (match m b with | .ok a t => _ | .err e t => _) = _
  rw [h]

theorem onIndex_err {α : Type} {m : JM Bi α} {a : Err} {b'} (h : m b = .err a b') :
    onIndex m ⟨o, t, b⟩ = .err a ⟨o, t, b'⟩ := by
  show (match m b with | .ok a t => _ | .err e t => _) = _
  rw [h]

/-- After `n` calls of `add` the index holds exactly the facts `F`. -/
def Rel (n : Nat) (s : InvertedIndex) (F : List (Option JString × BitVec 64)) : Prop :=
  ∃ T O i, Dict s.terms T (fun _ => ()) ∧ Dict s.orders O (fun _ => ()) ∧ Bi.Inv s.index i ∧
    LinkA false 128 i T O F ∧ T.length ≤ 2 * n ∧ O.length ≤ n ∧ F.length ≤ 2 * n ∧
    (∀ t ∈ T, ∃ f ∈ F, f.1 = t)

variable {n : Nat} {s : InvertedIndex} {F : List (Option JString × BitVec 64)}

theorem new_rel (h : new = .ok s) : Rel 0 s [] := by
  unfold new at h
  cases h1 : Index.new (V := Unit) KeyTypes.longHash KeyTypes.longEq 128 3 4 with
  | error e => rw [h1] at h; cases h
  | ok orders =>
    cases h2 : Index.new (V := Unit) Strings.stringHash Strings.stringEq 128 3 4 with
    | error e => rw [h1, h2] at h; cases h
    | ok terms =>
      cases h3 : Bi.new false 128 0 128 true with
      | error e => rw [h1, h2, h3] at h; cases h
      | ok index =>
        rw [h1, h2, h3] at h
        cases h
        obtain ⟨i, g1, g2⟩ := new_link (κ := Option JString) (ω := BitVec 64) (c := 128) h3 (by omega) (by omega) (by simp)
        exact ⟨[], [], i, new_dict stringEq_iff h2 (by decide) _, new_dict longEq_iff h1 (by decide) _, g1, g2,
          by simp, by simp, by simp, by simp⟩

theorem record_length {α : Type} [DecidableEq α] (f : α) (l : List α) : (record f l).length ≤ l.length + 1 := by
  unfold record; split <;> simp

theorem mem_record {α : Type} [DecidableEq α] {f x : α} {l : List α} : x ∈ record f l ↔ x = f ∨ x ∈ l := by
  unfold record
  split
  · constructor
    · exact .inr
    · rintro (rfl | h) <;> assumption
  · simp

theorem add_rel (h : Rel n s F) (o : BitVec 64) (sym str : Option JString) (hn : 2 * n + 32 < 2 ^ 29) :
    ∃ s', add o sym str s = .ok () s' ∧ Rel (n + 1) s' (record (str, o) (record (sym, o) F)) := by
  obtain ⟨o0, t0, b0⟩ := s
  obtain ⟨T, O, i, hT, hO, hI, hL, l1, l2, l3, hf⟩ := h
  simp only at hT hO hI
  obtain ⟨so, e1, hO'⟩ := add_dict hO o (by omega)
  obtain ⟨st, e2, hT1⟩ := add_dict hT sym (by omega)
  have len1 := addKey_length (ks := T) sym
  obtain ⟨st2, e3, hT2⟩ := add_dict hT1 str (by omega)
  have len2 := addKey_length (ks := addKey T sym) str
  have len3 := addKey_length (ks := O) o
  have hL2 := ((hL.mono_left sym).mono_left str).mono_right o
  have m1 : sym ∈ addKey (addKey T sym) str := mem_addKey.2 (.inl (mem_addKey.2 (.inr rfl)))
  have m2 : str ∈ addKey (addKey T sym) str := mem_addKey.2 (.inr rfl)
  have m3 : o ∈ addKey O o := mem_addKey.2 (.inr rfl)
  obtain ⟨x1, b1, i1, p1, q1, r1⟩ := link_put hI hL2 m1 m3 (by omega) (by omega) (by omega)
  have len4 := record_length (sym, o) F
  obtain ⟨x2, b2, i2, p2, q2, r2⟩ := link_put q1 r1 m2 m3 (by omega) (by omega) (by omega)
  have len5 := record_length (str, o) (record (sym, o) F)
  have hps : pos (addKey T sym) sym = pos (addKey (addKey T sym) str) sym :=
    (pos_addKey (mem_addKey.2 (.inr rfl))).symm
  rw [← hps] at p1
  refine ⟨⟨so, st2, b2⟩, ?_, _, _, i2, hT2, hO', q2, r2, by omega, by omega, by omega, ?_⟩
  · unfold add
    rw [JM.bind_ok (onOrders_ok e1), JM.bind_ok (onTerms_ok e2), JM.bind_ok (onTerms_ok e3),
      JM.bind_ok (onIndex_ok p1), JM.bind_ok (onIndex_ok p2)]
    rfl
  · intro t ht
    rcases mem_addKey.1 ht with ht | rfl
    · rcases mem_addKey.1 ht with ht | rfl
      · obtain ⟨f, h1, h2⟩ := hf t ht
        exact ⟨f, mem_record.2 (.inr (mem_record.2 (.inr h1))), h2⟩
      · exact ⟨(t, o), mem_record.2 (.inr (mem_record.2 (.inl rfl))), rfl⟩
    · exact ⟨(t, o), mem_record.2 (.inl rfl), rfl⟩

theorem absent {T : List (Option JString)} {O : List (BitVec 64)} {i} (hL : LinkA false 128 i T O F)
    {t : Option JString} (ht : t ∉ T) : ordersOf t F = [] := by
  unfold ordersOf
  rw [List.map_eq_nil_iff, List.filter_eq_nil_iff]
  intro f hf
  simp only [decide_eq_true_eq]
  rintro rfl
  exact ht (hL.mem f hf).1

theorem count_rel (h : Rel n s F) (t : Option JString) :
    ∃ s', count t s = .ok ((ordersOf t F).length : Int) s' ∧ Rel n s' F := by
  obtain ⟨o0, t0, b0⟩ := s
  obtain ⟨T, O, i, hT, hO, hI, hL, l1, l2, l3, hf⟩ := h
  simp only at hT hO hI
  unfold count
  rw [JM.bind_ok (onTerms_ok (lookup hT t))]
  by_cases ht : t ∈ T
  · obtain ⟨h0, h1⟩ := pos_nonneg ht
    rw [if_pos (by omega)]
    obtain ⟨b1, i1, p1, q1, r1, k1, -⟩ := link_withKey hI hL .left (pos T t)
    obtain ⟨b2, p2, q2⟩ := link_count q1 r1 (d := .left) trivial (by omega)
    rw [JM.bind_ok (onIndex_ok p1), onIndex_ok p2]
    rw [k1, of_length, pairs_left r1 ht]
    refine ⟨⟨o0, t0, b2⟩, by simp [ordersOf], T, O, i1, hT, hO, q2, r1, l1, l2, l3, hf⟩
  · rw [absent hL ht]
    simp only [pos, if_neg ht]
    exact ⟨_, rfl, T, O, i, hT, hO, hI, hL, l1, l2, l3, hf⟩

theorem ordersAt_ok {O : List (BitVec 64)} (hO : Dict o O fun _ => ()) :
    ∀ l : List (BitVec 64), (∀ x ∈ l, x ∈ O) → ordersAt (l.map (pos O)) ⟨o, t, b⟩ = .ok l ⟨o, t, b⟩
  | [], _ => rfl
  | x :: l, hl => by
    unfold ordersAt
    simp only [List.map_cons]
    rw [JM.bind_ok (onOrders_ok (keyAt hO (hl x (by simp)))),
      JM.bind_ok (ordersAt_ok hO l fun y hy => hl y (List.mem_cons_of_mem _ hy))]
    rfl

theorem iterate_rel (h : Rel n s F) (t : Option JString) :
    ∃ s', Rel n s' F ∧ (iterate t s = .ok (ordersOf t F) s' ∨
      iterate t s = .err .indexOutOfBounds s' ∧ 128 < F.length ∧ (ordersOf t F).length = 1) := by
  obtain ⟨o0, t0, b0⟩ := s
  obtain ⟨T, O, i, hT, hO, hI, hL, l1, l2, l3, hf⟩ := h
  simp only at hT hO hI
  unfold iterate
  rw [JM.bind_ok (onTerms_ok (lookup hT t))]
  by_cases ht : t ∈ T
  · obtain ⟨h0, h1⟩ := pos_nonneg ht
    rw [if_pos (by omega)]
    obtain ⟨b1, i1, p1, q1, r1, k1, -⟩ := link_withKey hI hL .left (pos T t)
    obtain ⟨b2, i2, q2, r2, hw⟩ := link_walk q1 r1 (d := .left) trivial (by omega)
    rw [JM.bind_ok (onIndex_ok p1)]
    rw [of_length, k1, pairs_left r1 ht] at hw
    rcases hw with hw | ⟨hw, hc⟩
    · rw [JM.bind_ok (onIndex_ok hw)]
      have e : (F.filter fun f => f.1 = t).map (fun f => pos O f.2) = (ordersOf t F).map (pos O) := by
        unfold ordersOf; rw [List.map_map]; rfl
      rw [e]
      have := ordersAt_ok (t := t0) (b := b2) hO (ordersOf t F) (by
        intro x hx
        unfold ordersOf at hx
        obtain ⟨f, g1, rfl⟩ := List.mem_map.1 hx
        exact (hL.mem f (List.mem_filter.1 g1).1).2)
      exact ⟨⟨o0, t0, b2⟩, ⟨T, O, i2, hT, hO, q2, r2, l1, l2, l3, hf⟩, .inl this⟩
    · rw [JM.bind_err (onIndex_err hw)]
      refine ⟨⟨o0, t0, b2⟩, ⟨T, O, i2, hT, hO, q2, r2, l1, l2, l3, hf⟩, .inr ⟨rfl, ?_⟩⟩
      have hne : ordersOf t F ≠ [] := by
        obtain ⟨f, g1, g2⟩ := hf t ht
        intro h'
        unfold ordersOf at h'
        rw [List.map_eq_nil_iff, List.filter_eq_nil_iff] at h'
        exact h' f g1 (by simpa using g2)
      rcases hc with ⟨c1, c2⟩ | ⟨c1, -⟩
      · exact ⟨by omega, by simpa [ordersOf] using c1⟩
      · exfalso
        have e := pairs_left r1 ht
        unfold BiSpec.Ideal.listOf at e
        rw [c1] at e
        apply hne
        unfold ordersOf
        have := congrArg List.length e
        simp only [List.map_nil, List.length_nil, List.length_map] at this
        rw [List.map_eq_nil_iff]
        exact List.length_eq_zero_iff.1 this.symm
  · rw [absent hL ht]
    simp only [pos, if_neg ht]
    exact ⟨_, ⟨T, O, i, hT, hO, hI, hL, l1, l2, l3, hf⟩, .inl rfl⟩

/-- The facts after a call. -/
def afterCall (F : List (Option JString × BitVec 64)) : Call → List (Option JString × BitVec 64)
  | .add o symbol strategy => record (strategy, o) (record (symbol, o) F)
  | _ => F

/-- 1 for `add`, else 0. -/
def weight : Call → Nat
  | .add _ _ _ => 1
  | _ => 0

theorem step_rel (h : Rel n s F) (c : Call) (hn : 2 * n + 32 < 2 ^ 29) :
    (Right F c (step c s).out ∨ Wrong F c (step c s).out) ∧ Rel (n + weight c) (step c s).state (afterCall F c) := by
  cases c with
  | add o a b =>
    obtain ⟨s', e, h'⟩ := add_rel h o a b hn
    have : step (.add o a b) s = .ok .unit s' := by unfold step; rw [JM.bind_ok e]; rfl
    rw [this]; exact ⟨.inl rfl, h'⟩
  | count t =>
    obtain ⟨s', e, h'⟩ := count_rel h t
    have : step (.count t) s = .ok (.int (ordersOf t F).length) s' := by unfold step; rw [JM.bind_ok e]; rfl
    rw [this]; exact ⟨.inl rfl, h'⟩
  | iterate t =>
    obtain ⟨s', h', e | ⟨e, e1, e2⟩⟩ := iterate_rel h t
    · have : step (.iterate t) s = .ok (.orders (ordersOf t F)) s' := by unfold step; rw [JM.bind_ok e]; rfl
      rw [this]; exact ⟨.inl rfl, h'⟩
    · have : step (.iterate t) s = .err .indexOutOfBounds s' := by unfold step; rw [JM.bind_err e]
      rw [this]; exact ⟨.inr ⟨rfl, e1, e2⟩, h'⟩

theorem facts_snoc (l : List Call) (c : Call) : facts (l ++ [c]) = afterCall (facts l) c := by
  unfold facts
  rw [List.foldl_append]
  cases c <;> rfl

theorem adds_snoc (l : List Call) (c : Call) : adds (l ++ [c]) = adds l + weight c := by
  unfold adds
  rw [List.countP_append]
  cases c <;> simp [weight]

theorem run_rel (h : new = .ok s) (calls : List Call) : ∀ m, m ≤ calls.length → 2 * adds calls + 32 < 2 ^ 29 →
    Rel (adds (calls.take m)) (runM step s (calls.take m)).2 (facts (calls.take m))
  | 0, _, _ => by simpa [adds, facts, runM] using new_rel h
  | m + 1, hm, ha => by
    have ih := run_rel h calls m (by omega) ha
    have e : calls.take (m + 1) = calls.take m ++ [calls[m]] := by
      rw [List.take_add_one, List.getElem?_eq_getElem (by omega)]; rfl
    have hle : adds (calls.take m) ≤ adds calls := by
      unfold adds; exact (List.take_sublist m calls).countP_le
    rw [e, facts_snoc, adds_snoc, runM_append]
    exact (step_rel ih calls[m] (by omega)).2

theorem runM_getElem {σ α β : Type} (f : α → JM σ β) : ∀ (l : List α) (s : σ) (m : Nat) (c : α), l[m]? = some c →
    (runM f s l).1[m]? = some (f c (runM f s (l.take m)).2).out
  | c :: l, s, 0, _, h => by simp at h; subst h; rfl
  | c :: l, s, m + 1, d, h => by
    have := runM_getElem f l (f c s).state m d (by simpa using h)
    simpa [runM] using this

end Verif.InvertedIndex

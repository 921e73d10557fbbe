import Verif.Proofs.Index8
/-! An indexed map that is only ever added to: the keys in the order they were first added; the entry of a key
is its position. -/
namespace Verif.Catalog
open Verif.Index Verif.IndexSpec
set_option linter.unusedSectionVars false
variable {K V : Type} [Inhabited K] [Inhabited V] [DecidableEq K]

/-- The entry of a key. -/
def pos (ks : List K) (k : K) : Int := if k ∈ ks then (ks.idxOf k : Int) else -1

structure DictA (a : Abs K V) (ks : List K) (vs : K → V) : Prop where
  eq : ∀ x y, a.eq x y = true ↔ x = y
  coh : Coherent a.hash a.eq
  free : a.free = []
  res : a.reserved = []
  next : a.next = ks.length
  len : a.rows.length = ks.length
  nodup : ks.Nodup
  mem : ∀ r, r ∈ a.rows ↔ ∃ j : Nat, ks[j]? = some r.key ∧ r.entry = j ∧ r.val = vs r.key

/-- The collection holds exactly the keys `ks` with the values `vs`. -/
def Dict (s : Index K V) (ks : List K) (vs : K → V) : Prop := ∃ a F, Inv True s a F ∧ DictA a ks vs

variable {s : Index K V} {a : Abs K V} {F : List Int} {ks : List K} {vs : K → V}

theorem getElem?_idxOf {k : K} (h : k ∈ ks) : ks[ks.idxOf k]? = some k := by
  rw [List.getElem?_eq_some_iff]
  exact ⟨List.idxOf_lt_length_of_mem h, List.getElem_idxOf _⟩

theorem DictA.find_none (h : DictA a ks vs) {k : K} (hk : k ∉ ks) : a.find k = none := by
  unfold Abs.find
  rw [List.find?_eq_none]
  intro r hr
  obtain ⟨j, hj, -⟩ := (h.mem r).1 hr
  rw [h.eq]
  rintro rfl
  exact hk (List.mem_of_getElem? hj)

theorem DictA.find_some (h : DictA a ks vs) {k : K} (hk : k ∈ ks) :
    a.find k = some ⟨(ks.idxOf k : Int), k, vs k⟩ := by
  refine Index.find?_unique ((h.mem _).2 ⟨_, getElem?_idxOf hk, rfl, rfl⟩) ((h.eq _ _).2 rfl) ?_
  intro y hy hne
  rw [← Bool.not_eq_true, h.eq]
  rintro rfl
  apply hne
  obtain ⟨j, h1, h2, h3⟩ := (h.mem y).1 hy
  obtain ⟨e, k, v⟩ := y
  simp only at h1 h2 h3 hk ⊢
  have : ks.idxOf k = j := by
    rw [List.getElem?_eq_some_iff] at h1
    obtain ⟨hj, h1⟩ := h1
    rw [← h1]
    exact List.Nodup.idxOf_getElem h.nodup j hj
  rw [this, h2, h3]

theorem DictA.entryOf (h : DictA a ks vs) (k : K) : entryOf a k = pos ks k := by
  unfold Index.entryOf pos
  by_cases hk : k ∈ ks
  · rw [h.find_some hk, if_pos hk]
  · rw [h.find_none hk, if_neg hk]

theorem lookup (h : Dict s ks vs) (k : K) : lookupEntry k s = .ok (pos ks k) s := by
  obtain ⟨a, F, hI, hd⟩ := h
  rw [lookupEntry_spec hI, hd.entryOf]

theorem keyAt (h : Dict s ks vs) {k : K} (hk : k ∈ ks) : getKeyAt (pos ks k) s = .ok k s := by
  obtain ⟨a, F, hI, hd⟩ := h
  have hr : (⟨(ks.idxOf k : Int), k, vs k⟩ : Row K V) ∈ a.rows := (hd.mem _).2 ⟨_, getElem?_idxOf hk, rfl, rfl⟩
  have e2 := (hI.rowsOk _ (.inl hr)).1
  obtain ⟨h0, h1⟩ := hI.live_range (Index.mem_live hr)
  unfold getKeyAt
  simp only [pos, if_pos hk]
  rw [rd_ok _ ⟨h0, by rw [klen_eq hI]; exact h1⟩, e2]

theorem valueAt (h : Dict s ks vs) {k : K} (hk : k ∈ ks) : getValueAt (pos ks k) s = .ok (vs k) s := by
  obtain ⟨a, F, hI, hd⟩ := h
  have hr : (⟨(ks.idxOf k : Int), k, vs k⟩ : Row K V) ∈ a.rows := (hd.mem _).2 ⟨_, getElem?_idxOf hk, rfl, rfl⟩
  have e2 := (hI.rowsOk _ (.inl hr)).2
  obtain ⟨h0, h1⟩ := hI.live_range (Index.mem_live hr)
  unfold getValueAt
  simp only [pos, if_pos hk]
  rw [rd_ok _ ⟨h0, by rw [vlen_eq hI]; exact h1⟩, e2]

/-- The keys after one more was added. -/
def addKey (ks : List K) (k : K) : List K := if k ∈ ks then ks else ks ++ [k]

theorem mem_addKey {k x : K} : x ∈ addKey ks k ↔ x ∈ ks ∨ x = k := by
  unfold addKey
  split
  · constructor
    · exact .inl
    · rintro (h | rfl) <;> assumption
  · simp

theorem pos_addKey {k x : K} (hx : x ∈ ks) : pos (addKey ks k) x = pos ks x := by
  unfold addKey pos
  split
  · rfl
  · rw [if_pos (by simp [hx]), List.idxOf_append_of_mem hx]

theorem pos_inj {x y : K} (hx : x ∈ ks) (hy : y ∈ ks) (h : pos ks x = pos ks y) : x = y := by
  simp only [pos, if_pos hx, if_pos hy] at h
  exact (List.idxOf_inj hx).1 (by omega)

theorem pos_nonneg {x : K} (hx : x ∈ ks) : 0 ≤ pos ks x ∧ pos ks x < ks.length := by
  simp only [pos, if_pos hx]
  have := List.idxOf_lt_length_of_mem hx
  omega

theorem addKey_length (k : K) : (addKey ks k).length ≤ ks.length + 1 := by
  unfold addKey; split <;> simp

theorem insert_dict (h : DictA a ks vs) {k : K} (hk : k ∉ ks) (v : V) :
    DictA (a.insert (ks.length : Int) k v) (addKey ks k) (Function.update vs k v) := by
  refine ⟨h.eq, h.coh, by simp [Abs.insert, h.free], h.res, ?_, ?_, ?_, ?_⟩
  · simp only [Abs.insert, addKey, if_neg hk, h.next, List.length_append, List.length_singleton]; omega
  · simp only [Abs.insert, addKey, if_neg hk, List.length_cons, List.length_append, h.len]; simp
  · simp only [addKey, if_neg hk]
    exact List.nodup_append.2 ⟨h.nodup, by simp, by rintro x hx y hy rfl; simp at hy; exact hk (hy ▸ hx)⟩
  · intro r
    simp only [Abs.insert, addKey, if_neg hk, List.mem_cons, h.mem]
    constructor
    · rintro (rfl | ⟨j, h1, h2, h3⟩)
      · exact ⟨ks.length, by simp, rfl, by simp⟩
      · have hne : r.key ≠ k := fun e => hk (e ▸ List.mem_of_getElem? h1)
        refine ⟨j, ?_, h2, by rw [Function.update_of_ne hne]; exact h3⟩
        rw [List.getElem?_append_left]; exact h1
        rw [List.getElem?_eq_some_iff] at h1; exact h1.1
    · rintro ⟨j, h1, h2, h3⟩
      by_cases hj : j < ks.length
      · rw [List.getElem?_append_left hj] at h1
        have hne : r.key ≠ k := fun e => hk (e ▸ List.mem_of_getElem? h1)
        rw [Function.update_of_ne hne] at h3
        exact .inr ⟨j, h1, h2, h3⟩
      · rw [List.getElem?_append_right (by omega)] at h1
        have hj2 : j = ks.length := by
          rw [List.getElem?_eq_some_iff] at h1
          obtain ⟨hl, -⟩ := h1
          simp only [List.length_singleton] at hl; omega
        subst hj2
        simp only [Nat.sub_self, List.getElem?_cons_zero, Option.some.injEq] at h1
        left
        obtain ⟨e, k', v'⟩ := r
        simp only at h1 h2 h3
        subst h1 h2
        rw [Function.update_self] at h3
        rw [h3]

theorem alloc_dict (h : DictA a ks vs) : a.alloc = ks.length := by
  unfold Abs.alloc; rw [h.free]; exact h.next

theorem step_int {o : Op K V} {m : JM (Index K V) Int} (hs : step o = do return .int (← m)) {e : Int}
    (h : (step o s).out = .ok (.int e)) : m s = .ok e (step o s).state := by
  rw [hs] at h ⊢
  have hb : (do return Out.int (← m) : JM (Index K V) (Out K V)) s =
    match m s with | .ok x t => .ok (Out.int x) t | .err x t => .err x t := by
    cases hm : m s with
    | ok x t => rw [JM.bind_ok hm]; rfl
    | err x t => rw [JM.bind_err hm]
  rw [hb] at h ⊢
  cases hm : m s with
  | ok x t =>
    rw [hm] at h
    simp only [Res.out_ok, Except.ok.injEq, Out.int.injEq] at h
    subst h; rfl
  | err x t => rw [hm] at h; simp at h

theorem guard_add (h : DictA a ks vs) (hl : ks.length + 29 < 2 ^ 29) : a.rows.length + a.reserved.length + 29 < 2 ^ 29 := by
  rw [h.res, h.len]; simpa using hl

/-- `add` of a set. -/
theorem add_dict {s : Index K Unit} (h : Dict s ks fun _ => ()) (k : K) (hl : ks.length + 29 < 2 ^ 29) :
    ∃ s', add k s = .ok (pos (addKey ks k) k) s' ∧ Dict s' (addKey ks k) fun _ => () := by
  obtain ⟨a, F, hI, hd⟩ := h
  obtain ⟨h1, h2, F', h3⟩ := step_spec hI (.add k) ⟨hd.coh, guard_add hd hl⟩
  by_cases hk : k ∈ ks
  · have ha : addKey ks k = ks := if_pos hk
    simp only [Ok, hd.find_some hk] at h1
    rw [ha]
    have e := step_int (o := .add k) rfl h1
    refine ⟨_, by rw [e, pos, if_pos hk], a, F', ?_, hd⟩
    rw [h1] at h3
    simpa only [after, hd.find_some hk] using h3
  · have h4 := (h2 trivial).2 (hd.find_none hk)
    have hp : pos (addKey ks k) k = ks.length := by
      unfold addKey pos
      rw [if_neg hk, if_pos (by simp), List.idxOf_append_of_notMem hk]; simp
    have e := step_int (o := .add k) rfl h4
    refine ⟨_, by rw [e, hp, alloc_dict hd], _, F', h3, ?_⟩
    rw [h4]
    simp only [after, hd.find_none hk, alloc_dict hd]
    exact insert_dict hd hk ()

/-- `put` of a map. -/
theorem put_dict (h : Dict s ks vs) (k : K) (v : V) (hl : ks.length + 29 < 2 ^ 29) :
    ∃ s', put k v s = .ok (pos (addKey ks k) k) s' ∧ Dict s' (addKey ks k) (Function.update vs k v) := by
  obtain ⟨a, F, hI, hd⟩ := h
  obtain ⟨h1, h2, F', h3⟩ := step_spec hI (.put k v) ⟨hd.coh, guard_add hd hl⟩
  by_cases hk : k ∈ ks
  · have ha : addKey ks k = ks := if_pos hk
    simp only [Ok, hd.find_some hk] at h1
    rw [ha]
    have e := step_int (o := .put k v) rfl h1
    refine ⟨_, by rw [e, pos, if_pos hk], _, F', h3, ?_⟩
    rw [h1]
    simp only [after, hd.find_some hk]
    refine ⟨hd.eq, hd.coh, hd.free, hd.res, hd.next, by simp [Abs.setVal, hd.len], hd.nodup, ?_⟩
    intro r
    simp only [Abs.setVal, List.mem_map]
    have hidx : ∀ {j : Nat} {x : K}, ks[j]? = some x → (j = ks.idxOf k ↔ x = k) := by
      intro j x hx
      constructor
      · rintro rfl; rw [getElem?_idxOf hk] at hx; exact (Option.some.inj hx).symm
      · rintro rfl
        rw [List.getElem?_eq_some_iff] at hx
        obtain ⟨hj, hx⟩ := hx
        have := List.Nodup.idxOf_getElem hd.nodup j hj
        rw [hx] at this; exact this.symm
    constructor
    · rintro ⟨q, hq, rfl⟩
      obtain ⟨j, g1, g2, g3⟩ := (hd.mem q).1 hq
      split
      · rename_i he
        have : q.key = k := (hidx g1).1 (by omega)
        exact ⟨j, g1, g2, by simp [this]⟩
      · rename_i he
        have : q.key ≠ k := fun e => he (by rw [g2, (hidx g1).2 e])
        exact ⟨j, g1, g2, by rw [Function.update_of_ne this]; exact g3⟩
    · rintro ⟨j, g1, g2, g3⟩
      obtain ⟨e', k', v'⟩ := r
      simp only at g1 g2 g3
      refine ⟨⟨e', k', vs k'⟩, (hd.mem _).2 ⟨j, g1, g2, rfl⟩, ?_⟩
      simp only
      split
      · rename_i he
        have : k' = k := (hidx g1).1 (by omega)
        rw [g3, this, Function.update_self]
      · rename_i he
        have : k' ≠ k := fun e => he (by rw [g2, (hidx g1).2 e])
        rw [g3, Function.update_of_ne this]
  · have h4 := (h2 trivial).2 (hd.find_none hk)
    have hp : pos (addKey ks k) k = ks.length := by
      unfold addKey pos
      rw [if_neg hk, if_pos (by simp), List.idxOf_append_of_notMem hk]; simp
    have e := step_int (o := .put k v) rfl h4
    refine ⟨_, by rw [e, hp, alloc_dict hd], _, F', h3, ?_⟩
    rw [h4]
    simp only [after, hd.find_none hk, alloc_dict hd]
    exact insert_dict hd hk v

theorem new_dict {hash : K → BitVec 32} {eq : K → K → Bool} (he : ∀ x y, eq x y = true ↔ x = y) {ic : Int}
    {num den : Nat} (hn : Index.new hash eq ic num den = .ok s) (ht : (den : Int) ≤ 2 * nextPowerOf2 ic * num)
    (vs : K → V) : Dict s [] vs := by
  have h := new_inv hash eq hn
  have e : ((den : Int) ≤ 2 * nextPowerOf2 ic * num) = True := eq_true ht
  rw [e] at h
  refine ⟨_, _, h, he, ⟨?_, ?_, ?_⟩, rfl, rfl, rfl, rfl, List.nodup_nil, ?_⟩
  · intro x y h'; exact (he _ _).2 ((he _ _).1 h').symm
  · intro x y z h1 h2; exact (he _ _).2 (((he _ _).1 h1).trans ((he _ _).1 h2))
  · intro x y h'; have := (he _ _).1 h'; subst this; rfl
  · intro r; simp [empty]

end Verif.Catalog

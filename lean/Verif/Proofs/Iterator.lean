import Verif.Proofs.Index8
import Verif.Model.Iterator
/-! Proofs about the entry iterator. -/
set_option linter.unusedSectionVars false
namespace Verif
namespace Iterating
open IndexSpec Index
variable {K V : Type} [Inhabited K] [Inhabited V]
variable {tight : Prop}

theorem onMap_ok {α : Type} {m : JM (Index K V) α} {s : Iterating K V} {x : α} {t : Index K V}
    (h : m s.map = .ok x t) : onMap m s = .ok x { s with map := t } := by
  unfold onMap; simp only [h]

theorem setIt_ok (f : Iter → Iter) (s : Iterating K V) :
    setIt f s = .ok () { s with it := f s.it } := rfl

/-- Before the entries `R`: not started, somewhere in the middle, or at the end. -/
structure Mid (s : Iterating K V) (l1 l2 : List Int) (n : Nat) (t : Int) : Prop where
  init : s.it.initialized = true
  mod : s.it.internalModCount = s.map.modificationCount
  head0 : 0 ≤ s.it.head
  headn : s.it.head + n + 1 = s.map.heads.len
  prev : s.it.prev = l1.getLastD (-1)
  next : Path s.map.nexts s.it.next l2 t
  chain : Path s.map.nexts (s.map.heads.get s.it.head)
    (l1 ++ (if s.it.isRemoved then l2 else s.it.entry :: l2)) t

/-- What is still to come. -/
def rest (s : Iterating K V) (l2 : List Int) (n : Nat) : List Int :=
  l2 ++ orderFrom s.map n (s.it.head + 1)

/-- The iterator has run off the end, and `next` was called at most `b` times since. -/
structure Done (b : Int) (s : Iterating K V) : Prop where
  init : s.it.initialized = true
  mod : s.it.internalModCount = s.map.modificationCount
  head : s.map.heads.len ≤ s.it.head
  bound : s.it.head ≤ s.map.heads.len + b
  next : s.it.next < 0
  entry : s.it.entry < 0
  removed : s.it.isRemoved = false

/-- As `reset` leaves it. -/
structure Start (s : Iterating K V) : Prop where
  init : s.it.initialized = false
  removed : s.it.isRemoved = false
  mod : s.it.internalModCount = s.map.modificationCount
  head : s.it.head = -1
  next : s.it.next = -1

theorem nextHeadLoop_spec {m : Index K V} {a : Abs K V} {F : List Int} (h : Inv tight m a F) :
    ∀ (n fuel : Nat) (it : Iter), 0 ≤ it.head → n = (m.heads.len - it.head).toNat → n < fuel →
      it.entry < 0 → it.head < 2 ^ 31 →
      ∃ it', nextHeadLoop fuel (⟨m, it⟩ : Iterating K V) = .ok () ⟨m, it'⟩ ∧
        it'.initialized = it.initialized ∧ it'.internalModCount = it.internalModCount ∧
        ((orderFrom m n it.head = [] ∧ (m.heads.len ≤ it'.head ∧ it'.head ≤ max it.head m.heads.len) ∧
            it'.entry < 0 ∧ it'.next = it.next) ∨
         (∃ (n' : Nat) (l2 : List Int) (t : Int), it'.head + n' + 1 = m.heads.len ∧
            it.head ≤ it'.head ∧
            orderFrom m n it.head = it'.entry :: l2 ++ orderFrom m n' (it'.head + 1) ∧
            Path m.nexts (m.heads.get it'.head) (it'.entry :: l2) t ∧ it'.prev = -1 ∧
            Path m.nexts it'.next l2 t ∧ 0 ≤ it'.entry))
  | n, 0, _, _, _, h, _, _ => by omega
  | 0, fuel + 1, it, h0, hn, _, he, _ => by
    refine ⟨it, ?_, rfl, rfl, .inl ⟨rfl, by omega, he, rfl⟩⟩
    rw [nextHeadLoop, JM.bind_ok (JM.get_apply _)]
    simp only
    rw [if_neg (by omega)]; rfl
  | n + 1, fuel + 1, it, h0, hn, hf, he, hb => by
    have hl := h.hlen.2
    rw [show (2 : Nat) ^ 29 = 536870912 by decide] at hl
    have hlt : it.head < m.heads.len := by omega
    obtain ⟨t, hp, hm⟩ := chain_at h h0 hlt
    rw [nextHeadLoop, JM.bind_ok (JM.get_apply _)]
    simp only
    rw [if_pos hlt, JM.bind_ok (onMap_ok (rd_ok _ ⟨h0, hlt⟩)), JM.bind_ok (setIt_ok _ _)]
    by_cases hge : m.heads.get it.head ≥ 0
    · obtain ⟨l', hl', hr, hp'⟩ := hp.nonneg_cons hge
      rw [if_pos hge, JM.bind_ok (setIt_ok _ _), JM.bind_ok (onMap_ok (rd_ok _ ⟨hge, hr⟩))]
      refine ⟨_, setIt_ok _ _, rfl, rfl, .inr ⟨n, l', t, ?_, Int.le_refl _, ?_, ?_, rfl, hp', hge⟩⟩
      · show it.head + n + 1 = _; omega
      · rw [orderFrom, hl']
      · rw [← hl']; exact hp
    · rw [if_neg hge, JM.bind_ok (setIt_ok _ _)]
      simp only
      rw [i32_of_range (show -2147483648 ≤ it.head + 1 ∧ it.head + 1 < 2147483648 by omega)]
      have hnil : chainFrom m.nexts (m.nexts.len + 1) (m.heads.get it.head) = [] :=
        (hp.neg_nil (by omega)).1
      obtain ⟨it', g1, g2, g3, g4⟩ := nextHeadLoop_spec h n fuel
        { it with entry := m.heads.get it.head, head := it.head + 1 } (by simp only; omega)
        (by simp only; omega) (by omega) (by simp only; omega) (by simp only; omega)
      refine ⟨it', g1, g2, g3, ?_⟩
      rw [orderFrom, hnil, List.nil_append]
      rcases g4 with ⟨k1, k2, k3, k4⟩ | ⟨n', l2, t', k1, k2, k3, k4, k5, k6, k7⟩
      · exact .inl ⟨k1, by simp only at k2; omega, k3, k4⟩
      · exact .inr ⟨n', l2, t', k1, by simp only at k2; omega, k3, k4, k5, k6, k7⟩

/-- `nextHead` moves to the first entry of the remaining heads. -/
theorem nextHead_spec {m : Index K V} {a : Abs K V} {F : List Int} (h : Inv tight m a F) (it : Iter)
    (n : Nat) (h0 : -1 ≤ it.head) (hb : it.head + 1 < 2 ^ 31) (hn : n = (m.heads.len - (it.head + 1)).toNat) (hnx : it.next < 0) :
    ∃ it', nextHead (⟨m, it⟩ : Iterating K V) = .ok () ⟨m, it'⟩ ∧
      it'.initialized = it.initialized ∧ it'.internalModCount = it.internalModCount ∧
      it'.isRemoved = false ∧
      ((orderFrom m n (it.head + 1) = [] ∧ (m.heads.len ≤ it'.head ∧ it'.head ≤ max (it.head + 1) m.heads.len) ∧
          it'.entry < 0 ∧ it'.next < 0) ∨
       (∃ (n' : Nat) (l2 : List Int) (t : Int), it'.head + n' + 1 = m.heads.len ∧ 0 ≤ it'.head ∧
          orderFrom m n (it.head + 1) = it'.entry :: (l2 ++ orderFrom m n' (it'.head + 1)) ∧
          Path m.nexts (m.heads.get it'.head) (it'.entry :: l2) t ∧ it'.prev = -1 ∧
          Path m.nexts it'.next l2 t ∧ 0 ≤ it'.entry)) := by
  obtain ⟨it', g1, g2, g3, g4⟩ := nextHeadLoop_spec h n (m.heads.len + 1)
    { it with head := it.head + 1, entry := -1 } (by simp only; omega) hn (by omega) (by simp only; omega) (by simp only; omega)
  refine ⟨{ it' with isRemoved := false }, ?_, g2, g3, rfl, ?_⟩
  · unfold nextHead
    rw [JM.bind_ok (setIt_ok _ _), JM.bind_ok (JM.get_apply _)]
    simp only
    rw [i32_of_range (show -2147483648 ≤ it.head + 1 ∧ it.head + 1 < 2147483648 by omega), JM.bind_ok g1]; rfl
  · rcases g4 with ⟨k1, k2, k3, k4⟩ | ⟨n', l2, t', k1, k2, k3, k4, k5, k6, k7⟩
    · exact .inl ⟨k1, k2, k3, by simp only at k4 ⊢; omega⟩
    · exact .inr ⟨n', l2, t', k1, by simp only at k2 ⊢; omega, by simpa using k3, k4, k5, k6, k7⟩

theorem next_start {s : Iterating K V} {a : Abs K V} {F : List Int} (h : Inv tight s.map a F)
    (hs : Start s) :
    (order s.map = [] ∧ ∃ it', next s = .ok false ⟨s.map, it'⟩ ∧ Done 0 ⟨s.map, it'⟩) ∨
    (∃ it' l2 n t, next s = .ok true ⟨s.map, it'⟩ ∧ Mid ⟨s.map, it'⟩ [] l2 n t ∧
      it'.isRemoved = false ∧ order s.map = it'.entry :: rest ⟨s.map, it'⟩ l2 n) := by
  obtain ⟨m, it⟩ := s
  have h0 := hs.head; have h1 := hs.next; have h2 := hs.mod; have h3 := hs.init
  simp only at h0 h1 h2 h3
  obtain ⟨it', g1, g2, g3, g4, g5⟩ := nextHead_spec (m := m) h it m.heads.len (by omega) (by omega) (by omega) (by omega)
  have hn : ∀ b : Bool, decide (it'.entry ≥ 0) = b →
      next (⟨m, it⟩ : Iterating K V) = .ok b ⟨m, { it' with initialized := true }⟩ := by
    intro b hb
    unfold next initIter
    rw [JM.bind_ok (JM.get_apply _)]
    simp only
    rw [if_neg (by simp [h2]), if_pos h3, JM.bind_ok (JM.bind_ok g1), JM.bind_ok (JM.get_apply _)]
    simp only [hb]; rfl
  have ho : order m = orderFrom m m.heads.len (it.head + 1) := by rw [h0]; rfl
  rcases g5 with ⟨k1, k2, k3, k4⟩ | ⟨n', l2, t', k1, k2, k3, k4, k5, k6, k7⟩
  · left
    refine ⟨by rw [ho]; exact k1, _, hn false (by simpa using k3), ?_⟩
    exact ⟨rfl, by simp only; rw [g3, h2], k2.1, by have := k2.2; simp only; omega, k4, k3, g4⟩
  · right
    refine ⟨_, l2, n', t', hn true (by simpa using k7), ?_, g4, by rw [ho]; exact k3⟩
    refine ⟨rfl, by simp only; rw [g3, h2], k2, k1, k5, k6, ?_⟩
    simp only [g4]
    exact k4

theorem next_mid {s : Iterating K V} {a : Abs K V} {F : List Int} (h : Inv tight s.map a F)
    {l1 l2 : List Int} {n : Nat} {t : Int} (hs : Mid s l1 l2 n t) :
    (rest s l2 n = [] ∧ ∃ it', next s = .ok false ⟨s.map, it'⟩ ∧ Done 0 ⟨s.map, it'⟩) ∨
    (∃ it' l1' l2' n' t', next s = .ok true ⟨s.map, it'⟩ ∧ Mid ⟨s.map, it'⟩ l1' l2' n' t' ∧
      it'.isRemoved = false ∧ rest s l2 n = it'.entry :: rest ⟨s.map, it'⟩ l2' n') := by
  obtain ⟨m, it⟩ := s
  obtain ⟨q1, q2, q3, q4, q5, q6, q7⟩ := hs
  simp only at q1 q2 q3 q4 q5 q6 q7
  have hl := h.hlen.2
  rw [show (2 : Nat) ^ 29 = 536870912 by decide] at hl
  simp only at hl
  cases l2 with
  | nil =>
    have hneg : it.next < 0 := by have := q6.1; have := q6.2; omega
    obtain ⟨it', g1, g2, g3, g4, g5⟩ := nextHead_spec (m := m) h it n (by omega) (by omega) (by omega) hneg
    have hn : ∀ b : Bool, decide (it'.entry ≥ 0) = b →
        next (⟨m, it⟩ : Iterating K V) = .ok b ⟨m, it'⟩ := by
      intro b hb
      unfold next
      rw [JM.bind_ok (JM.get_apply _)]
      simp only
      rw [if_neg (by simp [q2]), if_neg (by simp [q1]), if_neg (by omega), JM.bind_ok g1,
        JM.bind_ok (JM.get_apply _)]
      simp only [hb]; rfl
    have ho : rest (⟨m, it⟩ : Iterating K V) [] n = orderFrom m n (it.head + 1) := rfl
    rcases g5 with ⟨k1, k2, k3, k4⟩ | ⟨n', l2, t', k1, k2, k3, k4, k5, k6, k7⟩
    · left
      refine ⟨by rw [ho]; exact k1, _, hn false (by simpa using k3), ?_⟩
      exact ⟨by simp only; rw [g2, q1], by simp only; rw [g3, q2], k2.1, by have := k2.2; simp only; omega, k4, k3, g4⟩
    · right
      refine ⟨_, [], l2, n', t', hn true (by simpa using k7), ?_, g4, by rw [ho]; exact k3⟩
      refine ⟨by simp only; rw [g2, q1], by simp only; rw [g3, q2], k2, k1, k5, k6, ?_⟩
      simp only [g4]
      exact k4
  | cons x l2 =>
    right
    obtain ⟨p1, p2, p3, p4⟩ := q6
    refine ⟨{ it with prev := if it.isRemoved then it.prev else it.entry, entry := x,
                      next := m.nexts.get x, isRemoved := false },
      if it.isRemoved then l1 else l1 ++ [it.entry], l2, n, t, ?_, ?_, rfl, rfl⟩
    · unfold next
      rw [JM.bind_ok (JM.get_apply _)]
      simp only
      rw [if_neg (by simp [q2]), if_neg (by simp [q1]), if_pos (by omega), JM.bind_ok (setIt_ok _ _),
        JM.bind_ok (setIt_ok _ _), JM.bind_ok (JM.get_apply _)]
      simp only
      rw [p1, JM.bind_ok (onMap_ok (rd_ok _ ⟨p2, p3⟩))]
      rfl
    · refine ⟨q1, q2, q3, q4, ?_, p4, ?_⟩
      · simp only
        cases it.isRemoved
        · simp
        · simpa using q5
      · simp only
        cases hr : it.isRemoved
        · simpa [hr] using q7
        · simpa [hr] using q7

theorem next_done {s : Iterating K V} {a : Abs K V} {F : List Int} (h : Inv tight s.map a F)
    {b : Int} (hb : b ≤ 1073741824) (hs : Done b s) :
    ∃ it', next s = .ok false ⟨s.map, it'⟩ ∧ Done (b + 1) ⟨s.map, it'⟩ := by
  obtain ⟨m, it⟩ := s
  obtain ⟨q1, q2, q3, q8, q4, q5, _⟩ := hs
  simp only at q1 q2 q3 q4 q5 q8
  have hl := h.hlen.2
  rw [show (2 : Nat) ^ 29 = 536870912 by decide] at hl
  simp only at hl
  obtain ⟨it', g1, g2, g3, g4, g5⟩ := nextHead_spec (m := m) h it 0 (by omega) (by omega) (by omega) q4
  rcases g5 with ⟨k1, k2, k3, k4⟩ | ⟨n', l2, t', k1, k2, k3, k4, k5, k6, k7⟩
  · refine ⟨it', ?_, by simp only; rw [g2, q1], by simp only; rw [g3, q2], k2.1, by have := k2.2; simp only; omega, k4, k3, g4⟩
    unfold next
    rw [JM.bind_ok (JM.get_apply _)]
    simp only
    rw [if_neg (by simp [q2]), if_neg (by simp [q1]), if_neg (by omega), JM.bind_ok g1,
      JM.bind_ok (JM.get_apply _)]
    have : decide (it'.entry ≥ 0) = false := by simpa using k3
    simp only [this]; rfl
  · simp [orderFrom] at k3

theorem set_get_self {α : Type} (x : Arr α) (i : Int) : x.set i (x.get i) = x := by
  cases x
  unfold Arr.set
  congr 1
  funext j
  split
  · rename_i hh; rw [hh]
  · rfl

/-- `unlinkCurrent` on the current entry. -/
theorem unlinkCurrent_mid {s : Iterating K V} {a : Abs K V} {F : List Int} (h : Inv tight s.map a F)
    {l1 l2 : List Int} {n : Nat} {t : Int} (hs : Mid s l1 l2 n t) (hr : s.it.isRemoved = false) :
    ∃ s', unlinkCurrent s = .ok () s' ∧
      Inv tight s'.map { a.drop s.it.entry with free := s.it.entry :: a.free } (s.it.entry :: F) ∧
      Mid s' l1 l2 n t ∧ rest s' l2 n = rest s l2 n ∧ s.it.entry ∈ a.live ∧ s'.it.isRemoved = true ∧
      s'.it.entry = s.it.entry := by
  obtain ⟨m, it⟩ := s
  have h : Inv tight m a F := h
  obtain ⟨q1, q2, q3, q4, q5, q6, q7⟩ := hs
  simp only at q1 q2 q3 q4 q5 q6 q7 hr
  simp only [hr, Bool.false_eq_true, if_false] at q7
  have hlt : it.head < m.heads.len := by omega
  obtain ⟨l, t', hp', ht', hm⟩ := h.chained it.head q3 hlt
  obtain ⟨hl, rfl⟩ := q7.unique hp'
  have helm : it.entry ∈ l := by rw [← hl]; simp
  have hel : it.entry ∈ a.live := ((hm _).1 helm).1
  have her := h.live_range hel
  have hnd := q7.nodup
  have he12 : it.entry ∉ l1 ++ l2 := by
    rw [List.nodup_append] at hnd
    simp only [List.nodup_cons] at hnd
    simp only [List.mem_append, not_or]
    exact ⟨fun hh => hnd.2.2 _ hh _ (by simp) rfl, hnd.2.1.1⟩
  have hsp := q7.split
  obtain ⟨hh, nn, hu, hhl, hnl, hch, hget, hends, hfh, hfn, hpath⟩ :=
    unlink_spec h.chained q3 hlt q7 h.ends
  rw [← q5] at hu
  have hu' : ∀ it2, onMap (Index.unlink it.head it.prev (m.nexts.get it.entry)) (⟨m, it2⟩ : Iterating K V) =
      .ok () ⟨{ m with heads := hh, nexts := nn }, it2⟩ := fun it2 => onMap_ok hu
  have hInv := inv_freed h hel hhl hnl hch hget hends (m.keys.get it.entry)
    (i32 (m.modificationCount + 1))
  rw [set_get_self] at hInv
  refine ⟨⟨freedKeep m hh nn it.entry, { it with
      next := m.nexts.get it.entry, isRemoved := true
      internalModCount := i32 (it.internalModCount + 1) }⟩, ?_, hInv, ?_, ?_, hel, rfl, rfl⟩
  · unfold unlinkCurrent
    rw [JM.bind_ok (JM.get_apply _)]
    simp only
    rw [JM.bind_ok (onMap_ok (rd_ok _ her)), JM.bind_ok (setIt_ok _ _), JM.bind_ok (hu' _),
      JM.bind_ok (onMap_ok (wr_ok _ _ ⟨her.1, by simp only; omega⟩)),
      JM.bind_ok (onMap_ok (JM.modify_apply _ _)), removeValue,
      JM.bind_ok (onMap_ok (wr_ok _ _ ⟨her.1, by have := vlen_eq h; simp only; omega⟩)),
      JM.bind_ok (setIt_ok _ _)]
    rfl
  · refine ⟨q1, by simp only [freedKeep]; rw [q2], q3, ?_, q5, ?_, ?_⟩
    · simp only [freedKeep]; omega
    · simp only [freedKeep]
      have : Path nn (m.nexts.get it.entry) l2 t := by
        refine hsp.2.2.congr (by omega) ?_
        intro x hx
        apply hfn
        intro hxe
        have := (hsp.2.2.suffix hx)
        obtain ⟨l3, l4, hl34, hp4⟩ := this
        obtain ⟨_, _, _, hp5⟩ := hp4
        rw [hxe] at hp5
        obtain ⟨l5, hl5, _⟩ := hp5.nonneg_cons her.1
        apply he12
        rw [List.mem_append]; right
        rw [hl34, hl5]; simp
      exact this.set_notin (fun hx => he12 (List.mem_append_right _ hx))
    · simp only [freedKeep, if_true]
      exact hpath.set_notin he12
  · simp only [rest]
    congr 1
    refine orderFrom_pres (s := m) (D := [it.entry]) (pres_set hhl hnl hfh hfn) (by simpa using her.1) h n
      (it.head + 1) (by omega) (by omega) ?_
    intro x hx hx'
    simp only [List.mem_singleton] at hx'
    subst hx'
    have g1 := ((hm _).1 helm).2
    have g2 := (((orderFrom_spec h n (it.head + 1) (by omega) (by omega)).2 _).1 hx).2
    omega

/-- `remove` on the current entry. -/
theorem remove_mid {s : Iterating K V} {a : Abs K V} {F : List Int} (h : Inv tight s.map a F)
    {l1 l2 : List Int} {n : Nat} {t : Int} (hs : Mid s l1 l2 n t) (hr : s.it.isRemoved = false) :
    ∃ s', remove s = .ok () s' ∧
      Inv tight s'.map { a.drop s.it.entry with free := s.it.entry :: a.free } (s.it.entry :: F) ∧
      Mid s' l1 l2 n t ∧ rest s' l2 n = rest s l2 n ∧ s.it.entry ∈ a.live ∧ s'.it.isRemoved = true ∧
      s'.it.entry = s.it.entry := by
  obtain ⟨s', g1, g2⟩ := unlinkCurrent_mid h hs hr
  refine ⟨s', ?_, g2⟩
  unfold remove
  rw [JM.bind_ok (JM.get_apply _), if_neg (by simp [hs.mod]), if_neg (by simp [hr]),
    JM.when_neg (by simp [hs.init]), JM.bind_ok (JM.pure_apply _ _)]
  exact g1

/-- The effect on the ideal map of one step of the client loop. -/
def dropIf (P : Int → Bool) (a : Abs K V) (e : Int) : Abs K V :=
  if P e then { a.drop e with free := e :: a.free } else a

theorem drive_mid (P : Int → Bool) : ∀ (fuel : Nat) (s : Iterating K V) (a : Abs K V) (F : List Int)
    (l1 l2 : List Int) (n : Nat) (t : Int), Inv tight s.map a F → Mid s l1 l2 n t →
    (rest s l2 n).length < fuel →
    ∃ s' F', drive P fuel s = .ok (rest s l2 n) s' ∧ Done 0 s' ∧
      Inv tight s'.map ((rest s l2 n).foldl (dropIf P) a) F'
  | 0, _, _, _, _, _, _, _, _, _, h => by omega
  | fuel + 1, s, a, F, l1, l2, n, t, hI, hM, hf => by
    rcases next_mid hI hM with ⟨h1, it', h2, h3⟩ | ⟨it', l1', l2', n', t', h1, h2, h3, h4⟩
    · rw [h1]
      refine ⟨_, F, ?_, h3, hI⟩
      rw [drive, JM.bind_ok h2, if_neg (by simp)]; rfl
    · rw [h4] at hf ⊢
      simp only [List.length_cons] at hf
      rw [drive, JM.bind_ok h1, if_pos rfl]
      have hce : currentEntry (⟨s.map, it'⟩ : Iterating K V) = .ok it'.entry ⟨s.map, it'⟩ := rfl
      rw [JM.bind_ok hce]
      by_cases hP : P it'.entry = true
      · obtain ⟨s2, k1, k2, k3, k4, k5, k6, _⟩ := remove_mid (s := ⟨s.map, it'⟩) hI h2 h3
        rw [JM.when_pos hP, JM.bind_ok k1]
        obtain ⟨s3, F3, m1, m2, m3⟩ := drive_mid P fuel s2 _ _ l1' l2' n' t' k2 k3 (by rw [k4]; omega)
        rw [JM.bind_ok m1, k4]
        refine ⟨s3, F3, rfl, m2, ?_⟩
        rw [k4] at m3
        rw [List.foldl_cons, dropIf, if_pos hP]
        exact m3
      · rw [JM.when_neg hP, JM.bind_ok (JM.pure_apply _ _)]
        obtain ⟨s3, F3, m1, m2, m3⟩ := drive_mid P fuel ⟨s.map, it'⟩ _ _ l1' l2' n' t' hI h2 (by omega)
        rw [JM.bind_ok m1]
        refine ⟨s3, F3, rfl, m2, ?_⟩
        rw [List.foldl_cons, dropIf, if_neg hP]
        exact m3

theorem drive_start (P : Int → Bool) {fuel : Nat} {s : Iterating K V} {a : Abs K V} {F : List Int}
    (hI : Inv tight s.map a F) (hS : Start s) (hf : (order s.map).length < fuel) :
    ∃ s' F', drive P fuel s = .ok (order s.map) s' ∧ Done 0 s' ∧
      Inv tight s'.map ((order s.map).foldl (dropIf P) a) F' := by
  cases fuel with
  | zero => omega
  | succ fuel =>
    rcases next_start hI hS with ⟨h1, it', h2, h3⟩ | ⟨it', l2', n', t', h1, h2, h3, h4⟩
    · rw [h1]
      refine ⟨_, F, ?_, h3, hI⟩
      rw [drive, JM.bind_ok h2, if_neg (by simp)]; rfl
    · rw [h4] at hf ⊢
      simp only [List.length_cons] at hf
      rw [drive, JM.bind_ok h1, if_pos rfl]
      have hce : currentEntry (⟨s.map, it'⟩ : Iterating K V) = .ok it'.entry ⟨s.map, it'⟩ := rfl
      rw [JM.bind_ok hce]
      by_cases hP : P it'.entry = true
      · obtain ⟨s2, k1, k2, k3, k4, k5, k6, _⟩ := remove_mid (s := ⟨s.map, it'⟩) hI h2 h3
        rw [JM.when_pos hP, JM.bind_ok k1]
        obtain ⟨s3, F3, m1, m2, m3⟩ := drive_mid P fuel s2 _ _ [] l2' n' t' k2 k3 (by rw [k4]; omega)
        rw [JM.bind_ok m1, k4]
        refine ⟨s3, F3, rfl, m2, ?_⟩
        rw [k4] at m3
        rw [List.foldl_cons, dropIf, if_pos hP]
        exact m3
      · rw [JM.when_neg hP, JM.bind_ok (JM.pure_apply _ _)]
        obtain ⟨s3, F3, m1, m2, m3⟩ := drive_mid P fuel ⟨s.map, it'⟩ _ _ [] l2' n' t' hI h2 (by omega)
        rw [JM.bind_ok m1]
        refine ⟨s3, F3, rfl, m2, ?_⟩
        rw [List.foldl_cons, dropIf, if_neg hP]
        exact m3

theorem reset_start (s : Iterating K V) : ∃ it, reset s = .ok () ⟨s.map, it⟩ ∧ Start ⟨s.map, it⟩ :=
  ⟨_, rfl, rfl, rfl, rfl, rfl, rfl⟩

/-- What the loop leaves of the ideal map. -/
theorem foldl_dropIf (P : Int → Bool) : ∀ (l : List Int) (a : Abs K V),
    l.foldl (dropIf P) a = { a with
      rows := a.rows.filter fun r => !(decide (r.entry ∈ l) && P r.entry)
      free := (l.filter P).reverse ++ a.free }
  | [], a => by simp
  | e :: l, a => by
    rw [List.foldl_cons, foldl_dropIf P l]
    by_cases hP : P e = true
    · simp only [dropIf, if_pos hP, Abs.drop, List.filter_filter, List.filter_cons_of_pos hP]
      congr 1
      · apply List.filter_congr
        intro r _
        by_cases hr : r.entry = e <;> by_cases hl : r.entry ∈ l <;> simp_all
      · simp
    · simp only [dropIf, if_neg hP, List.filter_cons_of_neg hP]
      congr 1
      apply List.filter_congr
      intro r _
      by_cases hr : r.entry = e
      · rw [hr]; simp only [Bool.not_eq_true] at hP; simp [hP]
      · simp [hr]

theorem foldl_dropIf_order (P : Int → Bool) {s : Index K V} {a : Abs K V} {F : List Int}
    (h : Inv tight s a F) : (order s).foldl (dropIf P) a = { a with
      rows := a.rows.filter fun r => !(P r.entry)
      free := ((order s).filter P).reverse ++ a.free } := by
  rw [foldl_dropIf]
  congr 1
  apply List.filter_congr
  intro r hr
  have : r.entry ∈ order s := (order_perm h).mem_iff.2 (mem_live hr)
  simp [this]

end Iterating
end Verif

import Verif.Spec.Deque
import Verif.Proofs.Arrays
import Verif.Trace
/-! Proof that the ring buffer refines the ideal list. -/
namespace Verif.Deque
variable {α : Type}

structure Inv (ref : Bool) (d : α) (s : Deque α) (l : List α) : Prop where
  cap : 1 ≤ s.values.len ∧ (s.values.len : Int) ≤ 1073741824
  head : 0 ≤ s.head ∧ s.head < s.values.len
  tail : 0 ≤ s.tail ∧ s.tail < s.values.len
  size : s.size = l.length
  room : (l.length : Int) < s.values.len
  link : s.tail = s.head + l.length ∨ s.tail = s.head + l.length - s.values.len
  slots : ∀ (i : Nat) (j : Int), i < l.length → 0 ≤ j → j < s.values.len →
    (j = s.head + i ∨ j = s.head + i - s.values.len) → l[i]? = some (s.values.get j)
  rest : ref = true → ∀ j : Int, 0 ≤ j → j < s.values.len →
    (s.head ≤ s.tail → j < s.head ∨ s.tail ≤ j) →
    (s.tail < s.head → s.tail ≤ j ∧ j < s.head) → s.values.get j = d

theorem nil_or_snoc (l : List α) : l = [] ∨ ∃ l' v, l = l' ++ [v] := by
  rcases List.eq_nil_or_concat l with h | ⟨l', v, h⟩
  · exact .inl h
  · exact .inr ⟨l', v, by rw [h, List.concat_eq_append]⟩

theorem inv_new {ref : Bool} {d : α} {c : Int} {s : Deque α} (h : Deque.new c d = .ok s) :
    Inv ref d s [] := by
  unfold Deque.new at h
  split at h
  · simp at h
  · simp only at h
    split at h
    · simp at h
    · rename_i h1 h2
      have hr := nextPowerOf2_any c
      simp at h; subst h
      constructor <;> simp <;> omega

/-- Growing a full ring (head = tail, size = capacity) below the maximum. -/
theorem grow_full {ref : Bool} {d : α} {s : Deque α} {l : List α}
    (hcap : 1 ≤ s.values.len ∧ (s.values.len : Int) < 536870912)
    (htail : 0 ≤ s.tail ∧ s.tail < s.values.len) (hht : s.head = s.tail)
    (hsize : s.size = l.length) (hfull : l.length = s.values.len)
    (hslots : ∀ (i : Nat) (j : Int), i < l.length → 0 ≤ j → j < s.values.len →
      (j = s.head + i ∨ j = s.head + i - s.values.len) → l[i]? = some (s.values.get j)) :
    ∃ s', grow d s = .ok () s' ∧ Inv ref d s' l := by
  unfold grow
  rw [JM.bind_ok (JM.get_apply s)]
  rw [JM.bind_ok (calculateNewCapacity_ok (by omega) hcap.2)]
  rw [if_neg (by omega)]
  generalize hn : min (2 * (s.values.len : Int)) 536870912 = n
  rw [JM.bind_ok (newArr_ok d (by omega))]
  rw [JM.bind_ok (arraycopy_ok (by simp; omega)), JM.bind_ok (arraycopy_ok (by simp; omega))]
  refine ⟨_, rfl, ?_⟩
  constructor <;> simp only [Arr.len_copyRange, Arr.len_create, Arr.get_copyRange, Arr.get_create]
  case slots =>
    intro i j hi h0 h1 hj
    have hj' : j = i := by omega
    subst hj'
    by_cases hc : s.values.len - s.tail ≤ (i : Int)
    · rw [if_pos (by omega)]
      apply hslots <;> omega
    · rw [if_neg (by omega), if_pos (by omega)]
      apply hslots <;> omega
  case rest =>
    intro _ j h0 h1 h2 h3
    rw [if_neg (by omega), if_neg (by omega)]
  all_goals omega

/-- Growing at the maximum capacity throws and leaves the state as it was. -/
theorem grow_max {d : α} {s : Deque α} (h : (s.values.len : Int) = 536870912) :
    grow d s = .err .resize s := by
  unfold grow
  rw [JM.bind_ok (JM.get_apply s)]
  have : calculateNewCapacity s.values.len MAX_INT s = .ok (s.values.len : Int) s := by
    unfold calculateNewCapacity
    rw [MAX_CAPACITY_eq, if_pos h, if_neg (by unfold MAX_INT; omega)]; rfl
  rw [JM.bind_ok this, if_pos rfl]; rfl

theorem addFirst_spec {ref : Bool} {d : α} {s : Deque α} {l : List α} (h : Inv ref d s l) (v : α)
    (hb : (l.length : Int) + 1 < 536870912) :
    ∃ s', addFirst d v s = .ok () s' ∧ Inv ref d s' (v :: l) := by
  obtain ⟨hcap, hh, ht, hs, hroom, hlink, hslots, hrest⟩ := h
  have hd : ∃ p, dec s.head s.values.len = p ∧ 0 ≤ p ∧ p < s.values.len ∧
      (p = s.head - 1 ∨ p = s.head - 1 + s.values.len) := by
    refine ⟨_, rfl, ?_⟩; unfold dec; split <;> omega
  obtain ⟨p, hp, hp0, hp1, hp2⟩ := hd
  have hslots' : ∀ (i : Nat) (j : Int), i < (v :: l).length → 0 ≤ j → j < s.values.len →
      (j = p + i ∨ j = p + i - s.values.len) →
      (v :: l)[i]? = some ((s.values.set p v).get j) := by
    intro i j hi h0 h1 hj
    cases i with
    | zero =>
      have : j = p := by simp at hj; omega
      subst this; simp
    | succ i =>
      simp only [List.length_cons] at hi
      have : j ≠ p := by omega
      rw [Arr.get_set_ne _ _ this, List.getElem?_cons_succ]
      apply hslots <;> omega
  unfold addFirst
  rw [JM.bind_ok (JM.modify_apply _ s), JM.bind_ok (JM.get_apply _)]
  simp only [hp]
  rw [JM.bind_ok (wr_ok Deque.values _ (s := { s with head := p }) ⟨hp0, hp1⟩), JM.bind_ok (JM.modify_apply _ _),
    JM.bind_ok (JM.get_apply _)]
  simp only
  by_cases hg : p = s.tail
  · rw [if_pos hg]
    refine grow_full ?_ ?_ ?_ ?_ ?_ ?_
    · simp; omega
    · simp; omega
    · simp; exact hg
    · simp [hs]
    · simp; omega
    · simpa using hslots'
  · rw [if_neg hg]
    refine ⟨_, rfl, ?_⟩
    constructor <;> simp only [Arr.len_set, List.length_cons] <;> try omega
    · intro hr j h0 h1 h2 h3
      by_cases hjp : j = p
      · omega
      · rw [Arr.get_set_ne _ _ hjp]
        apply hrest hr j h0 h1 <;> omega

theorem addLast_spec {ref : Bool} {d : α} {s : Deque α} {l : List α} (h : Inv ref d s l) (v : α)
    (hb : (l.length : Int) + 1 < 536870912) :
    ∃ s', addLast d v s = .ok () s' ∧ Inv ref d s' (l ++ [v]) := by
  obtain ⟨hcap, hh, ht, hs, hroom, hlink, hslots, hrest⟩ := h
  have hd : ∃ p, inc s.tail s.values.len = p ∧ 0 ≤ p ∧ p < s.values.len ∧
      (p = s.tail + 1 ∨ p = s.tail + 1 - s.values.len) := by
    refine ⟨_, rfl, ?_⟩; unfold inc; split <;> omega
  obtain ⟨p, hp, hp0, hp1, hp2⟩ := hd
  have hslots' : ∀ (i : Nat) (j : Int), i < (l ++ [v]).length → 0 ≤ j → j < s.values.len →
      (j = s.head + i ∨ j = s.head + i - s.values.len) →
      (l ++ [v])[i]? = some ((s.values.set s.tail v).get j) := by
    intro i j hi h0 h1 hj
    simp only [List.length_append, List.length_cons, List.length_nil] at hi
    by_cases hil : i = l.length
    · have : j = s.tail := by omega
      subst this; simp [hil]
    · have : j ≠ s.tail := by omega
      rw [Arr.get_set_ne _ _ this, List.getElem?_append_left (by omega)]
      apply hslots <;> omega
  unfold addLast
  rw [JM.bind_ok (JM.get_apply _)]
  rw [JM.bind_ok (wr_ok _ _ ht), JM.bind_ok (JM.modify_apply _ _),
    JM.bind_ok (JM.modify_apply _ _), JM.bind_ok (JM.get_apply _)]
  simp only [Arr.len_set, hp]
  by_cases hg : s.head = p
  · rw [if_pos hg]
    refine grow_full ?_ ?_ ?_ ?_ ?_ ?_
    · simp; omega
    · simp; omega
    · simp; exact hg
    · simp [hs]
    · simp; omega
    · simpa using hslots'
  · rw [if_neg hg]
    refine ⟨_, rfl, ?_⟩
    constructor <;> simp only [Arr.len_set, List.length_append, List.length_cons,
      List.length_nil] <;> try omega
    · simpa using hslots'
    · intro hr j h0 h1 h2 h3
      by_cases hjp : j = s.tail
      · omega
      · rw [Arr.get_set_ne _ _ hjp]
        apply hrest hr j h0 h1 <;> omega

theorem removeFirst_spec {ref : Bool} {d : α} {s : Deque α} {v : α} {l : List α}
    (h : Inv ref d s (v :: l)) :
    ∃ s', removeFirst d s = .ok v s' ∧ Inv ref d s' l := by
  obtain ⟨hcap, hh, ht, hs, hroom, hlink, hslots, hrest⟩ := h
  simp only [List.length_cons] at *
  have hv := hslots 0 s.head (by omega) hh.1 hh.2 (by simp)
  simp at hv
  have hd : ∃ p, inc s.head s.values.len = p ∧ 0 ≤ p ∧ p < s.values.len ∧
      (p = s.head + 1 ∨ p = s.head + 1 - s.values.len) := by
    refine ⟨_, rfl, ?_⟩; unfold inc; split <;> omega
  obtain ⟨p, hp, hp0, hp1, hp2⟩ := hd
  unfold removeFirst
  rw [JM.bind_ok (JM.get_apply _), if_neg (by omega), JM.bind_ok (rd_ok _ hh),
    JM.bind_ok (wr_ok _ _ hh), JM.bind_ok (JM.modify_apply _ _), JM.bind_ok (JM.modify_apply _ _),
    JM.pure_apply, ← hv]
  refine ⟨_, rfl, ?_⟩
  constructor <;> simp only [Arr.len_set, hp] <;> try omega
  · intro i j hi h0 h1 hj
    have := hslots (i + 1) j (by omega) h0 h1 (by omega)
    rw [List.getElem?_cons_succ] at this
    rw [this, Arr.get_set_ne]
    omega
  · intro hr j h0 h1 h2 h3
    by_cases hjp : j = s.head
    · subst hjp; simp
    · rw [Arr.get_set_ne _ _ hjp]
      apply hrest hr j h0 h1 <;> omega

theorem removeLast_spec {ref : Bool} {d : α} {s : Deque α} {v : α} {l : List α}
    (h : Inv ref d s (l ++ [v])) :
    ∃ s', removeLast d s = .ok v s' ∧ Inv ref d s' l := by
  obtain ⟨hcap, hh, ht, hs, hroom, hlink, hslots, hrest⟩ := h
  simp only [List.length_append, List.length_cons, List.length_nil] at *
  have hd : ∃ p, dec s.tail s.values.len = p ∧ 0 ≤ p ∧ p < s.values.len ∧
      (p = s.tail - 1 ∨ p = s.tail - 1 + s.values.len) := by
    refine ⟨_, rfl, ?_⟩; unfold dec; split <;> omega
  obtain ⟨p, hp, hp0, hp1, hp2⟩ := hd
  have hv := hslots l.length p (by omega) hp0 hp1 (by omega)
  simp at hv
  unfold removeLast
  rw [JM.bind_ok (JM.get_apply _), if_neg (by omega), JM.bind_ok (JM.modify_apply _ _),
    JM.bind_ok (JM.get_apply _)]
  simp only [hp]
  rw [JM.bind_ok (rd_ok Deque.values (s := { s with tail := p }) ⟨hp0, hp1⟩),
    JM.bind_ok (wr_ok Deque.values _ (s := { s with tail := p }) ⟨hp0, hp1⟩), JM.bind_ok (JM.modify_apply _ _),
    JM.pure_apply]
  simp only [← hv]
  refine ⟨_, rfl, ?_⟩
  constructor <;> simp only [Arr.len_set] <;> try omega
  · intro i j hi h0 h1 hj
    have := hslots i j (by omega) h0 h1 (by omega)
    rw [List.getElem?_append_left hi] at this
    rw [this, Arr.get_set_ne]
    omega
  · intro hr j h0 h1 h2 h3
    by_cases hjp : j = p
    · subst hjp; simp
    · rw [Arr.get_set_ne _ _ hjp]
      apply hrest hr j h0 h1 <;> omega

theorem forEachFrom_spec {ref : Bool} {d : α} {s : Deque α} {l : List α} (h : Inv ref d s l) :
    ∀ (n : Nat) (k : Nat) (pos : Int) (fuel : Nat), k + n = l.length → n < fuel →
      0 ≤ pos → pos < s.values.len → (pos = s.head + k ∨ pos = s.head + k - s.values.len) →
      forEachFrom fuel pos s = .ok (l.drop k) s := by
  obtain ⟨hcap, hh, ht, hs, hroom, hlink, hslots, hrest⟩ := h
  intro n
  induction n with
  | zero =>
    intro k pos fuel hk hf h0 h1 hp
    obtain ⟨f, rfl⟩ : ∃ f, fuel = f + 1 := ⟨fuel - 1, by omega⟩
    unfold forEachFrom
    rw [JM.bind_ok (JM.get_apply _), if_pos (by omega), List.drop_eq_nil_of_le (by omega)]
    rfl
  | succ n ih =>
    intro k pos fuel hk hf h0 h1 hp
    obtain ⟨f, rfl⟩ : ∃ f, fuel = f + 1 := ⟨fuel - 1, by omega⟩
    have hd : ∃ p, inc pos s.values.len = p ∧ 0 ≤ p ∧ p < s.values.len ∧
        (p = pos + 1 ∨ p = pos + 1 - s.values.len) := by
      refine ⟨_, rfl, ?_⟩; unfold inc; split <;> omega
    obtain ⟨p, hp', hp0, hp1, hp2⟩ := hd
    have := ih (k + 1) p f (by omega) (by omega) hp0 hp1 (by omega)
    have hv := hslots k pos (by omega) h0 h1 hp
    unfold forEachFrom
    rw [JM.bind_ok (JM.get_apply _), if_neg (by omega), JM.bind_ok (rd_ok _ ⟨h0, h1⟩)]
    simp only [hp']
    rw [JM.bind_ok this]
    have hk' : k < l.length := by omega
    rw [List.drop_eq_getElem_cons hk']
    rw [List.getElem?_eq_getElem hk'] at hv
    simp at hv
    rw [hv]; rfl

theorem forEach_spec {ref : Bool} {d : α} {s : Deque α} {l : List α} (h : Inv ref d s l) :
    forEach s = .ok l s := by
  unfold forEach
  rw [JM.bind_ok (JM.get_apply _)]
  have := forEachFrom_spec h l.length 0 s.head (s.values.len + 1) (by omega)
    (by have := h.room; omega) h.head.1 h.head.2 (by simp)
  simpa using this

theorem clear_spec {ref : Bool} {d : α} {s : Deque α} {l : List α} (h : Inv ref d s l) :
    ∃ s', clear ref d s = .ok () s' ∧ Inv ref d s' [] := by
  obtain ⟨hcap, hh, ht, hs, hroom, hlink, hslots, hrest⟩ := h
  unfold clear
  cases ref with
  | false =>
    refine ⟨_, rfl, ?_⟩
    constructor <;> simp <;> omega
  | true =>
    rw [JM.when_pos rfl, JM.bind_apply]
    by_cases hc : s.head > s.tail
    · rw [JM.bind_ok (JM.get_apply _), if_pos hc, JM.bind_ok (fill_ok _ _ (by omega)),
        JM.bind_ok (fill_ok _ _ (by simp; omega))]
      refine ⟨_, rfl, ?_⟩
      constructor <;> simp only [Arr.len_fillRange] <;>
        try (first | omega | (simp; done) | (simp; omega))
      intro _ j h0 h1 h2 h3
      simp only [Arr.get_fillRange]
      by_cases hjt : j < s.tail
      · rw [if_pos (by omega)]
      · rw [if_neg (by omega)]
        by_cases hjh : s.head ≤ j
        · rw [if_pos (by omega)]
        · rw [if_neg (by omega)]
          apply hrest rfl j h0 h1 <;> omega
    · rw [JM.bind_ok (JM.get_apply _), if_neg hc, JM.bind_ok (fill_ok _ _ (by omega))]
      refine ⟨_, rfl, ?_⟩
      constructor <;> simp only [Arr.len_fillRange] <;>
        try (first | omega | (simp; done) | (simp; omega))
      intro _ j h0 h1 h2 h3
      simp only [Arr.get_fillRange]
      by_cases hjt : s.head ≤ j ∧ j < s.tail
      · rw [if_pos (by omega)]
      · rw [if_neg (by omega)]
        apply hrest rfl j h0 h1 <;> omega

theorem step_spec {ref : Bool} {d : α} (s : Deque α) (l : List α) (o : Op α)
    (h : Inv ref d s l) (hb : DequeSpec.Bounded o l) :
    (step ref d o s).out = (DequeSpec.step o l).1 ∧
      Inv ref d (step ref d o s).state (DequeSpec.step o l).2 := by
  unfold DequeSpec.Bounded at hb
  cases o with
  | addFirst v =>
    simp only [DequeSpec.step, List.length_cons] at hb
    obtain ⟨s', h1, h2⟩ := addFirst_spec h v (by omega)
    simp [step, JM.bind_apply, h1, DequeSpec.step, h2]
  | addLast v =>
    simp only [DequeSpec.step, List.length_append, List.length_cons, List.length_nil] at hb
    obtain ⟨s', h1, h2⟩ := addLast_spec h v (by omega)
    simp [step, JM.bind_apply, h1, DequeSpec.step, h2]
  | removeFirst =>
    cases l with
    | nil =>
      have : removeFirst d s = .err .noSuchElement s := by
        unfold removeFirst
        rw [JM.bind_ok (JM.get_apply _), if_pos (by simpa using h.size)]; rfl
      simp [step, JM.bind_apply, this, DequeSpec.step, h]
    | cons v l =>
      obtain ⟨s', h1, h2⟩ := removeFirst_spec h
      simp [step, JM.bind_apply, h1, DequeSpec.step, h2]
  | removeLast =>
    rcases nil_or_snoc l with rfl | ⟨l', v, rfl⟩
    · have : removeLast d s = .err .noSuchElement s := by
        unfold removeLast
        rw [JM.bind_ok (JM.get_apply _), if_pos (by simpa using h.size)]; rfl
      simp [step, JM.bind_apply, this, DequeSpec.step, h]
    · obtain ⟨s', h1, h2⟩ := removeLast_spec h
      simp [step, JM.bind_apply, h1, DequeSpec.step, h2]
  | peekFirst =>
    cases l with
    | nil =>
      have : peekFirst s = .err .noSuchElement s := by
        unfold peekFirst
        rw [JM.bind_ok (JM.get_apply _), if_pos (by simpa using h.size)]; rfl
      simp [step, JM.bind_apply, this, DequeSpec.step, h]
    | cons v l =>
      have : peekFirst s = .ok v s := by
        unfold peekFirst
        have hv := h.slots 0 s.head (by simp) h.head.1 h.head.2 (by simp)
        simp at hv
        rw [JM.bind_ok (JM.get_apply _), if_neg (by have := h.size; simp at this; omega),
          rd_ok _ h.head, ← hv]
      simp [step, JM.bind_apply, this, DequeSpec.step, h]
  | peekLast =>
    rcases nil_or_snoc l with rfl | ⟨l', v, rfl⟩
    · have : peekLast s = .err .noSuchElement s := by
        unfold peekLast
        rw [JM.bind_ok (JM.get_apply _), if_pos (by simpa using h.size)]; rfl
      simp [step, JM.bind_apply, this, DequeSpec.step, h]
    · have : peekLast s = .ok v s := by
        unfold peekLast
        obtain ⟨hcap, hh, ht, hs, hroom, hlink, hslots, hrest⟩ := h
        simp only [List.length_append, List.length_cons, List.length_nil] at *
        have hd : ∃ p, dec s.tail s.values.len = p ∧ 0 ≤ p ∧ p < s.values.len ∧
            (p = s.tail - 1 ∨ p = s.tail - 1 + s.values.len) := by
          refine ⟨_, rfl, ?_⟩; unfold dec; split <;> omega
        obtain ⟨p, hp, hp0, hp1, hp2⟩ := hd
        have hv := hslots l'.length p (by omega) hp0 hp1 (by omega)
        simp at hv
        rw [JM.bind_ok (JM.get_apply _), if_neg (by omega), hp, rd_ok _ ⟨hp0, hp1⟩, ← hv]
      simp [step, JM.bind_apply, this, DequeSpec.step, h]
  | size =>
    simp [step, JM.bind_apply, getSize, DequeSpec.step, h, h.size]
  | isEmpty =>
    have : decide (s.size = 0) = l.isEmpty := by
      have := h.size
      cases l <;> simp_all
      omega
    simp [step, JM.bind_apply, isEmpty, DequeSpec.step, h, this]
  | forEach =>
    simp [step, JM.bind_apply, forEach_spec h, DequeSpec.step, h]
  | clear =>
    obtain ⟨s', h1, h2⟩ := clear_spec h
    simp [step, JM.bind_apply, h1, DequeSpec.step, h2]

end Verif.Deque

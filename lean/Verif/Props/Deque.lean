import Verif.Proofs.Deque
/-! # Properties C01 - C03: the deque -/
namespace Verif
open Deque
variable {α : Type}

theorem nextPowerOf2_over {v : Int} (h1 : 2 ^ 30 < v) (h2 : v < 2 ^ 31) : nextPowerOf2 v = -2 ^ 31 := by
  have hw : i32 (v - 1) = v - 1 := i32_of_range (by omega)
  unfold nextPowerOf2
  rw [hw]
  obtain ⟨x, hx⟩ : ∃ x : Nat, v - 1 = (x : Int) := ⟨(v - 1).toNat, by omega⟩
  have hx0 : x ≠ 0 := by omega
  rw [hx]
  have hnlz : numberOfLeadingZeros (x : Int) = 31 - (Nat.log2 x : Int) := by
    simp [numberOfLeadingZeros]; omega
  have h3 : Nat.log2 x < 31 := by rw [Nat.log2_lt hx0]; omega
  have h4 : 30 ≤ Nat.log2 x := by rw [Nat.le_log2 hx0]; omega
  rw [hnlz, show Nat.log2 x = 30 by omega]
  decide

/-- Every legal initial capacity gives a deque; every other one is rejected (an `int` over 2^30 has no next power of two
in `int`). -/
theorem C01_new (c : Int) (d : α) :
    (1 ≤ c → c ≤ 2 ^ 30 → ∃ s, Deque.new c d = .ok s) ∧
    (c < 1 → Deque.new c d = .error .illegalArgument) ∧
    (2 ^ 30 < c → c < 2 ^ 31 → Deque.new c d = .error .negativeArraySize) := by
  refine ⟨?_, ?_, ?_⟩
  · intro h1 h2
    have := nextPowerOf2_range h1 h2
    unfold Deque.new
    rw [if_neg (by omega)]
    simp only
    rw [if_neg (by omega)]
    exact ⟨_, rfl⟩
  · intro h; unfold Deque.new; rw [if_pos h]
  · intro h1 h2
    unfold Deque.new
    have e : nextPowerOf2 c = -2 ^ 31 := nextPowerOf2_over h1 h2
    rw [if_neg (by omega)]
    simp only
    rw [if_pos (by omega)]

/-- C01: for every initial capacity, every element type and every history of calls that keeps
fewer than 2^29 elements, every result of the deque is the result of the ideal list
(`DequeSpec.step`). -/
theorem C01_deque_is_list (ref : Bool) (d : α) (c : Int) (s : Deque α)
    (hnew : Deque.new c d = .ok s) (ops : List (Op α))
    (hb : Allowed DequeSpec.step DequeSpec.Bounded [] ops) :
    (runM (step ref d) s ops).1 = (runS DequeSpec.step [] ops).1 :=
  (runM_refines (fun s a o h g => step_spec s a o h g) ops s [] (inv_new (ref := ref) hnew) hb).1

/- Non-vacuity: a capacity-2 deque that wraps and grows; the hypotheses hold and the outputs are
as computed. -/
example : ∃ s : Deque Int, Deque.new 2 0 = .ok s ∧
    Allowed DequeSpec.step DequeSpec.Bounded []
      [Op.addLast 1, .addLast 2, .addFirst 3, .removeLast, .forEach, .removeFirst, .size] ∧
    (runM (step true 0) s
      [Op.addLast 1, .addLast 2, .addFirst 3, .removeLast, .forEach, .removeFirst, .size]).1 =
      [.ok .unit, .ok .unit, .ok .unit, .ok (.val 2), .ok (.seq [3, 1]), .ok (.val 3),
        .ok (.int 1)] :=
  ⟨_, rfl, by simp [Allowed, DequeSpec.Bounded, DequeSpec.step], rfl⟩

/-- C01 (beyond the bound): the boundary is real.  A deque holding 2^29 - 1 elements in its
maximal array answers the next `addLast` with ResizeException, and afterwards `size` says 2^29
while `forEach` shows nothing. -/
theorem C01_full_add_corrupts_refuted (ref : Bool) (d v : α) (s : Deque α) (l : List α)
    (ops : List (Op α)) (c : Int) (s0 : Deque α)
    (hnew : Deque.new c d = .ok s0)
    (hb : Allowed DequeSpec.step DequeSpec.Bounded [] ops)
    (hs : (runM (step ref d) s0 ops).2 = s) (hl : (runS DequeSpec.step [] ops).2 = l)
    (hcap : s.values.len = 2 ^ 29) (hfull : l.length = 2 ^ 29 - 1) :
    (runM (step ref d) s [.addLast v, .size, .forEach]).1 =
      [.error .resize, .ok (.int (2 ^ 29)), .ok (.seq [])] := by
  have hinv := (runM_refines (fun s a o h g => step_spec s a o h g) ops s0 []
    (inv_new (ref := ref) hnew) hb).2
  rw [hs, hl] at hinv
  obtain ⟨hcap', hh, ht, hsz, hroom, hlink, hslots, hrest⟩ := hinv
  have hd : inc s.tail s.values.len = s.head := by
    unfold inc; split <;> omega
  have h1 : addLast d v s =
      .err .resize { s with values := s.values.set s.tail v, size := s.size + 1, tail := s.head } := by
    unfold addLast
    rw [JM.bind_ok (JM.get_apply _), JM.bind_ok (wr_ok _ _ ht), JM.bind_ok (JM.modify_apply _ _),
      JM.bind_ok (JM.modify_apply _ _), JM.bind_ok (JM.get_apply _)]
    simp only [Arr.len_set, hd, if_true]
    rw [grow_max]
    simp; omega
  have h2 : ∀ t : Deque α, t.head = t.tail → forEach t = .ok [] t := by
    intro t ht
    unfold forEach
    rw [JM.bind_ok (JM.get_apply _), forEachFrom, JM.bind_ok (JM.get_apply _), if_pos ht]; rfl
  have h3 := h2 { s with values := s.values.set s.tail v, size := s.size + 1, tail := s.head } rfl
  simp [runM, step, JM.bind_apply, h1, getSize, h3]
  omega

/-- Without growth the array length stays, so the state of `C01_full_add_corrupts_refuted` is
reachable: any history of `addLast` calls on a deque created with capacity 2^29 keeps that array
as long as fewer than 2^29 elements are held. -/
theorem addLast_keeps_len {ref : Bool} {d v : α} {s : Deque α} {l : List α} (h : Inv ref d s l)
    (hlen : s.values.len = 2 ^ 29) (hl : (l.length : Int) + 1 < 2 ^ 29) :
    (addLast d v s).state.values.len = 2 ^ 29 := by
  obtain ⟨hcap', hh, ht, hsz, hroom, hlink, hslots, hrest⟩ := h
  have hd : s.head ≠ inc s.tail s.values.len := by
    unfold inc; split <;> omega
  unfold addLast
  rw [JM.bind_ok (JM.get_apply _), JM.bind_ok (wr_ok _ _ ht), JM.bind_ok (JM.modify_apply _ _),
    JM.bind_ok (JM.modify_apply _ _), JM.bind_ok (JM.get_apply _)]
  rw [if_neg (by simpa using hd)]
  simpa using hlen

theorem adds_reach (ref : Bool) (d : α) : ∀ (vs : List α) (s : Deque α) (l : List α),
    Inv ref d s l → s.values.len = 2 ^ 29 → l.length + vs.length < 2 ^ 29 →
    Allowed DequeSpec.step DequeSpec.Bounded l (vs.map Op.addLast) ∧
    (runM (step ref d) s (vs.map Op.addLast)).2.values.len = 2 ^ 29 ∧
    (runS DequeSpec.step l (vs.map Op.addLast)).2 = l ++ vs
  | [], s, l, _, hlen, _ => ⟨trivial, hlen, by simp [runS]⟩
  | v :: vs, s, l, h, hlen, hl => by
    simp only [List.length_cons] at hl
    have hb : DequeSpec.Bounded (Op.addLast v) l := by
      simp only [DequeSpec.Bounded, DequeSpec.step, List.length_append, List.length_cons,
        List.length_nil]; omega
    have h1 := (step_spec s l (.addLast v) h hb).2
    have h2 : (step ref d (Op.addLast v) s).state = (addLast d v s).state := by
      simp only [step, JM.bind_apply]
      cases addLast d v s <;> rfl
    have h3 : (step ref d (Op.addLast v) s).state.values.len = 2 ^ 29 := by
      rw [h2]; exact addLast_keeps_len h hlen (by omega)
    have ih := adds_reach ref d vs _ _ h1 h3 (by simp [DequeSpec.step]; omega)
    refine ⟨⟨hb, ih.1⟩, ih.2.1, ?_⟩
    simp only [List.map_cons, runS]
    rw [ih.2.2]; simp [DequeSpec.step]

/-- The hypotheses of `C01_full_add_corrupts_refuted` are met: capacity 2^29, then 2^29 - 1
calls of `addLast`. -/
example (v : Int) : ∃ (ops : List (Op Int)) (s0 : Deque Int), Deque.new (2 ^ 29) 0 = .ok s0 ∧
    Allowed DequeSpec.step DequeSpec.Bounded [] ops ∧
    (runM (step false 0) s0 ops).2.values.len = 2 ^ 29 ∧
    (runS DequeSpec.step [] ops).2.length = 2 ^ 29 - 1 := by
  have key : ∀ n c : Nat, n + 1 = c → c = 2 ^ 29 →
      ∃ (ops : List (Op Int)) (s0 : Deque Int), Deque.new (c : Int) 0 = .ok s0 ∧
      Allowed DequeSpec.step DequeSpec.Bounded [] ops ∧
      (runM (step false 0) s0 ops).2.values.len = c ∧
      (runS DequeSpec.step [] ops).2.length = n := by
    intro n c hn hc
    have e : nextPowerOf2 (c : Int) = (c : Int) := by rw [hc]; decide
    have hnew : Deque.new (c : Int) (0 : Int) = .ok ⟨Arr.create (c : Int) 0, 0, 0, 0⟩ := by
      unfold Deque.new
      rw [if_neg (by omega)]; simp only [e]; rw [if_neg (by omega)]
    obtain ⟨h1, h2, h3⟩ := adds_reach false (0 : Int) (List.replicate n v) _ []
      (inv_new hnew) (by simp [hc]) (by simp only [List.length_replicate, List.length_nil]; omega)
    exact ⟨_, _, hnew, h1, by rw [h2, hc], by rw [h3]; simp⟩
  exact key (2 ^ 29 - 1) (2 ^ 29) rfl rfl

/-- C02: after any history, the four accessors throw NoSuchElementException exactly when the ideal
list is empty, and then every later result is as if the call had not happened. -/
theorem C02_empty_access (ref : Bool) (d : α) (c : Int) (s0 : Deque α)
    (hnew : Deque.new c d = .ok s0) (ops : List (Op α))
    (hb : Allowed DequeSpec.step DequeSpec.Bounded [] ops) (o : Op α)
    (ho : o = .removeFirst ∨ o = .removeLast ∨ o = .peekFirst ∨ o = .peekLast) :
    let s := (runM (step ref d) s0 ops).2
    let l := (runS DequeSpec.step [] ops).2
    ((step ref d o s).out = .error .noSuchElement ↔ l = []) ∧
    ((∃ v, (step ref d o s).out = .ok (.val v)) ↔ l ≠ []) ∧
    (l = [] → (step ref d o s).state = s) := by
  intro s l
  have hinv : Inv ref d s l := (runM_refines (fun s a o h g => step_spec s a o h g) ops s0 []
    (inv_new (ref := ref) hnew) hb).2
  have hroom : DequeSpec.Bounded o l → (step ref d o s).out = (DequeSpec.step o l).1 :=
    fun g => (step_spec s l o hinv g).1
  have hb' : DequeSpec.Bounded o l := by
    have hbl : (l.length : Int) < 2 ^ 29 := by
      -- the last state of an allowed history is bounded
      have : ∀ (ops : List (Op α)) (a : List α), (a.length : Int) < 2 ^ 29 →
          Allowed DequeSpec.step DequeSpec.Bounded a ops →
          ((runS DequeSpec.step a ops).2.length : Int) < 2 ^ 29 := by
        intro ops
        induction ops with
        | nil => intro a h _; exact h
        | cons o os ih => intro a _ hg; exact ih _ hg.1 hg.2
      exact this ops [] (by simp) hb
    unfold DequeSpec.Bounded
    rcases ho with rfl | rfl | rfl | rfl
    · cases hl : l with
      | nil => simp [DequeSpec.step]
      | cons v l' => rw [hl] at hbl; simp [DequeSpec.step] at *; omega
    · rcases nil_or_snoc l with hl | ⟨l', v, hl⟩
      · rw [hl]; simp [DequeSpec.step]
      · rw [hl] at hbl ⊢; simp [DequeSpec.step] at *; omega
    · cases hl : l with
      | nil => simp [DequeSpec.step]
      | cons v l' => rw [hl] at hbl; simp [DequeSpec.step] at *; omega
    · rcases nil_or_snoc l with hl | ⟨l', v, hl⟩
      · rw [hl]; simp [DequeSpec.step]
      · rw [hl] at hbl ⊢; simp [DequeSpec.step] at *; omega
  rw [hroom hb']
  have hsz := hinv.size
  rcases ho with rfl | rfl | rfl | rfl <;> rcases nil_or_snoc l with hl | ⟨l', v, hl⟩
  all_goals rw [hl] at hsz ⊢
  all_goals first
    | (simp only [List.length_nil] at hsz
       simp [DequeSpec.step, step, removeFirst, removeLast, peekFirst, peekLast, JM.bind_apply]
       simp [hsz])
    | (simp [DequeSpec.step]; done)
    | (cases l' <;> simp [DequeSpec.step])

example : (step true 0 Op.peekLast (⟨Arr.create 4 0, 2, 2, 0⟩ : Deque Int)).out =
    .error .noSuchElement := rfl

/-- C03: after any history on a reference-typed deque, every array slot holds either a current
element or the default: removed, cleared and moved elements are not retained. -/
theorem C03_no_stale_references (d : α) (c : Int) (s0 : Deque α)
    (hnew : Deque.new c d = .ok s0) (ops : List (Op α))
    (hb : Allowed DequeSpec.step DequeSpec.Bounded [] ops) :
    let s := (runM (step true d) s0 ops).2
    let l := (runS DequeSpec.step [] ops).2
    ∀ j : Int, 0 ≤ j → j < s.values.len →
      s.values.get j = d ∨
        ∃ i : Nat, i < l.length ∧ l[i]? = some (s.values.get j) ∧
          j = (s.head + i) % s.values.len := by
  intro s l j h0 h1
  have hinv : Inv true d s l := (runM_refines (fun s a o h g => step_spec s a o h g) ops s0 []
    (inv_new (ref := true) hnew) hb).2
  obtain ⟨hcap', hh, ht, hsz, hroom, hlink, hslots, hrest⟩ := hinv
  have key : (j < s.head ∧ (s.head ≤ s.tail ∨ s.tail ≤ j) ∨ s.head ≤ s.tail ∧ s.tail ≤ j) ∨
      ∃ i : Nat, i < l.length ∧ (j = s.head + i ∨ j = s.head + i - s.values.len) := by
    by_cases hin : j < s.head ∧ (s.head ≤ s.tail ∨ s.tail ≤ j) ∨ s.head ≤ s.tail ∧ s.tail ≤ j
    · exact .inl hin
    · right
      by_cases hj : s.head ≤ j
      · exact ⟨(j - s.head).toNat, by omega, by omega⟩
      · exact ⟨(j - s.head + s.values.len).toNat, by omega, by omega⟩
  rcases key with hk | ⟨i, hi, hj⟩
  · left; apply hrest rfl j h0 h1 <;> omega
  · right
    refine ⟨i, hi, hslots i j hi h0 h1 hj, ?_⟩
    rcases hj with hj | hj
    · rw [← hj, Int.emod_eq_of_lt h0 h1]
    · have : s.head + (i : Int) = j + s.values.len := by omega
      rw [this, Int.add_emod_right, Int.emod_eq_of_lt h0 h1]

/-- C03 counts: no slot is used twice, since there are exactly as many element slots as
elements (`s.size` is the list length and is below the array length). -/
theorem C03_slots_bounded (d : α) (c : Int) (s0 : Deque α)
    (hnew : Deque.new c d = .ok s0) (ops : List (Op α))
    (hb : Allowed DequeSpec.step DequeSpec.Bounded [] ops) :
    let s := (runM (step true d) s0 ops).2
    let l := (runS DequeSpec.step [] ops).2
    s.size = l.length ∧ (l.length : Int) < s.values.len := by
  intro s l
  have hinv : Inv true d s l := (runM_refines (fun s a o h g => step_spec s a o h g) ops s0 []
    (inv_new (ref := true) hnew) hb).2
  exact ⟨hinv.size, hinv.room⟩

example : ∃ s0 : Deque (Option Int), Deque.new 2 none = .ok s0 ∧
    (runM (step true none) s0 [.addLast (some 1), .addLast (some 2), .removeFirst]).2.values.toList
      = [none, some 2, none, none] := ⟨_, rfl, rfl⟩

end Verif

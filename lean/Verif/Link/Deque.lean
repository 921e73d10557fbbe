import Verif.Link.Basic
import Verif.Gen.KeyDeque
import Verif.Proofs.Deque
/-! `KeyDeque.ftl`: the generated code agrees with the model. -/
namespace Verif.Link.Deque
open Verif Verif.Deque
variable {α : Type}

/-- The numbers of the object fit into an `int`. -/
structure Fits (s : Deque α) : Prop where
  len : 1 ≤ s.values.len ∧ (s.values.len : Int) ≤ 2 ^ 30
  head : 0 ≤ s.head ∧ s.head < s.values.len
  tail : 0 ≤ s.tail ∧ s.tail < s.values.len
  size : 0 ≤ s.size ∧ s.size < 2 ^ 31 - 1

/-- One public call of the generated class. -/
def step (fuel : Nat) (ref : Bool) (d : α) : Op α → JM (Deque α) (Out α)
  | .addFirst v => do Gen.KeyDeque.addFirst ref d v; pure .unit
  | .addLast v => do Gen.KeyDeque.addLast ref d v; pure .unit
  | .removeFirst => do return .val (← Gen.KeyDeque.removeFirst ref d)
  | .removeLast => do return .val (← Gen.KeyDeque.removeLast ref d)
  | .peekFirst => do return .val (← Gen.KeyDeque.peekFirst ref d)
  | .peekLast => do return .val (← Gen.KeyDeque.peekLast ref d)
  | .size => do return .int (← Gen.KeyDeque.size ref d)
  | .isEmpty => do return .bool (← Gen.KeyDeque.isEmpty ref d)
  | .forEach => do return .seq (← Gen.KeyDeque.forEach ref d fuel pure)
  | .clear => do Gen.KeyDeque.clear ref d; pure .unit

theorem inc_eq (ref : Bool) (d : α) {i m : Int} (hi : -2 ^ 30 < i ∧ i ≤ 2 ^ 30) :
    Gen.KeyDeque.inc ref d i m = pure (inc i m) := by
  unfold Gen.KeyDeque.inc inc
  rw [i32_of_range (by omega)]
  by_cases h : i + 1 ≥ m <;> simp [h] <;> rfl

theorem dec_eq (ref : Bool) (d : α) {i m : Int} (hi : -2 ^ 30 < i ∧ i ≤ 2 ^ 30)
    (hm : -2 ^ 30 < m ∧ m ≤ 2 ^ 30) :
    Gen.KeyDeque.dec ref d i m = pure (dec i m) := by
  unfold Gen.KeyDeque.dec dec
  rw [i32_of_range (by omega), i32_of_range (by omega)]
  by_cases h : i - 1 < 0 <;> simp [h] <;> rfl

theorem inc_range {i m : Int} (hi : -2 ^ 30 < i ∧ i ≤ 2 ^ 30) (hm : -2 ^ 30 < m ∧ m ≤ 2 ^ 30) :
    -2 ^ 30 < inc i m ∧ inc i m ≤ 2 ^ 30 := by
  unfold inc; split <;> omega

theorem grow_eq (ref : Bool) (d : α) {s : Deque α}
    (h1 : 1 ≤ s.values.len ∧ (s.values.len : Int) ≤ 2 ^ 30)
    (h3 : 0 ≤ s.tail ∧ s.tail < s.values.len) :
    Gen.KeyDeque.grow ref d s = Verif.Deque.grow d s := by
  unfold Gen.KeyDeque.grow Verif.Deque.grow
  obtain ⟨r, hr⟩ := calc_local (Deque α) s.values.len MAX_INT
  have e : i32 ((s.values.len : Int) - s.tail) = s.values.len - s.tail := i32_of_range (by omega)
  simp only [calculateNewCapacity_eq, JM.bind_apply, JM.get_apply, hr, e]
  rcases r with _ | v
  · rfl
  by_cases hv : v = s.values.len
  · simp [hv]
  obtain ⟨r, hr⟩ := newArr_local (Deque α) v d
  simp only [ofExcept_ok, ite_apply, hv, decide_false, Bool.false_eq_true, if_false, JM.pure_apply,
    JM.bind_apply, JM.get_apply, hr, e]
  rcases r with _ | a
  · rfl
  obtain ⟨r, hr⟩ := arraycopy_local (Deque α) s.values s.tail a 0 (s.values.len - s.tail)
  simp only [ofExcept_ok, e, hr]
  rcases r with _ | a
  · rfl
  obtain ⟨r, hr⟩ := arraycopy_local (Deque α) s.values 0 a (s.values.len - s.tail) s.tail
  simp only [ofExcept_ok, e, hr]
  rcases r with _ | a
  · rfl
  · rfl

theorem inc_in {i m : Int} (h : 0 < m) (h0 : 0 ≤ i) (hi : i < m) : 0 ≤ inc i m ∧ inc i m < m := by
  unfold inc; split <;> omega

theorem wr_cases {i : Int} {v : α} {s : Deque α} :
    (0 ≤ i ∧ i < s.values.len ∧
      wr Deque.values (fun t a => { t with values := a }) i v s =
        .ok () { s with values := s.values.set i v }) ∨
    ¬(0 ≤ i ∧ i < s.values.len) ∧ wr Deque.values (fun t a => { t with values := a }) i v s =
        .err .indexOutOfBounds s := by
  by_cases h : 0 ≤ i ∧ i < s.values.len
  · exact .inl ⟨h.1, h.2, wr_ok _ _ h⟩
  · refine .inr ⟨h, ?_⟩; simp only [wr]; rw [if_neg h]

theorem rd_cases {i : Int} {s : Deque α} :
    (0 ≤ i ∧ i < s.values.len ∧ rd Deque.values i s = .ok (s.values.get i) s) ∨
    ¬(0 ≤ i ∧ i < s.values.len) ∧ rd Deque.values i s = .err .indexOutOfBounds s := by
  by_cases h : 0 ≤ i ∧ i < s.values.len
  · exact .inl ⟨h.1, h.2, rd_ok _ h⟩
  · refine .inr ⟨h, ?_⟩; simp only [rd]; rw [if_neg h]

theorem addFirst_eq (ref : Bool) (d v : α) {s : Deque α} (h : Fits s) :
    Gen.KeyDeque.addFirst ref d v s = addFirst d v s := by
  obtain ⟨h1, h2, h3, h4⟩ := h
  unfold Gen.KeyDeque.addFirst addFirst
  have e2 : i32 (s.size + 1) = s.size + 1 := i32_of_range (by omega)
  simp only [JM.bind_apply, JM.get_apply, JM.modify_apply, dec_eq ref d (i := s.head) (by omega) (m := s.values.len) (by omega),
    JM.pure_apply]
  have hd : -2 ^ 30 < dec s.head s.values.len ∧ dec s.head s.values.len ≤ 2 ^ 30 := by
    unfold dec; split <;> omega
  rcases wr_cases (i := dec s.head s.values.len) (v := v)
    (s := { s with head := dec s.head s.values.len }) with ⟨_, _, hw⟩ | ⟨_, hw⟩
  · rw [hw]
    simp only [e2]
    by_cases hh : dec s.head s.values.len = s.tail
    · simp only [hh, decide_true, if_true]
      rw [bind_unit, grow_eq ref d (by simpa using h1) (by simp at *; omega)]
      cases Verif.Deque.grow d _ <;> rfl
    · simp only [hh, decide_false, Bool.false_eq_true, if_false]; rfl
  · rw [hw]

theorem addLast_eq (ref : Bool) (d v : α) {s : Deque α} (h : Fits s) :
    Gen.KeyDeque.addLast ref d v s = addLast d v s := by
  obtain ⟨h1, h2, h3, h4⟩ := h
  unfold Gen.KeyDeque.addLast addLast
  have e2 : i32 (s.size + 1) = s.size + 1 := i32_of_range (by omega)
  simp only [JM.bind_apply, JM.get_apply]
  have hd : -2 ^ 30 < inc s.tail s.values.len ∧ inc s.tail s.values.len ≤ 2 ^ 30 := by
    unfold inc; split <;> omega
  rcases wr_cases (i := s.tail) (v := v) (s := s) with ⟨_, _, hw⟩ | ⟨_, hw⟩
  · rw [hw]
    simp only [e2, JM.modify_apply, inc_eq ref d (i := s.tail) (by omega), JM.pure_apply, Arr.len_set]
    by_cases hh : s.head = inc s.tail s.values.len
    · simp only [hh, decide_true, if_true]
      rw [bind_unit, grow_eq ref d (by simpa using h1) (by simp at *; omega)]
      cases Verif.Deque.grow d _ <;> rfl
    · simp only [hh, decide_false, Bool.false_eq_true, if_false]; rfl
  · rw [hw]

theorem removeFirst_eq (ref : Bool) (d : α) {s : Deque α} (h : Fits s) :
    Gen.KeyDeque.removeFirst ref d s = removeFirst d s := by
  obtain ⟨h1, h2, h3, h4⟩ := h
  unfold Gen.KeyDeque.removeFirst removeFirst
  have e2 : i32 (s.size - 1) = s.size - 1 := i32_of_range (by omega)
  simp only [JM.bind_apply, JM.get_apply]
  by_cases hs : s.size = 0
  · simp [hs]
  simp only [hs, decide_false, Bool.false_eq_true, if_false, JM.pure_apply, JM.bind_apply]
  rcases rd_cases (i := s.head) (s := s) with ⟨hh1, hh2, hw⟩ | ⟨_, hw⟩
  · rw [hw]
    simp only [wr_ok (arr := Deque.values) (i := s.head) (s := s) _ ⟨hh1, hh2⟩, e2,
      JM.modify_apply, inc_eq ref d (i := s.head) (by omega), JM.pure_apply, Arr.len_set]
  · rw [hw]

theorem removeLast_eq (ref : Bool) (d : α) {s : Deque α} (h : Fits s) :
    Gen.KeyDeque.removeLast ref d s = removeLast d s := by
  obtain ⟨h1, h2, h3, h4⟩ := h
  unfold Gen.KeyDeque.removeLast removeLast
  have e2 : i32 (s.size - 1) = s.size - 1 := i32_of_range (by omega)
  simp only [JM.bind_apply, JM.get_apply]
  by_cases hs : s.size = 0
  · simp [hs]
  simp only [hs, decide_false, Bool.false_eq_true, if_false, JM.pure_apply, JM.bind_apply,
    dec_eq ref d (i := s.tail) (by omega) (m := s.values.len) (by omega), JM.modify_apply, JM.get_apply]
  rcases rd_cases (i := dec s.tail s.values.len) (s := { s with tail := dec s.tail s.values.len })
    with ⟨hh1, hh2, hw⟩ | ⟨_, hw⟩
  · rw [hw]
    simp only [wr_ok (arr := Deque.values) (i := dec s.tail s.values.len)
      (s := { s with tail := dec s.tail s.values.len }) _ ⟨hh1, hh2⟩, e2]
  · rw [hw]

theorem peekFirst_eq (ref : Bool) (d : α) (s : Deque α) :
    Gen.KeyDeque.peekFirst ref d s = peekFirst s := by
  unfold Gen.KeyDeque.peekFirst peekFirst
  simp only [JM.bind_apply, JM.get_apply]
  by_cases hs : s.size = 0
  · simp [hs]
  · simp [hs]

theorem peekLast_eq (ref : Bool) (d : α) {s : Deque α} (h : Fits s) :
    Gen.KeyDeque.peekLast ref d s = peekLast s := by
  obtain ⟨h1, h2, h3, h4⟩ := h
  unfold Gen.KeyDeque.peekLast peekLast
  simp only [JM.bind_apply, JM.get_apply]
  by_cases hs : s.size = 0
  · simp [hs]
  · simp [hs, JM.bind_apply, dec_eq ref d (i := s.tail) (by omega) (m := s.values.len) (by omega)]

theorem clear_eq (ref : Bool) (d : α) {s : Deque α} (h : Fits s) :
    Gen.KeyDeque.clear ref d s = clear ref d s := by
  obtain ⟨h1, h2, h3, h4⟩ := h
  unfold Gen.KeyDeque.clear clear
  cases ref with
  | false => simp [JM.bind_apply, JM.when]
  | true =>
    have e1 : i32 ((s.values.len : Int) - s.head) = s.values.len - s.head := i32_of_range (by omega)
    have e2 : i32 (s.tail - s.head) = s.tail - s.head := i32_of_range (by omega)
    simp only [if_true, JM.bind_apply, JM.get_apply, JM.when, e1, e2]
    by_cases hc : s.head > s.tail
    · simp only [hc, decide_true, if_true, JM.bind_apply]
      rw [fill_ok _ _ (by omega)]
      simp only [JM.modify_apply, JM.get_apply, JM.bind_apply]
      rw [fill_ok _ _ (by simp; omega), fill_ok _ _ (by simp; omega)]
      rfl
    · simp only [hc, decide_false, Bool.false_eq_true, if_false, JM.bind_apply]
      obtain ⟨r, hr⟩ := fill_local (Deque α) s.values d s.head (s.tail - s.head)
      rw [hr]
      rcases r with _ | a
      · rfl
      · rfl

theorem forEach_loop (ref : Bool) (d : α) (s : Deque α)
    (hl : 1 ≤ s.values.len ∧ (s.values.len : Int) ≤ 2 ^ 30) :
    ∀ (k fuel : Nat) (acc : List α) (pos : Int), k ≤ fuel → -2 ^ 30 < pos ∧ pos ≤ 2 ^ 30 →
      (∀ e t, forEachFrom k pos s = .err e t → e ≠ .diverge) →
      Gen.KeyDeque.forEach_loop1 ref d pure fuel acc pos s =
        match forEachFrom k pos s with
        | .ok l t => .ok (acc ++ l, s.tail) t
        | .err e t => .err e t := by
  intro k
  induction k with
  | zero => intro fuel acc pos _ _ hd; exact absurd rfl (hd .diverge s rfl)
  | succ k ih =>
    intro fuel acc pos hf hp hd
    obtain ⟨f, rfl⟩ : ∃ f, fuel = f + 1 := ⟨fuel - 1, by omega⟩
    unfold Gen.KeyDeque.forEach_loop1
    unfold forEachFrom at hd ⊢
    simp only [JM.bind_apply, JM.get_apply] at hd ⊢
    by_cases h : pos = s.tail
    · simp [h]
    · simp only [h, if_false, ne_eq, not_false_eq_true, decide_true, if_true, JM.bind_apply] at hd ⊢
      rcases rd_cases (i := pos) (s := s) with ⟨h0, h1, hw⟩ | ⟨_, hw⟩
      · simp only [hw, inc_eq ref d hp, JM.pure_apply, JM.bind_apply, JM.get_apply] at hd ⊢
        rw [ih f (acc ++ [s.values.get pos]) (inc pos s.values.len) (by omega)
          (inc_range hp (by omega)) ?_]
        · cases forEachFrom k (inc pos s.values.len) s <;> simp
        · intro e t ht
          rw [ht] at hd
          exact hd e t rfl
      · rw [hw]

/-- A cyclic walk that can meet `tail` does so within one round. -/
theorem forEachFrom_ends (s : Deque α) (ht : 0 ≤ s.tail ∧ s.tail < s.values.len) :
    ∀ (k : Nat) (pos : Int), (∀ i : Int, 0 ≤ pos → pos < s.values.len →
        (pos ≤ s.tail → s.tail - pos < k) ∧ (s.tail < pos → s.tail - pos + s.values.len < k)) → 0 < k →
      ∀ e t, forEachFrom k pos s = .err e t → e ≠ .diverge := by
  intro k
  induction k with
  | zero => intro pos _ h; omega
  | succ k ih =>
    intro pos hk _ e t
    unfold forEachFrom
    simp only [JM.bind_apply, JM.get_apply]
    by_cases h : pos = s.tail
    · simp [h]
    · simp only [h, if_false, JM.bind_apply]
      rcases rd_cases (i := pos) (s := s) with ⟨h0, h1, hw⟩ | ⟨_, hw⟩
      · simp only [hw]
        have hk' := hk 0 h0 h1
        have hi : 0 ≤ inc pos s.values.len ∧ inc pos s.values.len < s.values.len :=
          inc_in (by omega) h0 h1
        have hi2 : inc pos s.values.len = pos + 1 ∨ pos + 1 = s.values.len ∧ inc pos s.values.len = 0 := by
          unfold inc; split <;> omega
        have := ih (inc pos s.values.len) (fun _ _ _ => by constructor <;> intro _ <;> omega)
          (by omega)
        intro ht
        cases hr : forEachFrom k (inc pos s.values.len) s with
        | ok l u => rw [hr] at ht; simp at ht
        | err e' u => rw [hr] at ht; simp at ht; rw [← ht.1]; exact this e' u hr
      · rw [hw]; intro ht; simp at ht; rw [← ht.1]; simp

theorem forEach_eq (ref : Bool) (d : α) (fuel : Nat) {s : Deque α} (h : Fits s)
    (hf : 2 ^ 31 ≤ fuel) :
    Gen.KeyDeque.forEach ref d fuel pure s = forEach s := by
  obtain ⟨h1, h2, h3, h4⟩ := h
  unfold Gen.KeyDeque.forEach forEach
  simp only [JM.bind_apply, JM.get_apply]
  have hd : ∀ e t, forEachFrom (s.values.len + 1) s.head s = .err e t → e ≠ .diverge := by
    refine forEachFrom_ends s h3 _ _ (fun _ _ _ => ?_) (by omega)
    constructor <;> intro _ <;> omega
  rw [forEach_loop ref d s h1 (s.values.len + 1) fuel [] s.head (by omega) (by omega) hd]
  cases forEachFrom (s.values.len + 1) s.head s <;> rfl

/-- Every public call: generated = model, in every state whose numbers fit. -/
theorem step_eq (fuel : Nat) (ref : Bool) (d : α) {s : Deque α} (h : Fits s)
    (hf : 2 ^ 31 ≤ fuel) (o : Op α) : step fuel ref d o s = Verif.Deque.step ref d o s := by
  cases o
  · simp only [step, Verif.Deque.step, JM.bind_apply, addFirst_eq ref d _ h]
  · simp only [step, Verif.Deque.step, JM.bind_apply, addLast_eq ref d _ h]
  · simp only [step, Verif.Deque.step, JM.bind_apply, removeFirst_eq ref d h]
  · simp only [step, Verif.Deque.step, JM.bind_apply, removeLast_eq ref d h]
  · simp only [step, Verif.Deque.step, JM.bind_apply, peekFirst_eq ref d]
  · simp only [step, Verif.Deque.step, JM.bind_apply, peekLast_eq ref d h]
  · rfl
  · rfl
  · simp only [step, Verif.Deque.step, JM.bind_apply, forEach_eq ref d fuel h hf]
  · simp only [step, Verif.Deque.step, JM.bind_apply, clear_eq ref d h]

/-- The constructor. -/
theorem init_eq (ref : Bool) (d : α) (c : Int) (s : Deque α) :
    (match Gen.KeyDeque.init ref d c s with | .ok _ t => .ok t | .err e _ => .error e) =
      Deque.new c d := by
  unfold Gen.KeyDeque.init Deque.new
  simp only [nextPowerOf2_eq]
  generalize nextPowerOf2 c = n
  rw [JM.bind_ok (JM.modify_apply _ _), JM.bind_ok (JM.modify_apply _ _),
    JM.bind_ok (JM.modify_apply _ _)]
  by_cases h : c < 1
  · rw [if_pos h, if_pos (by simpa using h)]; rfl
  · have h' : ¬ (decide (c < 1) = true) := by simpa using h
    rw [if_neg h', if_neg h, JM.bind_ok (JM.pure_apply _ _), JM.bind_ok (JM.pure_apply _ _)]
    by_cases hn : n < 0
    · have e (t : Deque α) : (newArr n d : JM (Deque α) (Arr α)) t = .err .negativeArraySize t := by
        simp only [newArr]; rw [if_neg (by omega)]
      rw [if_pos hn, JM.bind_err (e _)]
    · rw [if_neg hn, JM.bind_ok (newArr_ok d (by omega))]
      rfl

theorem fits_of_inv {ref : Bool} {d : α} {s : Deque α} {l : List α} (h : Inv ref d s l) :
    Fits s := by
  obtain ⟨h1, h2, h3, h4, h5, h6, h7, h8⟩ := h
  exact ⟨⟨h1.1, by omega⟩, h2, h3, by omega⟩

/-- Any history that keeps fewer than 2^29 elements, of any length: the generated class and the
model return the same results and end in the same state. -/
theorem history_eq (fuel : Nat) (hf : 2 ^ 31 ≤ fuel) (ref : Bool) (d : α) (c : Int) (s : Deque α)
    (hnew : Deque.new c d = .ok s) (ops : List (Op α))
    (hb : Allowed DequeSpec.step DequeSpec.Bounded [] ops) :
    runM (step fuel ref d) s ops = runM (Verif.Deque.step ref d) s ops :=
  runM_congr_spec (fun s a o h g => step_spec s a o h g)
    (fun _ _ o h _ => step_eq fuel ref d (fits_of_inv h) hf o) ops s [] (inv_new (ref := ref) hnew) hb

/-- And one more call, whatever it is and even if it overfills the deque. -/
theorem history_then_eq (fuel : Nat) (hf : 2 ^ 31 ≤ fuel) (ref : Bool) (d : α) (c : Int)
    (s : Deque α) (hnew : Deque.new c d = .ok s) (ops : List (Op α))
    (hb : Allowed DequeSpec.step DequeSpec.Bounded [] ops) (o : Op α) :
    runM (step fuel ref d) s (ops ++ [o]) = runM (Verif.Deque.step ref d) s (ops ++ [o]) := by
  have hinv := (runM_refines (fun s a o h g => step_spec s a o h g) ops s []
    (inv_new (ref := ref) hnew) hb).2
  rw [runM_append, runM_append, history_eq fuel hf ref d c s hnew ops hb]
  simp only [runM, step_eq fuel ref d (fits_of_inv hinv) hf o]

end Verif.Link.Deque

namespace Verif
open Verif.Deque
variable {α : Type}

/-- C01 for the code generated from KeyDeque.ftl: the constructor makes a deque (or throws what
the model's does), and every history on it answers as the ideal list.  `fuel` is a bound on the
iterations of a loop, any bound from 2^31 on. -/
theorem C01_generated_deque_is_list (fuel : Nat) (hf : 2 ^ 31 ≤ fuel) (ref : Bool) (d : α) (c : Int)
    (s₀ s : Deque α) (u : Unit) (hnew : Gen.KeyDeque.init ref d c s₀ = .ok u s)
    (ops : List (Op α)) (hb : Allowed DequeSpec.step DequeSpec.Bounded [] ops) :
    (runM (Link.Deque.step fuel ref d) s ops).1 = (runS DequeSpec.step [] ops).1 := by
  have h := Link.Deque.init_eq ref d c s₀
  rw [hnew] at h
  rw [Link.Deque.history_eq fuel hf ref d c s h.symm ops hb]
  exact (runM_refines (fun s a o h g => step_spec s a o h g) ops s [] (inv_new (ref := ref) h.symm) hb).1

deriving instance DecidableEq for Deque.Out

/- Non-vacuity: the generated constructor and calls run. -/
example : (match Gen.KeyDeque.init false (0 : Int) 2 ⟨Arr.create 0 0, 7, 7, 7⟩ with
    | .ok _ s => (runM (Link.Deque.step 50 true 0) s
      [Op.addLast 1, .addLast 2, .addFirst 3, .removeLast, .forEach, .removeFirst, .size]).1
    | .err e _ => [.error e]) =
      [.ok .unit, .ok .unit, .ok .unit, .ok (.val 2), .ok (.seq [3, 1]), .ok (.val 3),
        .ok (.int 1)] := by
  decide +kernel

end Verif

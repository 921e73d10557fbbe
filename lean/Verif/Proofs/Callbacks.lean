import Verif.Spec.Callbacks
import Verif.Proofs.Deque
import Verif.Proofs.Vector
/-! Proofs about `forEach` with consumers that call back. -/
namespace Verif
variable {α : Type}

namespace Deque
open DequeSpec

/-- The cell `k` places after the head. -/
def At (s : Deque α) (k : Nat) (pos : Int) : Prop :=
  0 ≤ pos ∧ pos < s.values.len ∧ (pos = s.head + k ∨ pos = s.head + k - s.values.len)

theorem addFirst_quiet {ref : Bool} {d : α} {s : Deque α} {l : List α} (h : Inv ref d s l) (v : α)
    (hb : (l.length : Int) + 1 < s.values.len) :
    (addFirst d v s).state.values.len = s.values.len ∧
      (addFirst d v s).state.head = dec s.head s.values.len := by
  obtain ⟨hcap, hh, ht, hs, hroom, hlink, -, -⟩ := h
  have hd : ∃ p, dec s.head s.values.len = p ∧ 0 ≤ p ∧ p < s.values.len ∧
      (p = s.head - 1 ∨ p = s.head - 1 + s.values.len) := by
    refine ⟨_, rfl, ?_⟩; unfold dec; split <;> omega
  obtain ⟨p, hp, hp0, hp1, hp2⟩ := hd
  unfold addFirst
  rw [JM.bind_ok (JM.modify_apply _ s), JM.bind_ok (JM.get_apply _)]
  simp only [hp]
  rw [JM.bind_ok (wr_ok Deque.values _ (s := { s with head := p }) ⟨hp0, hp1⟩), JM.bind_ok (JM.modify_apply _ _),
    JM.bind_ok (JM.get_apply _), if_neg (by simp only; omega)]
  exact ⟨rfl, rfl⟩

theorem addLast_quiet {ref : Bool} {d : α} {s : Deque α} {l : List α} (h : Inv ref d s l) (v : α)
    (hb : (l.length : Int) + 1 < s.values.len) :
    (addLast d v s).state.values.len = s.values.len ∧ (addLast d v s).state.head = s.head := by
  obtain ⟨hcap, hh, ht, hs, hroom, hlink, -, -⟩ := h
  have hd : ∃ p, inc s.tail s.values.len = p ∧ 0 ≤ p ∧ p < s.values.len ∧
      (p = s.tail + 1 ∨ p = s.tail + 1 - s.values.len) := by
    refine ⟨_, rfl, ?_⟩; unfold inc; split <;> omega
  obtain ⟨p, hp, hp0, hp1, hp2⟩ := hd
  unfold addLast
  rw [JM.bind_ok (JM.get_apply _), JM.bind_ok (wr_ok _ _ ht), JM.bind_ok (JM.modify_apply _ _),
    JM.bind_ok (JM.modify_apply _ _), JM.bind_ok (JM.get_apply _),
    if_neg (by simp only [Arr.len_set]; omega)]
  exact ⟨rfl, rfl⟩

theorem removeFirst_quiet {ref : Bool} {d v : α} {s : Deque α} {l : List α} (h : Inv ref d s (v :: l)) :
    (removeFirst d s).state.values.len = s.values.len ∧
      (removeFirst d s).state.head = inc s.head s.values.len := by
  obtain ⟨hcap, hh, ht, hs, hroom, hlink, -, -⟩ := h
  simp only [List.length_cons] at *
  unfold removeFirst
  rw [JM.bind_ok (JM.get_apply _), if_neg (by omega), JM.bind_ok (rd_ok _ hh),
    JM.bind_ok (wr_ok _ _ hh), JM.bind_ok (JM.modify_apply _ _), JM.bind_ok (JM.modify_apply _ _)]
  exact ⟨rfl, rfl⟩

theorem removeLast_quiet {ref : Bool} {d : α} {s : Deque α} {l : List α} (h : Inv ref d s l) (hl : l ≠ []) :
    (removeLast d s).state.values.len = s.values.len ∧ (removeLast d s).state.head = s.head := by
  obtain ⟨hcap, hh, ht, hs, hroom, hlink, -, -⟩ := h
  have : l.length ≠ 0 := by simpa using hl
  have hd : ∃ p, dec s.tail s.values.len = p ∧ 0 ≤ p ∧ p < s.values.len := by
    refine ⟨_, rfl, ?_⟩; unfold dec; split <;> omega
  obtain ⟨p, hp, hp0, hp1⟩ := hd
  unfold removeLast
  rw [JM.bind_ok (JM.get_apply _), if_neg (by omega), JM.bind_ok (JM.modify_apply _ _),
    JM.bind_ok (JM.get_apply _)]
  simp only [hp]
  rw [JM.bind_ok (rd_ok Deque.values (s := { s with tail := p }) ⟨hp0, hp1⟩),
    JM.bind_ok (wr_ok Deque.values _ (s := { s with tail := p }) ⟨hp0, hp1⟩), JM.bind_ok (JM.modify_apply _ _)]
  exact ⟨rfl, rfl⟩

theorem peekFirst_state {ref : Bool} {d : α} (s : Deque α) : (step ref d .peekFirst s).state = s := by
  simp only [step, peekFirst, JM.bind_apply, JM.get_apply]
  split <;> rename_i heq <;> simp only [rd] at heq
  · split at heq
    · simp at heq
    · simp only at heq; split at heq <;> simp_all
  · split at heq
    · simp at heq; simp [heq]
    · simp only at heq; split at heq <;> simp_all

theorem peekLast_state {ref : Bool} {d : α} (s : Deque α) : (step ref d .peekLast s).state = s := by
  simp only [step, peekLast, JM.bind_apply, JM.get_apply]
  split <;> rename_i heq <;> simp only [rd] at heq
  · split at heq
    · simp at heq
    · simp only at heq; split at heq <;> simp_all
  · split at heq
    · simp at heq; simp [heq]
    · simp only at heq; split at heq <;> simp_all

/-- One call of the consumer. -/
theorem call_spec {ref : Bool} {d : α} {N : Nat} (hN : N ≤ 2 ^ 29) {s : Deque α} {w w' : Walk α} {pos : Int}
    {o : Op α} (h : Inv ref d s w.all) (hc : N ≤ s.values.len) (hp : At s w.behind.length pos)
    (ho : Walk.call N o w = some w') :
    Inv ref d (step ref d o s).state w'.all ∧ (step ref d o s).state.values.len = s.values.len ∧
      At (step ref d o s).state w'.behind.length pos := by
  obtain ⟨b, a⟩ := w
  have hlen := h.room
  have hhd := h.head
  obtain ⟨p0, p1, p2⟩ := hp
  simp only at p2
  cases o with
  | addFirst v =>
    simp only [Walk.call] at ho
    split at ho
    · rename_i hl
      simp only [Option.some.injEq] at ho; subst ho
      have hq := addFirst_quiet h v (by omega)
      obtain ⟨s', h1, h2⟩ := addFirst_spec h v (by omega)
      rw [h1] at hq
      simp only [Res.state_ok] at hq
      have hst : (step ref d (.addFirst v) s).state = s' := by simp [step, JM.bind_apply, h1]
      rw [hst]
      refine ⟨h2, hq.1, by omega, by omega, ?_⟩
      have hle : b.length ≤ (Walk.all ⟨b, a⟩).length := by simp [Walk.all]
      rw [hq.2, hq.1]; simp only [List.length_cons, dec]; split <;> omega
    · simp at ho
  | addLast v =>
    simp only [Walk.call] at ho
    split at ho
    · rename_i hl
      simp only [Option.some.injEq] at ho; subst ho
      have hq := addLast_quiet h v (by omega)
      obtain ⟨s', h1, h2⟩ := addLast_spec h v (by omega)
      rw [h1] at hq
      simp only [Res.state_ok] at hq
      have hst : (step ref d (.addLast v) s).state = s' := by simp [step, JM.bind_apply, h1]
      rw [hst]
      refine ⟨by simpa [Walk.all] using h2, hq.1, by omega, by omega, ?_⟩
      rw [hq.2, hq.1]; exact p2
    · simp at ho
  | removeFirst =>
    simp only [Walk.call] at ho
    cases b with
    | nil =>
      simp only at ho
      split at ho
      · rename_i ha
        subst ha
        simp only [Option.some.injEq] at ho; subst ho
        have : removeFirst d s = .err .noSuchElement s := by
          unfold removeFirst
          rw [JM.bind_ok (JM.get_apply _), if_pos (by simpa [Walk.all] using h.size)]; rfl
        have hst : (step ref d .removeFirst s).state = s := by simp [step, JM.bind_apply, this]
        rw [hst]
        exact ⟨h, rfl, p0, p1, p2⟩
      · simp at ho
    | cons v b =>
      simp only [Option.some.injEq] at ho; subst ho
      have h' : Inv ref d s (v :: (b ++ a)) := by simpa [Walk.all] using h
      have hq := removeFirst_quiet h'
      obtain ⟨s', h1, h2⟩ := removeFirst_spec h'
      rw [h1] at hq
      simp only [Res.state_ok] at hq
      have hst : (step ref d .removeFirst s).state = s' := by simp [step, JM.bind_apply, h1]
      rw [hst]
      refine ⟨h2, hq.1, by omega, by omega, ?_⟩
      rw [hq.2, hq.1]
      simp only [List.length_cons] at p2
      simp only [inc]
      simp only [Walk.all, List.length_append, List.length_cons] at hlen
      split <;> omega
  | removeLast =>
    simp only [Walk.call] at ho
    by_cases ha : a = []
    · simp only [ha, if_true] at ho
      split at ho
      · rename_i hb
        subst ha; subst hb
        simp only [Option.some.injEq] at ho; subst ho
        have : removeLast d s = .err .noSuchElement s := by
          unfold removeLast
          rw [JM.bind_ok (JM.get_apply _), if_pos (by simpa [Walk.all] using h.size)]; rfl
        have hst : (step ref d .removeLast s).state = s := by simp [step, JM.bind_apply, this]
        rw [hst]
        exact ⟨h, rfl, p0, p1, p2⟩
      · simp at ho
    · simp only [if_neg ha, Option.some.injEq] at ho; subst ho
      rcases nil_or_snoc a with rfl | ⟨a', v, rfl⟩
      · exact absurd rfl ha
      have h' : Inv ref d s ((b ++ a') ++ [v]) := by simpa [Walk.all] using h
      have hq := removeLast_quiet h' (by simp)
      obtain ⟨s', h1, h2⟩ := removeLast_spec h'
      rw [h1] at hq
      simp only [Res.state_ok] at hq
      have hst : (step ref d .removeLast s).state = s' := by simp [step, JM.bind_apply, h1]
      rw [hst]
      refine ⟨by simpa [Walk.all] using h2, hq.1, by omega, by omega, ?_⟩
      rw [hq.2, hq.1]; exact p2
  | clear => simp [Walk.call] at ho
  | peekFirst =>
    simp only [Walk.call, Option.some.injEq] at ho; subst ho
    have hst := peekFirst_state (ref := ref) (d := d) s
    rw [hst]; exact ⟨h, rfl, p0, p1, p2⟩
  | peekLast =>
    simp only [Walk.call, Option.some.injEq] at ho; subst ho
    have hst := peekLast_state (ref := ref) (d := d) s
    rw [hst]; exact ⟨h, rfl, p0, p1, p2⟩
  | size =>
    simp only [Walk.call, Option.some.injEq] at ho; subst ho
    exact ⟨h, rfl, p0, p1, p2⟩
  | isEmpty =>
    simp only [Walk.call, Option.some.injEq] at ho; subst ho
    exact ⟨h, rfl, p0, p1, p2⟩
  | forEach =>
    simp only [Walk.call, Option.some.injEq] at ho; subst ho
    have hst : (step ref d .forEach s).state = s := by simp [step, JM.bind_apply, forEach_spec h]
    rw [hst]; exact ⟨h, rfl, p0, p1, p2⟩

/-- All calls of the consumer. -/
theorem calls_spec {ref : Bool} {d : α} {N : Nat} (hN : N ≤ 2 ^ 29) : ∀ (ops : List (Op α)) {s : Deque α}
    {w w' : Walk α} {pos : Int}, Inv ref d s w.all → N ≤ s.values.len → At s w.behind.length pos →
    Walk.calls N ops w = some w' →
    Inv ref d (runM (step ref d) s ops).2 w'.all ∧ (runM (step ref d) s ops).2.values.len = s.values.len ∧
      At (runM (step ref d) s ops).2 w'.behind.length pos
  | [], s, w, w', pos, h, hc, hp, ho => by
    simp only [Walk.calls, Option.some.injEq] at ho; subst ho
    exact ⟨h, rfl, hp⟩
  | o :: os, s, w, w', pos, h, hc, hp, ho => by
    simp only [Walk.calls, Option.bind_eq_some_iff] at ho
    obtain ⟨w1, h1, h2⟩ := ho
    obtain ⟨i1, i2, i3⟩ := call_spec hN h hc hp h1
    obtain ⟨j1, j2, j3⟩ := calls_spec hN os i1 (by omega) i3 h2
    exact ⟨j1, by simp only [runM]; omega, j3⟩

theorem forEachDoFrom_spec {ref : Bool} {d : α} {N : Nat} (hN : N ≤ 2 ^ 29) {f : Consumer α (Op α)}
    {seen out fin : List α} {w : Walk α} (hw : Walks N f seen w out fin) :
    ∀ {s : Deque α} {pos : Int}, Inv ref d s w.all → N ≤ s.values.len → At s w.behind.length pos →
    ∃ n, ∀ fuel, n ≤ fuel → ∃ s', forEachDoFrom ref d f fuel pos seen s = .ok out s' ∧ Inv ref d s' fin := by
  induction hw with
  | @done seen b =>
    intro s pos h hc hp
    refine ⟨1, fun fuel hf => ?_⟩
    obtain ⟨k, rfl⟩ : ∃ k, fuel = k + 1 := ⟨fuel - 1, by omega⟩
    have h' : Inv ref d s b := by simpa [Walk.all] using h
    have e : pos = s.tail := by
      obtain ⟨p0, p1, p2⟩ := hp
      have := h'.link; have := h'.tail; simp only at p2; omega
    refine ⟨s, ?_, h'⟩
    rw [forEachDoFrom, JM.bind_ok (JM.get_apply _), if_pos e]; rfl
  | @step seen b a out fin v w hcalls _ ih =>
    intro s pos h hc hp
    have hinc : At s (b ++ [v]).length (inc pos s.values.len) := by
      obtain ⟨p0, p1, p2⟩ := hp
      have := h.head
      have hl := h.room
      simp only [Walk.all, List.length_append, List.length_cons] at hl
      simp only at p2
      unfold At inc
      simp only [List.length_append, List.length_cons, List.length_nil]
      split <;> omega
    have h' : Inv ref d s (Walk.all ⟨b ++ [v], a⟩) := by simpa [Walk.all] using h
    obtain ⟨c1, c2, c3⟩ := calls_spec hN _ h' hc hinc hcalls
    obtain ⟨n, hn⟩ := ih c1 (by omega) c3
    refine ⟨n + 1, fun fuel hf => ?_⟩
    obtain ⟨k, rfl⟩ : ∃ k, fuel = k + 1 := ⟨fuel - 1, by omega⟩
    obtain ⟨s', r1, r2⟩ := hn k (by omega)
    refine ⟨s', ?_, r2⟩
    obtain ⟨p0, p1, p2⟩ := hp
    have ne : pos ≠ s.tail := by
      have := h.link; have := h.tail; have hl := h.room; have := h.head
      simp only [Walk.all, List.length_append, List.length_cons] at *
      omega
    have hv := h.slots b.length pos (by simp [Walk.all]) p0 p1 p2
    simp [Walk.all] at hv
    rw [forEachDoFrom, JM.bind_ok (JM.get_apply _), if_neg ne, JM.bind_ok (rd_ok _ ⟨p0, p1⟩), ← hv]
    have hcall : callAll (step ref d) (f (seen ++ [v])) s =
        .ok () (runM (step ref d) s (f (seen ++ [v]))).2 := rfl
    rw [JM.bind_ok hcall, JM.bind_ok (JM.get_apply _), c2]
    exact r1

/-- The array of a deque never gets shorter. -/
theorem step_len {ref : Bool} {d : α} {s : Deque α} {l : List α} (h : Inv ref d s l) (o : Op α)
    (hb : Bounded o l) : s.values.len ≤ (step ref d o s).state.values.len := by
  have hi := (step_spec s l o h hb).2
  have hr := hi.room
  cases o with
  | addFirst v =>
    by_cases hq : (l.length : Int) + 1 < s.values.len
    · have := (addFirst_quiet h v hq).1
      have hst : (step ref d (.addFirst v) s).state = (addFirst d v s).state := by
        simp only [step, JM.bind_apply]; cases addFirst d v s <;> rfl
      rw [hst]; omega
    · simp only [DequeSpec.step, List.length_cons] at hr; omega
  | addLast v =>
    by_cases hq : (l.length : Int) + 1 < s.values.len
    · have := (addLast_quiet h v hq).1
      have hst : (step ref d (.addLast v) s).state = (addLast d v s).state := by
        simp only [step, JM.bind_apply]; cases addLast d v s <;> rfl
      rw [hst]; omega
    · simp only [DequeSpec.step, List.length_append, List.length_cons, List.length_nil] at hr; omega
  | clear =>
    obtain ⟨hcap, hh, ht, hs, hroom, hlink, hslots, hrest⟩ := h
    have hst : (step ref d .clear s).state = (clear ref d s).state := by
      simp only [step, JM.bind_apply]; cases clear ref d s <;> rfl
    rw [hst, clear]
    cases ref with
    | false => exact Nat.le_refl _
    | true =>
      rw [JM.when_pos rfl, JM.bind_apply]
      by_cases hc : s.head > s.tail
      · rw [JM.bind_ok (JM.get_apply _), if_pos hc, JM.bind_ok (fill_ok _ _ (by omega)),
          JM.bind_ok (fill_ok _ _ (by simp; omega))]
        exact Nat.le_refl _
      · rw [JM.bind_ok (JM.get_apply _), if_neg hc, JM.bind_ok (fill_ok _ _ (by omega))]
        exact Nat.le_refl _
  | removeFirst =>
    have hst : (step ref d .removeFirst s).state = (removeFirst d s).state := by
      simp only [step, JM.bind_apply]; cases removeFirst d s <;> rfl
    rw [hst]
    cases l with
    | nil =>
      have : removeFirst d s = .err .noSuchElement s := by
        unfold removeFirst
        rw [JM.bind_ok (JM.get_apply _), if_pos (by simpa using h.size)]; rfl
      rw [this]; exact Nat.le_refl _
    | cons v l => have := (removeFirst_quiet h).1; omega
  | removeLast =>
    have hst : (step ref d .removeLast s).state = (removeLast d s).state := by
      simp only [step, JM.bind_apply]; cases removeLast d s <;> rfl
    rw [hst]
    by_cases hl : l = []
    · have : removeLast d s = .err .noSuchElement s := by
        unfold removeLast
        rw [JM.bind_ok (JM.get_apply _), if_pos (by simpa [hl] using h.size)]; rfl
      rw [this]; exact Nat.le_refl _
    · have := (removeLast_quiet h hl).1; omega
  | peekFirst => rw [peekFirst_state]; exact Nat.le_refl _
  | peekLast => rw [peekLast_state]; exact Nat.le_refl _
  | size => exact Nat.le_refl _
  | isEmpty => exact Nat.le_refl _
  | forEach =>
    have hst : (step ref d .forEach s).state = s := by simp [step, JM.bind_apply, forEach_spec h]
    rw [hst]; exact Nat.le_refl _

/-- After a history the array has room for one more than the largest number of values it ever held. -/
theorem peak_len {ref : Bool} {d : α} : ∀ (ops : List (Op α)) {s : Deque α} {l : List α}, Inv ref d s l →
    Allowed DequeSpec.step Bounded l ops →
    s.values.len ≤ (runM (step ref d) s ops).2.values.len ∧
      peak l ops + 1 ≤ (runM (step ref d) s ops).2.values.len
  | [], s, l, h, _ => ⟨Nat.le_refl _, by have := h.room; simp only [peak, runM]; omega⟩
  | o :: os, s, l, h, hb => by
    have h1 := step_len h o hb.1
    have h2 := (step_spec s l o h hb.1).2
    have ih := peak_len os h2 hb.2
    have := h.room
    simp only [peak, runM]
    omega

end Deque

namespace Vec
open VecSpec

theorem forEachDoFrom_spec {ref : Bool} {d : α} {f : Consumer α (Op α)}
    {seen out fin l : List α} {i : Nat} (hw : Walks f seen i l out fin) :
    ∀ {s : Vec α}, Inv ref d s l →
    ∃ n, ∀ fuel, n ≤ fuel → ∃ s', forEachDoFrom ref d f fuel i seen s = .ok out s' ∧ Inv ref d s' fin := by
  induction hw with
  | @done seen l i hi =>
    intro s h
    refine ⟨1, fun fuel hf => ?_⟩
    obtain ⟨k, rfl⟩ : ∃ k, fuel = k + 1 := ⟨fuel - 1, by omega⟩
    refine ⟨s, ?_, h⟩
    rw [forEachDoFrom, JM.bind_ok (JM.get_apply _), if_neg (by have := h.size; omega)]; rfl
  | @step seen l out fin i v hv hal _ ih =>
    intro s h
    have hr := (runM_refines (fun s a o h g => step_spec s a o h g) _ s l h hal).2
    obtain ⟨n, hn⟩ := ih hr
    refine ⟨n + 1, fun fuel hf => ?_⟩
    obtain ⟨k, rfl⟩ : ∃ k, fuel = k + 1 := ⟨fuel - 1, by omega⟩
    obtain ⟨s', r1, r2⟩ := hn k (by omega)
    refine ⟨s', ?_, r2⟩
    have hil : i < l.length := by
      rw [List.getElem?_eq_some_iff] at hv; exact hv.1
    have hv' := h.vals i hil
    rw [hv] at hv'
    simp only [Option.some.injEq] at hv'
    have := h.size
    have := h.room
    rw [forEachDoFrom, JM.bind_ok (JM.get_apply _), if_pos (by omega), JM.bind_ok (rd_ok Vec.values (by omega)),
      ← hv']
    have hcall : callAll (step ref d) (f (seen ++ [v])) s =
        .ok () (runM (step ref d) s (f (seen ++ [v]))).2 := rfl
    rw [JM.bind_ok hcall]
    exact r1

end Vec
end Verif

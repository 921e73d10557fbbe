import Verif.Link.Deque
import Verif.Link.Vector
import Verif.Props.Deque
import Verif.Props.Vector
import Verif.Props.Callbacks
/-! # C02, C03, C65, C90 and C91 for the code generated from KeyDeque.ftl and KeyVector.ftl -/
namespace Verif
variable {α : Type}

theorem Link.Deque.made {ref : Bool} {d : α} {c : Int} {s₀ s : Deque α} {u : Unit}
    (h : Gen.KeyDeque.init ref d c s₀ = .ok u s) : Deque.new c d = .ok s := by
  have := Link.Deque.init_eq ref d c s₀
  rw [h] at this
  exact this.symm

theorem Link.Vec.made {ref : Bool} {d : α} {c : Int} {s₀ s : Vec α} {u : Unit}
    (h : Gen.KeyVector.init ref d c s₀ = .ok u s) : Vec.new c d = .ok s := by
  have := Link.Vec.init_eq ref d c s₀
  rw [h] at this
  exact this.symm

/-- C02 for the generated code: after any history, removing or peeking at either end throws NoSuchElementException
exactly if the deque is empty, and then changes nothing. -/
theorem C02_generated_empty_access (fuel : Nat) (hf : 2 ^ 31 ≤ fuel) (ref : Bool) (d : α) (c : Int)
    (z s0 : Deque α) (u : Unit) (hnew : Gen.KeyDeque.init ref d c z = .ok u s0) (ops : List (Deque.Op α))
    (hb : Allowed DequeSpec.step DequeSpec.Bounded [] ops) (o : Deque.Op α)
    (ho : o = .removeFirst ∨ o = .removeLast ∨ o = .peekFirst ∨ o = .peekLast) :
    let s := (runM (Link.Deque.step fuel ref d) s0 ops).2
    let l := (runS DequeSpec.step [] ops).2
    ((Link.Deque.step fuel ref d o s).out = .error .noSuchElement ↔ l = []) ∧
    ((∃ v, (Link.Deque.step fuel ref d o s).out = .ok (.val v)) ↔ l ≠ []) ∧
    (l = [] → (Link.Deque.step fuel ref d o s).state = s) := by
  have hm := Link.Deque.made hnew
  have hi := (runM_refines (fun s a o h g => Deque.step_spec s a o h g) ops s0 []
    (Deque.inv_new (ref := ref) hm) hb).2
  have := C02_empty_access ref d c s0 hm ops hb o ho
  simp only [Link.Deque.history_eq fuel hf ref d c s0 hm ops hb,
    Link.Deque.step_eq fuel ref d (Link.Deque.fits_of_inv hi) hf o]
  exact this

/-- C03 for the generated code: the backing array of a deque of references has a reference only where the ideal
list has an element. -/
theorem C03_generated_no_stale_references (fuel : Nat) (hf : 2 ^ 31 ≤ fuel) (d : α) (c : Int)
    (z s0 : Deque α) (u : Unit) (hnew : Gen.KeyDeque.init true d c z = .ok u s0) (ops : List (Deque.Op α))
    (hb : Allowed DequeSpec.step DequeSpec.Bounded [] ops) :
    let s := (runM (Link.Deque.step fuel true d) s0 ops).2
    let l := (runS DequeSpec.step [] ops).2
    (∀ j : Int, 0 ≤ j → j < s.values.len →
      s.values.get j = d ∨
        ∃ i : Nat, i < l.length ∧ l[i]? = some (s.values.get j) ∧
          j = (s.head + i) % s.values.len) ∧
    s.size = l.length ∧ (l.length : Int) < s.values.len := by
  have hm := Link.Deque.made hnew
  simp only [Link.Deque.history_eq fuel hf true d c s0 hm ops hb]
  exact ⟨C03_no_stale_references d c s0 hm ops hb, C03_slots_bounded d c s0 hm ops hb⟩

/-- C65 for the generated code: the slots of a vector of references beyond its size are null. -/
theorem C65_generated_vector_no_stale_references (fuel : Nat) (hf : 2 ^ 31 ≤ fuel) (d : α) (c : Int)
    (z s0 : Vec α) (u : Unit) (hnew : Gen.KeyVector.init true d c z = .ok u s0) (ops : List (Vec.Op α))
    (hb : Allowed VecSpec.step VecSpec.Legal [] ops) :
    let s := (runM (Link.Vec.step fuel true d) s0 ops).2
    let l := (runS VecSpec.step [] ops).2
    ∀ j : Int, (l.length : Int) ≤ j → j < s.values.len → s.values.get j = d := by
  have hm := Link.Vec.made hnew
  simp only [Link.Vec.history_eq fuel hf true d c s0 hm ops hb]
  exact C65_vector_no_stale_references d c s0 hm ops hb

/-! ## Consumers that call back -/

/-- The consumer of the model that makes the calls `g v` when handed `v`. -/
def perValue {β op : Type} (g : β → List op) : Consumer β op := fun seen => (seen.getLast?.map g).getD []

theorem perValue_snoc {β op : Type} (g : β → List op) (l : List β) (v : β) : perValue g (l ++ [v]) = g v := by
  simp [perValue]

/-- The consumer handed to the generated `forEach`: it makes the calls `g v`, ignoring what they answer or throw. -/
def consumerOf {σ β op out : Type} (step : op → JM σ out) (g : β → List op) : β → JM σ β := fun v => do
  callAll step (g v)
  pure v

theorem consumerOf_apply {σ β op out : Type} (step : op → JM σ out) (g : β → List op) (v : β) (s : σ) :
    consumerOf step g v s = .ok v (runM step s (g v)).2 := rfl

namespace Link.Deque
open Verif.Deque Verif.DequeSpec

theorem calls_eq {ref : Bool} {d : α} {N : Nat} (hN : N ≤ 2 ^ 29) (fuel : Nat) (hf : 2 ^ 31 ≤ fuel) :
    ∀ (ops : List (Op α)) {s : Deque α} {w w' : Walk α} {pos : Int}, Inv ref d s w.all → N ≤ s.values.len →
    At s w.behind.length pos → Walk.calls N ops w = some w' →
    runM (step fuel ref d) s ops = runM (Verif.Deque.step ref d) s ops
  | [], _, _, _, _, _, _, _, _ => rfl
  | o :: os, s, w, w', pos, h, hc, hp, ho => by
    simp only [Walk.calls, Option.bind_eq_some_iff] at ho
    obtain ⟨w1, h1, h2⟩ := ho
    obtain ⟨i1, i2, i3⟩ := call_spec hN h hc hp h1
    simp only [runM, step_eq fuel ref d (fits_of_inv h) hf o]
    rw [calls_eq hN fuel hf os i1 (by omega) i3 h2]

theorem forEachDo_loop {ref : Bool} {d : α} {N : Nat} (hN : N ≤ 2 ^ 29) (g : α → List (Op α)) {seen out fin : List α} {w : Walk α} (hw : Walks N (perValue g) seen w out fin) :
    ∀ {s : Deque α} {pos : Int}, Inv ref d s w.all → N ≤ s.values.len → At s w.behind.length pos →
    ∃ n, ∀ fuel fuel', n ≤ fuel → 2 ^ 31 ≤ fuel' → ∃ s' p,
      Gen.KeyDeque.forEach_loop1 ref d (consumerOf (step fuel' ref d) g) fuel seen pos s = .ok (out, p) s' ∧ Inv ref d s' fin := by
  induction hw with
  | @done seen b =>
    intro s pos h hc hp
    refine ⟨1, fun fuel fuel' hf hf' => ?_⟩
    obtain ⟨k, rfl⟩ : ∃ k, fuel = k + 1 := ⟨fuel - 1, by omega⟩
    have h' : Inv ref d s b := by simpa [Walk.all] using h
    have e : pos = s.tail := by
      obtain ⟨p0, p1, p2⟩ := hp
      have := h'.link; have := h'.tail; simp only at p2; omega
    refine ⟨s, pos, ?_, h'⟩
    rw [Gen.KeyDeque.forEach_loop1, JM.bind_ok (JM.get_apply _), if_neg (by simp [e])]; rfl
  | @step seen b a out fin v w hcalls _ ih =>
    intro s pos h hc hp
    rw [perValue_snoc] at hcalls
    have hinc : At s (b ++ [v]).length (inc pos s.values.len) := by
      obtain ⟨p0, p1, p2⟩ := hp
      have := h.head
      have hl := h.room
      simp only [Walk.all, List.length_append, List.length_cons] at hl
      simp only at p2
      unfold At inc
      simp only [List.length_append, List.length_cons, List.length_nil]
      split <;> omega
    have h' : Inv ref d s (Walk.all ⟨b ++ [v], a⟩) := by simpa [Walk.all] using h
    obtain ⟨c1, c2, c3⟩ := calls_spec hN _ h' hc hinc hcalls
    obtain ⟨n, hn⟩ := ih c1 (by omega) c3
    refine ⟨n + 1, fun fuel fuel' hf hf' => ?_⟩
    have ceq := calls_eq hN fuel' hf' _ h' hc hinc hcalls
    obtain ⟨k, rfl⟩ : ∃ k, fuel = k + 1 := ⟨fuel - 1, by omega⟩
    obtain ⟨s', p, r1, r2⟩ := hn k fuel' (by omega) hf'
    refine ⟨s', p, ?_, r2⟩
    obtain ⟨p0, p1, p2⟩ := hp
    have ne : pos ≠ s.tail := by
      have := h.link; have := h.tail; have hl := h.room; have := h.head
      simp only [Walk.all, List.length_append, List.length_cons] at *
      omega
    have hv := h.slots b.length pos (by simp [Walk.all]) p0 p1 p2
    simp [Walk.all] at hv
    have hfit := fits_of_inv h
    have hle := hfit.len
    rw [Gen.KeyDeque.forEach_loop1, JM.bind_ok (JM.get_apply _), if_pos (by simpa using ne),
      JM.bind_ok (rd_ok _ ⟨p0, p1⟩), ← hv, JM.bind_ok (consumerOf_apply _ _ _ _), ceq,
      JM.bind_ok (JM.get_apply _), c2, inc_eq ref d (by omega)]
    exact r1

end Link.Deque

/-- C90 (partial: as `C90_deque_partial`, and for consumers whose calls depend on the value handed to them) for the
generated `forEach`: it hands out exactly what the ideal walk does, and the deque answers every further history like
the ideal contents. -/
theorem C90_generated_deque_partial (ref : Bool) (d : α) (c : Int) (z s0 : Deque α) (u : Unit)
    (hnew : Gen.KeyDeque.init ref d c z = .ok u s0)
    (ops : List (Deque.Op α)) (hb : Allowed DequeSpec.step DequeSpec.Bounded [] ops) (N : Nat)
    (hN : N ≤ 2 ^ 29) (hcap : (N : Int) ≤ c ∧ c ≤ 2 ^ 30 ∨ N ≤ DequeSpec.peak [] ops + 1)
    (g : α → List (Deque.Op α)) (out fin : List α)
    (hw : DequeSpec.Walks N (perValue g) [] ⟨[], (runS DequeSpec.step [] ops).2⟩ out fin) :
    ∃ n, ∀ fuel, n ≤ fuel → ∃ s',
      Gen.KeyDeque.forEach ref d fuel (consumerOf (Link.Deque.step fuel ref d) g)
        (runM (Link.Deque.step fuel ref d) s0 ops).2 = .ok out s' ∧
      ∀ more : List (Deque.Op α), Allowed DequeSpec.step DequeSpec.Bounded fin more →
        (runM (Link.Deque.step fuel ref d) s' more).1 = (runS DequeSpec.step fin more).1 := by
  have hm := Link.Deque.made hnew
  have h0 := Deque.inv_new (ref := ref) hm
  have hi := (runM_refines (fun s a o h g => Deque.step_spec s a o h g) ops s0 [] h0 hb).2
  have hl := Deque.peak_len ops h0 hb
  have hc := Deque.new_len hm
  have heq : ∀ fuel, 2 ^ 31 ≤ fuel → (runM (Link.Deque.step fuel ref d) s0 ops).2 =
      (runM (Deque.step ref d) s0 ops).2 :=
    fun fuel hf => by rw [Link.Deque.history_eq fuel hf ref d c s0 hm ops hb]
  generalize (runM (Deque.step ref d) s0 ops).2 = s at *
  have hat : Deque.At s 0 s.head := ⟨hi.head.1, hi.head.2, .inl (by simp)⟩
  obtain ⟨n, hn⟩ := Link.Deque.forEachDo_loop (ref := ref) (d := d) hN g hw
    (by simpa [DequeSpec.Walk.all] using hi)
    (by rcases hcap with hcap | hcap
        · have := hc hcap.2; omega
        · omega) hat
  refine ⟨max n (2 ^ 31), fun fuel hf => ?_⟩
  obtain ⟨s', p, r1, r2⟩ := hn fuel fuel (by omega) (by omega)
  refine ⟨s', ?_, fun more hb' => ?_⟩
  · rw [heq fuel (by omega)]
    unfold Gen.KeyDeque.forEach
    simp only [JM.bind_apply, JM.get_apply, r1]; rfl
  · rw [Link.runM_congr_spec (fun s a o h g => Deque.step_spec s a o h g)
      (fun _ _ o h _ => Link.Deque.step_eq fuel ref d (Link.Deque.fits_of_inv h) (by omega) o) more s' fin r2 hb']
    exact (runM_refines (fun s a o h g => Deque.step_spec s a o h g) more s' fin r2 hb').1

/-- C90, draining, for the generated code: a consumer that takes the first value out whenever it is handed one is
handed every value in order, and leaves the deque empty. -/
theorem C90_generated_drain (ref : Bool) (d : α) (c : Int) (z s0 : Deque α) (u : Unit)
    (hnew : Gen.KeyDeque.init ref d c z = .ok u s0)
    (ops : List (Deque.Op α)) (hb : Allowed DequeSpec.step DequeSpec.Bounded [] ops) :
    ∃ n, ∀ fuel, n ≤ fuel → ∃ s',
      Gen.KeyDeque.forEach ref d fuel (consumerOf (Link.Deque.step fuel ref d) fun _ => [.removeFirst])
        (runM (Link.Deque.step fuel ref d) s0 ops).2 = .ok (runS DequeSpec.step [] ops).2 s' ∧
      ∀ more : List (Deque.Op α), Allowed DequeSpec.step DequeSpec.Bounded [] more →
        (runM (Link.Deque.step fuel ref d) s' more).1 = (runS DequeSpec.step [] more).1 := by
  refine C90_generated_deque_partial ref d c z s0 u hnew ops hb 0 (by omega) (.inr (by omega)) _ _ _ ?_
  generalize (runS DequeSpec.step [] ops).2 = l
  have : ∀ seen, DequeSpec.Walks 0 (perValue fun _ => [Deque.Op.removeFirst]) seen ⟨[], l⟩ (seen ++ l) [] := by
    induction l with
    | nil => intro seen; rw [List.append_nil]; exact .done
    | cons v l ih =>
      intro seen
      have := ih (seen ++ [v])
      rw [List.append_assoc] at this
      exact .step (by rw [perValue_snoc]; rfl) this
  exact this []

/-- C90, a work queue, for the generated code: a consumer that takes out the value it is handed and puts the values
`g v` at the end is handed those as well, in the order of a breadth-first traversal. -/
theorem C90_generated_work_queue (ref : Bool) (d : α) (c : Int) (z s0 : Deque α) (u : Unit)
    (hnew : Gen.KeyDeque.init ref d c z = .ok u s0)
    (ops : List (Deque.Op α)) (hb : Allowed DequeSpec.step DequeSpec.Bounded [] ops) (N : Nat)
    (hN : N ≤ 2 ^ 29) (hcap : (N : Int) ≤ c ∧ c ≤ 2 ^ 30 ∨ N ≤ DequeSpec.peak [] ops + 1)
    (g : α → List α) (out : List α) (hq : Bfs N g (runS DequeSpec.step [] ops).2 out) :
    ∃ n, ∀ fuel, n ≤ fuel → ∃ s',
      Gen.KeyDeque.forEach ref d fuel
        (consumerOf (Link.Deque.step fuel ref d) fun v => .removeFirst :: (g v).map Deque.Op.addLast)
        (runM (Link.Deque.step fuel ref d) s0 ops).2 = .ok out s' ∧
      ∀ more : List (Deque.Op α), Allowed DequeSpec.step DequeSpec.Bounded [] more →
        (runM (Link.Deque.step fuel ref d) s' more).1 = (runS DequeSpec.step [] more).1 := by
  refine C90_generated_deque_partial ref d c z s0 u hnew ops hb N hN hcap _ _ _ ?_
  have adds : ∀ (vs l : List α), l.length + vs.length < N →
      DequeSpec.Walk.calls N (vs.map Deque.Op.addLast) ⟨[], l⟩ = some ⟨[], l ++ vs⟩ := by
    intro vs
    induction vs with
    | nil => intro l _; simp [DequeSpec.Walk.calls]
    | cons v vs ih =>
      intro l hl
      simp only [List.length_cons] at hl
      simp only [List.map_cons, DequeSpec.Walk.calls, DequeSpec.Walk.call, DequeSpec.Walk.all, List.nil_append]
      have h1 : l.length + 1 < N := by omega
      simp only [h1, if_true, Option.bind_some]
      rw [ih _ (by simp; omega)]; simp
  generalize (runS DequeSpec.step [] ops).2 = l at hq
  have : ∀ seen, DequeSpec.Walks N (perValue fun v => Deque.Op.removeFirst :: (g v).map Deque.Op.addLast)
      seen ⟨[], l⟩ (seen ++ out) [] := by
    induction hq with
    | done => intro seen; rw [List.append_nil]; exact .done
    | @step v l out hl _ ih =>
      intro seen
      have h1 := ih (seen ++ [v])
      rw [List.append_assoc] at h1
      refine .step ?_ h1
      rw [perValue_snoc]
      exact adds _ _ hl
  exact this []

/-- C90 is false of the generated code too, if the deque has to grow during the walk: here 6 is skipped. -/
theorem C90_generated_grow_refuted :
    (match Gen.KeyDeque.init false (0 : Int) 4 ⟨Arr.create 0 0, 7, 7, 7⟩ with
    | .ok _ s => (Gen.KeyDeque.forEach false 0 50
        (consumerOf (Link.Deque.step 50 false 0) fun v => if v = 5 then [.addLast 8] else [])
        (runM (Link.Deque.step 50 false 0) s
          [.addLast 4, .addLast 5, .addLast 6, .removeFirst, .addLast 7]).2).out
    | .err e _ => .error e) = .ok [5, 7, 8] := by
  decide +kernel

/- Non-vacuity of the theorems above: a work queue on the generated code. -/
example : (match Gen.KeyDeque.init true (0 : Int) 8 ⟨Arr.create 0 0, 7, 7, 7⟩ with
    | .ok _ s => (Gen.KeyDeque.forEach true 0 50
        (consumerOf (Link.Deque.step 50 true 0)
          fun v => .removeFirst :: (if v % 2 = 0 then [v / 2] else []).map Deque.Op.addLast)
        (runM (Link.Deque.step 50 true 0) s [.addLast 12, .addLast 7, .addLast 2]).2).out
    | .err e _ => .error e) = .ok [12, 7, 2, 6, 1, 3] := by
  decide +kernel

namespace Link.Vec
open Verif.Vec Verif.VecSpec

theorem step_spec_small (ref : Bool) (d : α) (s : Vec α) (l : List α) (o : Op α)
    (h : Inv ref d s l ∧ l.length ≤ 2 ^ 30) (g : Legal o l) :
    (Verif.Vec.step ref d o s).out = (VecSpec.step o l).1 ∧
      (Inv ref d (Verif.Vec.step ref d o s).state (VecSpec.step o l).2 ∧ (VecSpec.step o l).2.length ≤ 2 ^ 30) := by
  have := step_spec s l o h.1 g
  refine ⟨this.1, this.2, ?_⟩
  cases o with
  | append v =>
    have g' : (l.length : Int) < 2 ^ 30 := g
    simp only [VecSpec.step, List.length_append, List.length_cons, List.length_nil]; omega
  | clear => simp [VecSpec.step]
  | valueAt i => simp only [VecSpec.step]; split <;> exact h.2
  | _ => exact h.2

theorem calls_eq (fuel : Nat) (hf : 2 ^ 31 ≤ fuel) (ref : Bool) (d : α) (ops : List (Op α)) (s : Vec α)
    (l : List α) (h : Inv ref d s l ∧ l.length ≤ 2 ^ 30) (hb : Allowed VecSpec.step Legal l ops) :
    runM (step fuel ref d) s ops = runM (Verif.Vec.step ref d) s ops := by
  refine runM_congr_spec (Inv := fun s l => Inv ref d s l ∧ l.length ≤ 2 ^ 30)
    (fun s a o h g => step_spec_small ref d s a o h g)
    (fun s l o h _ => step_eq fuel ref d ?_ hf o) ops s l h hb
  have h1 := h.1.size
  have h2 := h.1.pos
  have h3 := h.2
  constructor <;> omega

theorem forEachDo_loop {ref : Bool} {d : α} (g : α → List (Op α))
    {seen out fin l : List α} {i : Nat} (hw : Walks (perValue g) seen i l out fin) :
    ∀ {s : Vec α}, Inv ref d s l ∧ l.length ≤ 2 ^ 30 →
    ∃ n, ∀ fuel fuel', n ≤ fuel → 2 ^ 31 ≤ fuel' → ∃ s',
      Gen.KeyVector.forEach_loop1 ref d (consumerOf (step fuel' ref d) g) fuel seen i s = .ok out s' ∧
      Inv ref d s' fin ∧ fin.length ≤ 2 ^ 30 := by
  induction hw with
  | @done seen l i hi =>
    intro s h
    refine ⟨1, fun fuel fuel' hf hf' => ?_⟩
    obtain ⟨k, rfl⟩ : ∃ k, fuel = k + 1 := ⟨fuel - 1, by omega⟩
    refine ⟨s, ?_, h⟩
    rw [Gen.KeyVector.forEach_loop1, JM.bind_ok (JM.get_apply _),
      if_neg (by have := h.1.size; simp; omega)]; rfl
  | @step seen l out fin i v hv hal _ ih =>
    intro s h
    rw [perValue_snoc] at hal ih
    have hr := (runM_refines (step_spec_small ref d) _ s l h hal).2
    obtain ⟨n, hn⟩ := ih hr
    refine ⟨n + 1, fun fuel fuel' hf hf' => ?_⟩
    obtain ⟨k, rfl⟩ : ∃ k, fuel = k + 1 := ⟨fuel - 1, by omega⟩
    obtain ⟨s', r1, r2⟩ := hn k fuel' (by omega) hf'
    refine ⟨s', ?_, r2⟩
    have hil : i < l.length := by
      rw [List.getElem?_eq_some_iff] at hv; exact hv.1
    have hv' := h.1.vals i hil
    rw [hv] at hv'
    simp only [Option.some.injEq] at hv'
    have := h.1.size
    have := h.1.room
    have h2 := h.2
    have e : i32 ((i : Int) + 1) = ((i + 1 : Nat) : Int) := by rw [i32_of_range (by omega)]; omega
    rw [Gen.KeyVector.forEach_loop1, JM.bind_ok (JM.get_apply _), if_pos (by simp; omega),
      JM.bind_ok (rd_ok Vec.values (by omega)), ← hv', JM.bind_ok (consumerOf_apply _ _ _ _),
      calls_eq fuel' hf' ref d _ s l h hal]
    simp only [e]
    exact r1

end Link.Vec

/-- C91 for the generated code (for consumers whose calls depend on the value handed to them): `forEach` hands out at
each index what the vector then holds there, until the index reaches the size the vector then has. -/
theorem C91_generated_vector (ref : Bool) (d : α) (c : Int) (z s0 : Vec α) (u : Unit)
    (hnew : Gen.KeyVector.init ref d c z = .ok u s0)
    (ops : List (Vec.Op α)) (hb : Allowed VecSpec.step VecSpec.Legal [] ops)
    (g : α → List (Vec.Op α)) (out fin : List α)
    (hw : VecSpec.Walks (perValue g) [] 0 (runS VecSpec.step [] ops).2 out fin) :
    ∃ n, ∀ fuel, n ≤ fuel → ∃ s',
      Gen.KeyVector.forEach ref d fuel (consumerOf (Link.Vec.step fuel ref d) g)
        (runM (Link.Vec.step fuel ref d) s0 ops).2 = .ok out s' ∧
      ∀ more : List (Vec.Op α), Allowed VecSpec.step VecSpec.Legal fin more →
        (runM (Link.Vec.step fuel ref d) s' more).1 = (runS VecSpec.step fin more).1 := by
  have hm := Link.Vec.made hnew
  have h0 : Vec.Inv ref d s0 [] ∧ ([] : List α).length ≤ 2 ^ 30 := ⟨Vec.inv_new (ref := ref) hm, by simp⟩
  have hi := (runM_refines (Link.Vec.step_spec_small ref d) ops s0 [] h0 hb).2
  obtain ⟨n, hn⟩ := Link.Vec.forEachDo_loop (ref := ref) (d := d) g hw hi
  refine ⟨max n (2 ^ 31), fun fuel hf => ?_⟩
  obtain ⟨s', r1, r2⟩ := hn fuel fuel (by omega) (by omega)
  refine ⟨s', ?_, fun more hb' => ?_⟩
  · rw [Link.Vec.history_eq fuel (by omega) ref d c s0 hm ops hb]
    exact r1
  · rw [Link.Vec.calls_eq fuel (by omega) ref d more s' fin r2 hb']
    exact (runM_refines (Link.Vec.step_spec_small ref d) more s' fin r2 hb').1

/- Non-vacuity: a work list on the generated code. -/
example : (match Gen.KeyVector.init false (0 : Int) 2 ⟨Arr.create 0 0, 7, 7⟩ with
    | .ok _ s => (Gen.KeyVector.forEach false 0 50
        (consumerOf (Link.Vec.step 50 false 0) fun v => if v % 2 = 0 then [.append (v / 2)] else [])
        (runM (Link.Vec.step 50 false 0) s [.append 12, .append 7, .append 2]).2).out
    | .err e _ => .error e) = .ok [12, 7, 2, 6, 1, 3] := by
  decide +kernel
example : VecSpec.Walks (perValue fun v : Int => if v % 2 = 0 then [.append (v / 2)] else []) [] 0 [2, 3]
    [2, 3, 1] [2, 3, 1] := by
  refine .step (v := 2) rfl ⟨by simp only [VecSpec.Legal]; decide, trivial⟩ (.step (v := 3) rfl trivial (.step (v := 1) rfl trivial (.done (by decide))))

end Verif

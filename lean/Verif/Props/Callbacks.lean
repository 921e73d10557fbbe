import Verif.Proofs.Callbacks
import Verif.Proofs.HydraIt
/-! # Properties C90, C91: consumers that change the deque or vector they are walking -/
namespace Verif
variable {α : Type}

/-- `s` answers every further (bounded) history like the list `l`. -/
def Deque.Behaves (ref : Bool) (d : α) (s : Deque α) (l : List α) : Prop :=
  ∀ ops : List (Deque.Op α), Allowed DequeSpec.step DequeSpec.Bounded l ops →
    (runM (Deque.step ref d) s ops).1 = (runS DequeSpec.step l ops).1

/-- `v` answers every further legal history like the list `l`. -/
def Vec.Behaves (ref : Bool) (d : α) (s : Vec α) (l : List α) : Prop :=
  ∀ ops : List (Vec.Op α), Allowed VecSpec.step VecSpec.Legal l ops →
    (runM (Vec.step ref d) s ops).1 = (runS VecSpec.step l ops).1

theorem Deque.new_len {c : Int} {d : α} {s : Deque α} (h : Deque.new c d = .ok s) (hc : c ≤ 2 ^ 30) :
    c ≤ s.values.len := by
  unfold Deque.new at h
  split at h
  · simp at h
  · simp only at h
    split at h
    · simp at h
    · rename_i h1 h2
      have hr := nextPowerOf2_any c
      simp at h; subst h
      simp
      have := nextPowerOf2_range (v := c) (by omega) (by omega); omega

/-- C90 (partial: for consumers whose calls the walk survives, `Walk.call`): `forEach` on any reachable deque,
with a consumer that calls back into the deque, hands out exactly what the ideal walk does and leaves
exactly its contents.  The number of values has to stay below `N`, which may be anything up to the initial
capacity or one more than the largest number of values held so far (so that the deque does not have to
grow during the walk). -/
theorem C90_deque_partial (ref : Bool) (d : α) (c : Int) (s0 : Deque α) (hnew : Deque.new c d = .ok s0)
    (ops : List (Deque.Op α)) (hb : Allowed DequeSpec.step DequeSpec.Bounded [] ops) (N : Nat)
    (hN : N ≤ 2 ^ 29) (hcap : (N : Int) ≤ c ∧ c ≤ 2 ^ 30 ∨ N ≤ DequeSpec.peak [] ops + 1)
    (f : Consumer α (Deque.Op α)) (out fin : List α)
    (hw : DequeSpec.Walks N f [] ⟨[], (runS DequeSpec.step [] ops).2⟩ out fin) :
    ∃ n, ∀ fuel, n ≤ fuel → ∃ s',
      Deque.forEachDo ref d f fuel (runM (Deque.step ref d) s0 ops).2 = .ok out s' ∧
      Deque.Behaves ref d s' fin := by
  have h0 := Deque.inv_new (ref := ref) hnew
  have hi := (runM_refines (fun s a o h g => Deque.step_spec s a o h g) ops s0 [] h0 hb).2
  have hl := Deque.peak_len ops h0 hb
  have hc := Deque.new_len hnew
  generalize (runM (Deque.step ref d) s0 ops).2 = s at *
  have hat : Deque.At s 0 s.head := ⟨hi.head.1, hi.head.2, .inl (by simp)⟩
  obtain ⟨n, hn⟩ := Deque.forEachDoFrom_spec (ref := ref) (d := d) hN hw (by simpa [DequeSpec.Walk.all] using hi)
    (by rcases hcap with hcap | hcap
        · have := hc hcap.2; omega
        · omega) hat
  refine ⟨n, fun fuel hf => ?_⟩
  obtain ⟨s', r1, r2⟩ := hn fuel hf
  refine ⟨s', ?_, fun ops' hb' =>
    (runM_refines (fun s a o h g => Deque.step_spec s a o h g) ops' s' fin r2 hb').1⟩
  unfold Deque.forEachDo
  rw [JM.bind_ok (JM.get_apply _)]
  exact r1

/-- C90, draining: a consumer that takes the first value out whenever it is handed one is handed every
value in order, and leaves the deque empty. -/
theorem C90_drain (ref : Bool) (d : α) (c : Int) (s0 : Deque α) (hnew : Deque.new c d = .ok s0)
    (ops : List (Deque.Op α)) (hb : Allowed DequeSpec.step DequeSpec.Bounded [] ops) :
    ∃ n, ∀ fuel, n ≤ fuel → ∃ s',
      Deque.forEachDo ref d (fun _ => [.removeFirst]) fuel (runM (Deque.step ref d) s0 ops).2 =
        .ok (runS DequeSpec.step [] ops).2 s' ∧ Deque.Behaves ref d s' [] := by
  refine C90_deque_partial ref d c s0 hnew ops hb 0 (by omega) (.inr (by omega)) _ _ _ ?_
  generalize (runS DequeSpec.step [] ops).2 = l
  have : ∀ seen, DequeSpec.Walks 0 (fun _ => [Deque.Op.removeFirst]) seen ⟨[], l⟩ (seen ++ l) [] := by
    induction l with
    | nil => intro seen; rw [List.append_nil]; exact .done
    | cons v l ih =>
      intro seen
      have := ih (seen ++ [v])
      rw [List.append_assoc] at this
      exact .step rfl this
  exact this []

/-- C90, a work queue: a consumer that takes out the value it is handed and puts new values at the end
(`g v` lists them) is handed those as well, in the order in which they were put, as in a breadth-first
traversal, if at most `N - 1` values wait at any time.  `Bfs` is that traversal. -/
inductive Bfs (N : Nat) (g : α → List α) : List α → List α → Prop
  | done : Bfs N g [] []
  | step {v : α} {l out : List α} : l.length + (g v).length < N → Bfs N g (l ++ g v) out →
      Bfs N g (v :: l) (v :: out)

@[inherit_doc Bfs]
theorem C90_work_queue (ref : Bool) (d : α) (c : Int) (s0 : Deque α) (hnew : Deque.new c d = .ok s0)
    (ops : List (Deque.Op α)) (hb : Allowed DequeSpec.step DequeSpec.Bounded [] ops) (N : Nat)
    (hN : N ≤ 2 ^ 29) (hcap : (N : Int) ≤ c ∧ c ≤ 2 ^ 30 ∨ N ≤ DequeSpec.peak [] ops + 1)
    (g : α → List α) (out : List α) (hq : Bfs N g (runS DequeSpec.step [] ops).2 out) :
    ∃ n, ∀ fuel, n ≤ fuel → ∃ s',
      Deque.forEachDo ref d
        (fun seen => .removeFirst :: ((seen.getLast?.map g).getD []).map Deque.Op.addLast) fuel
        (runM (Deque.step ref d) s0 ops).2 = .ok out s' ∧ Deque.Behaves ref d s' [] := by
  refine C90_deque_partial ref d c s0 hnew ops hb N hN hcap _ _ _ ?_
  have adds : ∀ (vs l : List α), l.length + vs.length < N →
      DequeSpec.Walk.calls N (vs.map Deque.Op.addLast) ⟨[], l⟩ = some ⟨[], l ++ vs⟩ := by
    intro vs
    induction vs with
    | nil => intro l _; simp [DequeSpec.Walk.calls]
    | cons v vs ih =>
      intro l hl
      simp only [List.length_cons] at hl
      simp only [List.map_cons, DequeSpec.Walk.calls, DequeSpec.Walk.call, DequeSpec.Walk.all, List.nil_append]
      have h1 : l.length + 1 < N := by omega
      simp only [h1, if_true, Option.bind_some]
      rw [ih _ (by simp; omega)]; simp
  generalize (runS DequeSpec.step [] ops).2 = l at hq
  have : ∀ seen, DequeSpec.Walks N
      (fun seen => Deque.Op.removeFirst :: ((seen.getLast?.map g).getD []).map Deque.Op.addLast)
      seen ⟨[], l⟩ (seen ++ out) [] := by
    induction hq with
    | done => intro seen; rw [List.append_nil]; exact .done
    | @step v l out hl _ ih =>
      intro seen
      have h1 := ih (seen ++ [v])
      rw [List.append_assoc] at h1
      refine .step ?_ h1
      simp only [List.getLast?_append, List.getLast?_singleton, Option.some_or, Option.map_some, Option.getD_some,
        DequeSpec.Walk.calls, List.nil_append]
      exact adds _ _ hl
  exact this []

/-- What `forEach` with a consumer hands out after a history on a new deque of ints. -/
def dequeWalk (ref : Bool) (c : Int) (ops : List (Deque.Op Int)) (f : Consumer Int (Deque.Op Int)) :
    Except Err (List Int) :=
  match Deque.new c 0 with
  | .error e => .error e
  | .ok s => (Deque.forEachDo ref 0 f 100 (runM (Deque.step ref 0) s ops).2).out

/-- C90 is false if the consumer takes the value it is handed out from the back: the walk runs through all
other cells of the array. -/
theorem C90_remove_current_last_refuted :
    dequeWalk false 8 [.addLast 5] (fun _ => [.removeLast]) = .ok [5, 0, 0, 0, 0, 0, 0, 0] := by
  rfl

/-- C90 is false if the consumer takes out values ahead of it from the front: they are handed out as
defaults. -/
theorem C90_remove_ahead_refuted :
    dequeWalk false 8 [.addLast 5, .addLast 6, .addLast 7]
      (fun seen => if seen = [5] then [.removeFirst, .removeFirst] else []) = .ok [5, 0, 7] := by
  rfl

/-- C90 is false if the consumer clears the deque: values that are gone are handed out. -/
theorem C90_clear_refuted :
    dequeWalk false 4 [.addLast 5, .addLast 6, .addLast 7] (fun _ => [.clear]) = .ok [5, 6, 7, 0] := by
  rfl

/-- C90 is false if the deque has to grow during the walk: its values move to other cells, and here 6 is
skipped. -/
theorem C90_grow_refuted :
    dequeWalk false 4 [.addLast 4, .addLast 5, .addLast 6, .removeFirst, .addLast 7]
      (fun seen => if seen = [5] then [.addLast 8] else []) = .ok [5, 7, 8] := by
  rfl

/- Non-vacuity of `C90_deque_partial` and `C90_work_queue`: a queue of numbers in which every even number
puts its half. -/
example : Bfs 8 (fun v : Int => if v % 2 = 0 then [v / 2] else []) [12, 7, 2] [12, 7, 2, 6, 1, 3] := by
  refine .step (by decide) (.step (by decide) (.step (by decide) (.step (by decide)
    (.step (by decide) (.step (by decide) .done)))))
example : dequeWalk true 8 [.addLast 12, .addLast 7, .addLast 2]
    (fun seen => .removeFirst :: ((seen.getLast?.map fun v => if v % 2 = 0 then [v / 2] else []).getD []).map
      Deque.Op.addLast) = .ok [12, 7, 2, 6, 1, 3] := rfl
/- ... and one with removals and additions at both ends. -/
example : DequeSpec.Walks 8
    (fun seen => if seen = [1] then [.addFirst 9, .removeLast, .addLast 4] else
      if seen = [1, 2] then [.removeFirst, .removeFirst, Deque.Op.removeFirst] else []) []
    ⟨[], [1, 2, 3]⟩ [1, 2, 4] [4] :=
  .step (w := ⟨[9, 1], [2, 4]⟩) rfl (.step (w := ⟨[], [4]⟩) rfl (.step (w := ⟨[4], []⟩) rfl .done))

/-- C91: `forEach` on any reachable vector, with any consumer that calls back into the vector, hands out
at each index what the vector then holds there, until the index reaches the size the vector then has. -/
theorem C91_vector (ref : Bool) (d : α) (c : Int) (s0 : Vec α) (hnew : Vec.new c d = .ok s0)
    (ops : List (Vec.Op α)) (hb : Allowed VecSpec.step VecSpec.Legal [] ops)
    (f : Consumer α (Vec.Op α)) (out fin : List α)
    (hw : VecSpec.Walks f [] 0 (runS VecSpec.step [] ops).2 out fin) :
    ∃ n, ∀ fuel, n ≤ fuel → ∃ s',
      Vec.forEachDo ref d f fuel (runM (Vec.step ref d) s0 ops).2 = .ok out s' ∧ Vec.Behaves ref d s' fin := by
  have h0 := Vec.inv_new (ref := ref) hnew
  have hi := (runM_refines (fun s a o h g => Vec.step_spec s a o h g) ops s0 [] h0 hb).2
  obtain ⟨n, hn⟩ := Vec.forEachDoFrom_spec (ref := ref) (d := d) hw hi
  refine ⟨n, fun fuel hf => ?_⟩
  obtain ⟨s', r1, r2⟩ := hn fuel hf
  exact ⟨s', r1, fun ops' hb' =>
    (runM_refines (fun s a o h g => Vec.step_spec s a o h g) ops' s' fin r2 hb').1⟩

/-- C91, a work list: if the consumer appends `g v` for every value `v` it is handed, it is handed those
as well, in order, and the vector ends up with exactly what was handed out. -/
theorem C91_work_list (ref : Bool) (d : α) (c : Int) (s0 : Vec α) (hnew : Vec.new c d = .ok s0)
    (ops : List (Vec.Op α)) (hb : Allowed VecSpec.step VecSpec.Legal [] ops) (g : α → List α)
    (N : Nat) (out : List α) (hq : Bfs N g (runS VecSpec.step [] ops).2 out) (hlen : out.length ≤ 2 ^ 30) :
    ∃ n, ∀ fuel, n ≤ fuel → ∃ s',
      Vec.forEachDo ref d (fun seen => ((seen.getLast?.map g).getD []).map Vec.Op.append) fuel
        (runM (Vec.step ref d) s0 ops).2 = .ok out s' ∧ Vec.Behaves ref d s' out := by
  refine C91_vector ref d c s0 hnew ops hb _ _ _ ?_
  generalize (runS VecSpec.step [] ops).2 = l at hq
  have adds : ∀ (vs l : List α), l.length + vs.length ≤ 2 ^ 30 →
      Allowed VecSpec.step VecSpec.Legal l (vs.map Vec.Op.append) ∧
      (runS VecSpec.step l (vs.map Vec.Op.append)).2 = l ++ vs := by
    intro vs
    induction vs with
    | nil => intro l _; simp [Allowed, runS]
    | cons v vs ih =>
      intro l hl
      simp only [List.length_cons] at hl
      have := ih (l ++ [v]) (by simp; omega)
      exact ⟨⟨by simp only [VecSpec.Legal]; omega, this.1⟩, by
        simp only [List.map_cons, runS, VecSpec.step]; rw [this.2]; simp⟩
  have le : ∀ {l out : List α}, Bfs N g l out → l.length ≤ out.length := by
    intro l out h
    induction h with
    | done => simp
    | step _ _ ih => simp only [List.length_append, List.length_cons] at ih ⊢; omega
  have : ∀ seen : List α, seen.length + out.length ≤ 2 ^ 30 →
      VecSpec.Walks (fun seen => ((seen.getLast?.map g).getD []).map Vec.Op.append) seen seen.length
        (seen ++ l) (seen ++ out) (seen ++ out) := by
    clear hlen
    induction hq with
    | done =>
      intro seen _
      rw [List.append_nil]
      exact .done (Nat.le_refl _)
    | @step v l out hl hq ih =>
      intro seen hle
      have hle' := le hq
      simp only [List.length_append, List.length_cons] at hle hle'
      have h1 := ih (seen ++ [v]) (by simp; omega)
      have ha := adds (g v) (seen ++ v :: l) (by simp; omega)
      refine .step (v := v) (by simp) ?_ ?_
      · simpa using ha.1
      · simp only [List.getLast?_append, List.getLast?_singleton, Option.some_or, Option.map_some,
          Option.getD_some]
        rw [ha.2]
        simpa using h1
  exact this [] (by simpa using hlen)

/-- What `forEach` with a consumer hands out after a history on a new vector of ints. -/
def vecWalk (ref : Bool) (c : Int) (ops : List (Vec.Op Int)) (f : Consumer Int (Vec.Op Int)) :
    Except Err (List Int) :=
  match Vec.new c 0 with
  | .error e => .error e
  | .ok s => (Vec.forEachDo ref 0 f 100 (runM (Vec.step ref 0) s ops).2).out

/- Non-vacuity: appends (with growth), and a clear followed by appends, while walking. -/
example : vecWalk true 2 [.append 12, .append 7, .append 2]
    (fun seen => ((seen.getLast?.map fun v => if v % 2 = 0 then [v / 2] else []).getD []).map
      Vec.Op.append) = .ok [12, 7, 2, 6, 1, 3] := rfl
example : vecWalk true 2 [.append 12, .append 7, .append 2]
    (fun seen => if seen = [12] then [.clear, .append 4, .append 5] else []) = .ok [12, 5] := rfl
example : VecSpec.Walks (fun seen => if seen = [12] then [.clear, .append 4, Vec.Op.append 5] else []) [] 0
    [12, 7, 2] [12, 5] [4, 5] := by
  refine .step (v := 12) rfl ?_ (.step (v := 5) rfl ?_ (.done (by decide)))
  · simp [Allowed, VecSpec.Legal, VecSpec.step]
  · simp [Allowed]


/-! ## C92 iterators of the multi-headed deque, with changes in between -/

/-- C92: take an iterator (forward or reverse) of a list of any reachable multi-headed deque, then call the
deque and the iterator in any order, any number of times.  As long as nobody removes the value that the
iterator hands out next (or, if somebody does, the iterator is not asked any more), all results are those of an
ideal iterator, which keeps its place: values put in ahead of it are handed out, values put in behind it are
not, values taken out ahead of it are not, other lists do not matter, and once at its end it stays there.  The
full statement without this condition is refuted by `C92_remove_next_refuted`. -/
theorem C92_iterator_partial (fwd : Bool) (d : α) (q c : Int) (s0 : Hydra α) (hnew : Hydra.new q c d = .ok s0)
    (ops : List (Hydra.Op α)) (id : Int) (hid : 0 ≤ id) (iops : List (HydraIt.IOp α))
    (hf : HydraSpec.Fits (ops ++ HydraSpec.calls iops)) (t : HydraIt α)
    (hs : HydraIt.start fwd id (runM (Hydra.step d) s0 ops).2 = .ok () t)
    (hk : Allowed (HydraSpec.itStep fwd id) HydraSpec.Known
      ((runS HydraSpec.step HydraSpec.Family.empty ops).2,
        HydraSpec.Place.start fwd ((runS HydraSpec.step HydraSpec.Family.empty ops).2.lists id)) iops) :
    (runM (HydraIt.step fwd d) t iops).1.map HydraSpec.eraseOut =
      (runS (HydraSpec.itStep fwd id) ((runS HydraSpec.step HydraSpec.Family.empty ops).2,
        HydraSpec.Place.start fwd ((runS HydraSpec.step HydraSpec.Family.empty ops).2.lists id)) iops).1 := by
  obtain ⟨f1, f2⟩ := hf
  rw [List.countP_append] at f2
  have hfit : HydraSpec.Fits ops := ⟨fun o ho => f1 o (by simp [ho]), by omega⟩
  have hi := (Hydra.run_spec hnew hfit).2
  obtain ⟨t', ht', hr⟩ := HydraIt.start_spec (fwd := fwd) hid hi
  rw [hs] at ht'
  cases ht'
  have hn : ∀ (ops : List (Hydra.Op α)) (a : HydraSpec.Stored α),
      (runS HydraSpec.storedStep a ops).2.next ≤ a.next + (ops.countP HydraSpec.isAdd : Int) := by
    intro ops
    induction ops with
    | nil => intro a; simp [runS]
    | cons o ops ih =>
      intro a
      have h1 := HydraIt.next_add o a
      have h2 := ih (HydraSpec.storedStep o a).2
      simp only [runS, List.countP_cons]
      by_cases hc : HydraSpec.isAdd o = true
      · rw [if_pos hc] at h1 ⊢; omega
      · rw [if_neg hc] at h1 ⊢; omega
  have hb := hn ops HydraSpec.Stored.empty
  simp only [HydraSpec.Stored.empty] at hb
  have e : Hydra.forget (runS HydraSpec.storedStep HydraSpec.Stored.empty ops).2 =
      (runS HydraSpec.step HydraSpec.Family.empty ops).2 := (Hydra.forget_run ops _).2
  rw [e] at hr
  exact HydraIt.run_spec hid iops t _ _ hr (fun o ho => f1 o (by simp [ho]))
    (by simp only [HydraSpec.Stored.empty] at *; omega) hk

/-- C92: such an iterator can always be had. -/
theorem C92_start (fwd : Bool) (d : α) (q c : Int) (s0 : Hydra α) (hnew : Hydra.new q c d = .ok s0)
    (ops : List (Hydra.Op α)) (hf : HydraSpec.Fits ops) (id : Int) (hid : 0 ≤ id) :
    ∃ t, HydraIt.start fwd id (runM (Hydra.step d) s0 ops).2 = .ok () t := by
  obtain ⟨t, ht, -⟩ := HydraIt.start_spec (fwd := fwd) hid (Hydra.run_spec hnew hf).2
  exact ⟨t, ht⟩

/-- The loop `while (it.hasNext()) { it.next(); deque.removeX(id); }` for a list of `n` values: the calls. -/
def drainLoop (fwd : Bool) (id : Int) : Nat → List (HydraIt.IOp α)
  | 0 => [.hasNext]
  | n + 1 => .hasNext :: .next :: .call (if fwd then .removeFirst id else .removeLast id) :: drainLoop fwd id n

/-- The results that loop should give for the values `l` in the order of the iterator. -/
def drained : List α → List (Except Err (Hydra.Out α))
  | [] => [.ok (.bool false)]
  | v :: l => .ok (.bool true) :: .ok (.val v) :: .ok (.val v) :: drained l

/-- C92, draining: a loop that takes the value just handed out off the front (reverse: off the back) hands out
and removes every value, in order. -/
theorem C92_drain (fwd : Bool) (d : α) (q c : Int) (s0 : Hydra α) (hnew : Hydra.new q c d = .ok s0)
    (ops : List (Hydra.Op α)) (hf : HydraSpec.Fits ops) (id : Int) (hid : 0 ≤ id) (hid' : id < 2 ^ 30) (l : List α)
    (hl : (runS HydraSpec.step HydraSpec.Family.empty ops).2.lists id = if fwd then l else l.reverse)
    (t : HydraIt α) (hs : HydraIt.start fwd id (runM (Hydra.step d) s0 ops).2 = .ok () t) :
    (runM (HydraIt.step fwd d) t (drainLoop fwd id l.length)).1 = drained l := by
  have noadd : ∀ n, (∀ o ∈ HydraSpec.calls (drainLoop (α := α) fwd id n),
      ∀ i, HydraSpec.idOf o = some i → -2 ^ 31 ≤ i ∧ i < 2 ^ 30) ∧
      (HydraSpec.calls (drainLoop (α := α) fwd id n)).countP HydraSpec.isAdd = 0 := by
    intro n
    induction n with
    | zero => simp [drainLoop, HydraSpec.calls]
    | succ n ih =>
      refine ⟨?_, ?_⟩
      · intro o ho
        simp only [drainLoop, HydraSpec.calls, List.mem_cons] at ho
        rcases ho with rfl | ho
        · intro i hi
          cases fwd <;> (simp [HydraSpec.idOf] at hi; subst hi; omega)
        · exact ih.1 o ho
      · simp only [drainLoop, HydraSpec.calls, List.countP_cons, ih.2]
        cases fwd <;> rfl
  have hfit : HydraSpec.Fits (ops ++ HydraSpec.calls (drainLoop (α := α) fwd id l.length)) := by
    refine ⟨fun o ho => ?_, ?_⟩
    · rcases List.mem_append.1 ho with h | h
      · exact hf.1 o h
      · exact (noadd _).1 o h
    · rw [List.countP_append, (noadd _).2]; exact hf.2
  have key : ∀ (l : List α) (F : HydraSpec.Family α), F.lists id = (if fwd then l else l.reverse) →
      Allowed (HydraSpec.itStep fwd id) HydraSpec.Known (F, HydraSpec.Place.start fwd (F.lists id))
        (drainLoop fwd id l.length) ∧
      (runS (HydraSpec.itStep fwd id) (F, HydraSpec.Place.start fwd (F.lists id))
        (drainLoop fwd id l.length)).1 = drained l := by
    intro l
    induction l with
    | nil =>
      intro F hF
      have e : HydraSpec.Place.start fwd (F.lists id) = .ended := by rw [hF]; cases fwd <;> rfl
      rw [e]
      exact ⟨⟨trivial, trivial⟩, rfl⟩
    | cons v l ih =>
      intro F hF
      cases fwd with
      | true =>
        simp only [if_true] at hF ih
        have ih' := ih ⟨HydraSpec.upd F.lists id l, F.total - 1⟩ (by simp [HydraSpec.upd])
        have e : (HydraSpec.upd F.lists id l) id = l := by simp [HydraSpec.upd]
        simp only [e] at ih'
        have hp : HydraSpec.Place.start true (F.lists id) = .at [] v l := by rw [hF]; rfl
        have hp' : ((HydraSpec.Place.at [] v l).advance true).after id (.removeFirst id) =
            HydraSpec.Place.start true l := by
          cases l <;> simp [HydraSpec.Place.advance, HydraSpec.Place.after, HydraSpec.Place.start]
        have hst : HydraSpec.step (.removeFirst id) F = (.ok (.val v), ⟨HydraSpec.upd F.lists id l, F.total - 1⟩) := by
          simp [HydraSpec.step, hF]
        rw [hp]
        simp only [List.length_cons, drainLoop, Allowed, runS, HydraSpec.itStep, if_true, hst, hp', drained]
        exact ⟨⟨trivial, trivial, trivial, ih'.1⟩, by rw [ih'.2]⟩
      | false =>
        simp only [Bool.false_eq_true, if_false] at hF ih
        have ih' := ih ⟨HydraSpec.upd F.lists id l.reverse, F.total - 1⟩ (by simp [HydraSpec.upd])
        have e : (HydraSpec.upd F.lists id l.reverse) id = l.reverse := by simp [HydraSpec.upd]
        simp only [e] at ih'
        have hp : HydraSpec.Place.start false (F.lists id) = .at l.reverse v [] := by
          rw [hF]; simp [HydraSpec.Place.start]
        have hp' : ((HydraSpec.Place.at l.reverse v []).advance false).after id (.removeLast id) =
            HydraSpec.Place.start false l.reverse := by
          cases l <;> simp [HydraSpec.Place.advance, HydraSpec.Place.after, HydraSpec.Place.start]
        have hst : HydraSpec.step (.removeLast id) F =
            (.ok (.val v), ⟨HydraSpec.upd F.lists id l.reverse, F.total - 1⟩) := by
          simp [HydraSpec.step, hF]
        rw [hp]
        simp only [List.length_cons, drainLoop, Allowed, runS, HydraSpec.itStep, Bool.false_eq_true, if_false,
          hst, hp', drained]
        exact ⟨⟨trivial, trivial, trivial, ih'.1⟩, by rw [ih'.2]⟩
  have h1 := key l _ hl
  have h2 := C92_iterator_partial fwd d q c s0 hnew ops id hid _ hfit t hs h1.1
  rw [h1.2] at h2
  have inj : ∀ (l : List α) (xs : List (Except Err (Hydra.Out α))), xs.map HydraSpec.eraseOut = drained l →
      xs = drained l := by
    have one : ∀ (x : Except Err (Hydra.Out α)) (y : Hydra.Out α), (y ≠ .unit) →
        HydraSpec.eraseOut x = .ok y → x = .ok y := by
      intro x y hy h
      unfold HydraSpec.eraseOut at h
      split at h
      · simp only [Except.ok.injEq] at h; exact absurd h.symm hy
      · exact h
    intro l
    induction l with
    | nil =>
      intro xs h
      match xs, h with
      | [], h => simp [drained] at h
      | _ :: _ :: _, h => simp [drained] at h
      | [x], h =>
        simp only [List.map_cons, List.map_nil, drained, List.cons.injEq, and_true] at h
        rw [one x _ (by simp) h]; rfl
    | cons v l ih =>
      intro xs h
      match xs, h with
      | [], h => simp [drained] at h
      | [x], h => simp [drained] at h
      | [x, y], h => simp [drained] at h
      | x :: y :: z :: xs, h =>
        simp only [List.map_cons, drained, List.cons.injEq] at h
        obtain ⟨h1, h2, h3, h4⟩ := h
        rw [one x _ (by simp) h1, one y _ (by simp) h2, one z _ (by simp) h3, ih xs h4]; rfl
  exact inj l _ h2

/-- The results of an iterator of list 0 after a history on a new deque of ints. -/
def hydraWalk (fwd : Bool) (ops : List (Hydra.Op Int)) (iops : List (HydraIt.IOp Int)) :
    List (Except Err (Hydra.Out Int)) :=
  match Hydra.new 1 2 0 with
  | .error _ => []
  | .ok s =>
    match HydraIt.start fwd 0 (runM (Hydra.step 0) s ops).2 with
    | .ok _ t => (runM (HydraIt.step fwd 0) t iops).1
    | .err _ _ => []

/-- C92 is false if the value that the iterator hands out next is removed: it hands out the default 0, which
was never in the list, and then claims to be at the end although 7 and 8 are still in the list. -/
theorem C92_remove_next_refuted :
    hydraWalk true [.addLast 0 6, .addLast 0 7, .addLast 0 8]
      [.call (.removeFirst 0), .hasNext, .next, .hasNext, .call (.iterate 0)] =
      [.ok (.val 6), .ok (.bool true), .ok (.val 0), .ok (.bool false), .ok (.seq [7, 8])] := by
  rfl

/-- ... and if the removed cell is taken again by another list the iterator hands out that list's values. -/
theorem C92_reuse_refuted :
    hydraWalk true [.addLast 0 6, .addLast 0 7]
      [.call (.removeFirst 0), .call (.addLast 1 10), .call (.addLast 1 11), .next, .next] =
      [.ok (.val 6), .ok (.entry 0), .ok (.entry 2), .ok (.val 10), .ok (.val 11)] := by
  rfl

/-- ... and after `clear` the iterator still has a next value. -/
theorem C92_clear_refuted :
    hydraWalk true [.addLast 0 6, .addLast 0 7] [.call .clear, .call .size, .hasNext, .next] =
      [.ok .unit, .ok (.int 0), .ok (.bool true), .ok (.val 0)] := by
  rfl

/- Non-vacuity of `C92_iterator_partial`: additions on both sides (with growth), removals behind and ahead, and
other lists. -/
example : hydraWalk true [.addLast 0 6, .addLast 0 7]
    [.next, .call (.addFirst 0 5), .call (.addLast 0 8), .call (.addLast 3 1), .call (.removeFirst 0),
      .call (.removeFirst 0), .next, .hasNext, .call (.removeLast 0)] =
    [.ok (.val 6), .ok (.entry 2), .ok (.entry 3), .ok (.entry 4), .ok (.val 5), .ok (.val 6), .ok (.val 7),
      .ok (.bool true), .ok (.val 8)] := rfl
example : Allowed (HydraSpec.itStep true 0) HydraSpec.Known
    (((runS HydraSpec.step HydraSpec.Family.empty [.addLast 0 6, .addLast 0 (7 : Int)]).2),
      .start true ((runS HydraSpec.step HydraSpec.Family.empty [.addLast 0 6, .addLast 0 (7 : Int)]).2.lists 0))
    [.next, .call (.addFirst 0 5), .call (.addLast 0 8), .call (.addLast 3 1), .call (.removeFirst 0),
      .call (.removeFirst 0), .next, .hasNext, .call (.removeLast 0)] :=
  ⟨trivial, trivial, trivial, trivial, trivial, trivial, trivial, trivial, trivial, trivial⟩

end Verif

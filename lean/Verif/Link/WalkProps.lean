import Verif.Link.Walk
/-! C108: what a walk hands to a consumer that has a state of its own, or throws. -/
namespace Verif
open Verif.Walk Verif.WalkSpec
variable {σ α β : Type}

/-- C108 for the generated `forEach` of the deque: after any history, a consumer (with any state, and which may throw)
is handed the values of the deque from the first to the last, up to its first exception, which `forEach` passes on;
the deque is as it was. -/
theorem C108_generated_deque (fuel : Nat) (hf : 2 ^ 31 ≤ fuel) (ref : Bool) (d : α) (c : Int)
    (z s0 : Deque α) (u : Unit) (hnew : Gen.KeyDeque.init ref d c z = .ok u s0) (ops : List (Deque.Op α))
    (hb : Allowed DequeSpec.step DequeSpec.Bounded [] ops) (consumer : α → JM σ β) :
    HandsOut (Gen.KeyDequeWalk.forEach ref d fuel fun v => aside (consumer v))
      (runM (Link.Deque.step fuel ref d) s0 ops).2 consumer (runS DequeSpec.step [] ops).2 := by
  have hm := Link.Deque.made hnew
  have hi := (runM_refines (fun s a o h g => Deque.step_spec s a o h g) ops s0 []
    (Deque.inv_new (ref := ref) hm) hb).2
  rw [Link.Deque.history_eq fuel hf ref d c s0 hm ops hb]
  generalize (runM (Deque.step ref d) s0 ops).2 = s at *
  generalize (runS DequeSpec.step [] ops).2 = l at *
  have h1 := Link.Deque.forEach_eq ref d fuel (Link.Deque.fits_of_inv hi) hf
  rw [Deque.forEach_spec hi] at h1
  exact Link.WalkL.deque h1 consumer

/-- C108 for the generated `forEach` of the vector. -/
theorem C108_generated_vector (fuel : Nat) (hf : 2 ^ 31 ≤ fuel) (ref : Bool) (d : α) (c : Int)
    (z s0 : Vec α) (u : Unit) (hnew : Gen.KeyVector.init ref d c z = .ok u s0) (ops : List (Vec.Op α))
    (hb : Allowed VecSpec.step VecSpec.Legal [] ops) (consumer : α → JM σ β) :
    HandsOut (Gen.KeyVectorWalk.forEach ref d fuel fun v => aside (consumer v))
      (runM (Link.Vec.step fuel ref d) s0 ops).2 consumer (runS VecSpec.step [] ops).2 := by
  have hm := Link.Vec.made hnew
  have h0 : Vec.Inv ref d s0 [] ∧ ([] : List α).length ≤ 2 ^ 30 := ⟨Vec.inv_new (ref := ref) hm, by simp⟩
  have hi := (runM_refines (Link.Vec.step_spec_small ref d) ops s0 [] h0 hb).2
  rw [Link.Vec.history_eq fuel hf ref d c s0 hm ops hb]
  generalize (runM (Vec.step ref d) s0 ops).2 = s at *
  generalize (runS VecSpec.step [] ops).2 = l at *
  have h1 := (Vec.step_spec s l .forEach hi.1 trivial).1
  have h2 := congrArg Prod.fst (Link.Vec.calls_eq fuel hf ref d [.forEach] s l hi ⟨trivial, trivial⟩)
  simp only [runM, List.cons.injEq, and_true] at h2
  rw [← h2] at h1
  cases hw : Gen.KeyVector.forEach ref d fuel pure s with
  | err e t =>
    simp only [Link.Vec.step] at h1
    rw [JM.bind_err hw] at h1
    cases h1
  | ok l' t =>
    simp only [Link.Vec.step] at h1
    rw [JM.bind_ok hw] at h1
    have h1 : Except.ok (Vec.Out.seq l') = Except.ok (Vec.Out.seq l) := h1
    injection h1 with h1
    injection h1 with h1
    subst h1
    exact Link.WalkL.vector hw consumer

section Heap
open Verif.Heap HeapSpec
variable {K V : Type} [BEq K] [BEq V]

/-- C108 for the generated `forEachEntry` of the heap: the consumer is handed the entries it hands out (those of C54),
up to its first exception. -/
theorem C108_generated_heap {fuel : Nat} (hfu : 2 ^ 31 ≤ fuel) {c : Comparator K} {dk : K} {dv : V} {n : Int}
    (hn : n < 2 ^ 31) {ops : List (Op K V)} (hg : Guarded (empty c dk dv n) ops) {s : Heap K V}
    (hs : Link.HeapL.Made fuel c dk dv n ops s) (consumer : Int → JM σ β) :
    let a := ideal (empty c dk dv n) ops
    HandsOut (Gen.KeyValueHeapWalk.forEachEntry fuel fun e => aside (consumer e)) s consumer
      (((List.range a.live.length).map Int.ofNat).filter fun e => decide (e ∈ a.live)) := by
  have h1 := (C54_generated_reports_partial hfu hn hg hs).1
  intro a
  cases hw : Gen.KeyValueHeap.forEachEntry fuel pure s with
  | err e t =>
    simp only [Link.HeapL.step] at h1
    rw [JM.bind_err hw] at h1
    cases h1
  | ok l' t =>
    simp only [Link.HeapL.step] at h1
    rw [JM.bind_ok hw] at h1
    have h1 : Except.ok (Heap.Out.ints l' : Heap.Out K V) = Except.ok _ := h1
    injection h1 with h1
    injection h1 with h1
    subst h1
    exact Link.WalkL.heap hw consumer

end Heap

section Index
open Verif.Index IndexSpec
variable {K V : Type} [Inhabited K] [Inhabited V]

/-- C108 for the generated map, however it was made: there is one order of its rows such that a consumer given to
`forEachEntry`, `forEach` or `forEachValue` is handed their entries, keys or values in that order, each row once. -/
theorem C108_generated_map {fuel : Nat} (hf : 2 ^ 31 ≤ fuel) {s : Index K V} {a : Abs K V} (h : Link.Map.Made fuel s a) :
    ∃ rows : List (Row K V), rows.Perm a.rows ∧ (rows.map (·.entry)).Nodup ∧
      (∀ consumer : Int → JM σ β,
        HandsOut (Gen.KeyValueIndexedMapWalk.forEachEntry fuel fun e => aside (consumer e)) s consumer (rows.map (·.entry))) ∧
      (∀ consumer : K → JM σ β,
        HandsOut (Gen.KeyValueIndexedMapWalk.forEach fuel fun k => aside (consumer k)) s consumer (rows.map (·.key))) ∧
      (∀ consumer : V → JM σ β,
        HandsOut (Gen.KeyValueIndexedMapWalk.forEachValue fuel fun v => aside (consumer v)) s consumer (rows.map (·.val))) := by
  obtain ⟨rows, h1, h2, h3, h4, h5, -⟩ := C35_generated_each_once hf h
  exact ⟨rows, h1, h2, Link.WalkL.map_forEachEntry h3, Link.WalkL.map_forEach h4, Link.WalkL.map_forEachValue h5⟩

/-- C108 for the generated set, however it was made. -/
theorem C108_generated_set {fuel : Nat} (hf : 2 ^ 31 ≤ fuel) {s : Index K V} {a : Abs K V} (h : Link.SetL.Made fuel s a) :
    ∃ rows : List (Row K V), rows.Perm a.rows ∧ (rows.map (·.entry)).Nodup ∧
      (∀ consumer : Int → JM σ β,
        HandsOut (Gen.KeyIndexedSetWalk.forEachEntry fuel fun e => aside (consumer e)) s consumer (rows.map (·.entry))) ∧
      (∀ consumer : K → JM σ β,
        HandsOut (Gen.KeyIndexedSetWalk.forEach fuel fun k => aside (consumer k)) s consumer (rows.map (·.key))) := by
  obtain ⟨s', w, rfl, hm⟩ := h.inv hf
  obtain ⟨rows, h1, h2, h3, h4, -⟩ := C35_generated_each_once hf hm
  have e3 := Link.SetL.forEachEntry_S (p := fun _ _ => True) s' w fuel (c := pure) (c' := pure)
    (fun _ _ _ => Link.SetL.S.pure) trivial
  have e4 := Link.SetL.forEach_S (p := fun _ _ => True) s' w fuel (c := pure) (c' := pure)
    (fun _ _ _ => Link.SetL.S.pure) trivial
  rw [h3] at e3
  rw [h4] at e4
  obtain ⟨-, w3, e3⟩ := e3
  obtain ⟨-, w4, e4⟩ := e4
  exact ⟨rows, h1, h2, Link.WalkL.set_forEachEntry e3, Link.WalkL.set_forEach e4⟩

end Index

/-! ### the hypotheses are met: a consumer that adds up what it is handed, and throws at the third call -/

/-- A consumer that counts its calls, adds up what it is handed, and throws the third time. -/
def tired (v : Int) : JM (Int × Int) Unit := ⟨fun u =>
  if u.1 < 2 then .ok () (u.1 + 1, u.2 + v) else .err .illegalState (u.1 + 1, u.2)⟩

example : (match Gen.KeyDeque.init false (0 : Int) 2 ⟨Arr.create 0 0, 7, 7, 7⟩ with
    | .ok _ s => match Gen.KeyDequeWalk.forEach false 0 50 (fun v => aside (tired v))
        ⟨(runM (Link.Deque.step 50 false 0) s [.addLast 1, .addLast 2, .addFirst 30, .addLast 5]).2, (0, 0)⟩ with
      | .err e t => some (e, t.ext, (Link.Deque.step 50 false 0 .size t.obj).out)
      | _ => none
    | _ => none) = some (.illegalState, (3, 31), .ok (.int 4)) := by decide +kernel

example : (match Gen.KeyVector.init false (0 : Int) 2 ⟨Arr.create 0 0, 7, 7⟩ with
    | .ok _ s => match Gen.KeyVectorWalk.forEach false 0 50 (fun v => aside (tired v))
        ⟨(runM (Link.Vec.step 50 false 0) s [.append 1, .append 2]).2, (0, 0)⟩ with
      | .ok l t => some (l, t.ext)
      | _ => none
    | _ => none) = some ([(), ()], (2, 3)) := by decide +kernel

example : (match Gen.KeyValueIndexedMap.init2 (fun k : Int => BitVec.ofInt 32 k) (fun a b => a == b) 2 (1, 1) rawIndex with
    | .ok _ s =>
      let s := Link.Map.final 40 s [.put 1 11, .put 9 99, .put 2 22, .put 17 5]
      match Gen.KeyValueIndexedMapWalk.forEachValue 40 (fun v => aside (tired v)) ⟨s, (0, 0)⟩,
        Gen.KeyValueIndexedMap.forEachValue 40 pure s with
      | .err e t, .ok l _ => some (e, t.ext, (Link.Map.step 40 .size t.obj).out, l)
      | _, _ => none
    | _ => none) = some (.illegalState, (3, 16), .ok (.int 4), [5, 11, 99, 22]) := by decide +kernel

end Verif

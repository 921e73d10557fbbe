import Verif.Link.DequeProps
import Verif.Link.Vector
import Verif.Link.HydraProps
import Verif.Link.HeapProps
import Verif.Link.IndexProps
import Verif.Props.Unchanged
set_option linter.unusedSectionVars false
/-! # C105 for the generated code: a call that throws leaves no trace

The same statements as in Props/Unchanged.lean, about the definitions generated from the Java text. -/
namespace Verif

/-- C105 for the code generated from KeyDeque.ftl. -/
theorem C105_generated_deque {α : Type} (fuel : Nat) (hf : 2 ^ 31 ≤ fuel) (ref : Bool) (d : α) (c : Int) (z s0 : Deque α)
    (u : Unit) (hnew : Gen.KeyDeque.init ref d c z = .ok u s0) (ops : List (Deque.Op α)) (o : Deque.Op α)
    (hb : Allowed DequeSpec.step DequeSpec.Bounded [] (ops ++ [o])) (e : Err)
    (he : (Link.Deque.step fuel ref d o (runM (Link.Deque.step fuel ref d) s0 ops).2).out = .error e) :
    NoTrace (Link.Deque.step fuel ref d) (runM (Link.Deque.step fuel ref d) s0 ops).2 o := by
  have hm := Link.Deque.made hnew
  rw [Allowed_append] at hb
  have hi := (runM_refines (fun s a o h g => Deque.step_spec s a o h g) ops s0 [] (Deque.inv_new (ref := ref) hm) hb.1).2
  rw [Link.Deque.history_eq fuel hf ref d c s0 hm ops hb.1] at he ⊢
  rw [Link.Deque.step_eq fuel ref d (Link.Deque.fits_of_inv hi) hf o] at he
  apply noTrace_of_state
  rw [Link.Deque.step_eq fuel ref d (Link.Deque.fits_of_inv hi) hf o]
  exact Deque.throw_keeps hi hb.2.1 he

/-- C105 for the code generated from KeyVector.ftl. -/
theorem C105_generated_vector {α : Type} (fuel : Nat) (hf : 2 ^ 31 ≤ fuel) (ref : Bool) (d : α) (c : Int) (z s0 : Vec α)
    (u : Unit) (hnew : Gen.KeyVector.init ref d c z = .ok u s0) (ops : List (Vec.Op α))
    (hb : Allowed VecSpec.step VecSpec.Legal [] ops) (o : Vec.Op α)
    (hl : VecSpec.Legal o (runS VecSpec.step [] ops).2 ∨ ∃ i, o = .valueAt i) (e : Err)
    (he : (Link.Vec.step fuel ref d o (runM (Link.Vec.step fuel ref d) s0 ops).2).out = .error e) :
    NoTrace (Link.Vec.step fuel ref d) (runM (Link.Vec.step fuel ref d) s0 ops).2 o := by
  have h := Link.Vec.init_eq ref d c z
  rw [hnew] at h
  have hi := (runM_refines (fun s a o h g => Vec.step_spec s a o h g) ops s0 [] (Vec.inv_new (ref := ref) h.symm) hb).2
  rw [Link.Vec.history_eq fuel hf ref d c s0 h.symm ops hb] at he ⊢
  apply noTrace_of_state
  rcases hl with hl | ⟨i, rfl⟩
  · cases o with
    | valueAt i => exact (Quiet.bind (.rd _ _) fun _ => .pure _ : Quiet _) _
    | _ =>
      exfalso
      have h2 := C04_generated_vector_is_list fuel hf ref d c z s0 u hnew (ops ++ [_])
        ((Allowed_append _ _ _ _ _).2 ⟨hb, hl, trivial⟩)
      rw [runM_append, runS_append, Link.Vec.history_eq fuel hf ref d c s0 h.symm ops hb] at h2
      have h3 := (List.append_inj' h2 rfl).2
      simp only [runM, runS] at h3
      rw [he] at h3
      cases h3
  · exact (Quiet.bind (.rd _ _) fun _ => .pure _ : Quiet _) _

/-- C105 for the code generated from KeyHydraDeque.ftl. -/
theorem C105_generated_hydra {α : Type} {fuel : Nat} (hfu : 2 ^ 31 ≤ fuel) {d : α} {q c : Int} {z : Hydra α}
    {ops : List (Hydra.Op α)} {o : Hydra.Op α} (hf : HydraSpec.Fits (ops ++ [o])) {rs : List (Except Err (Hydra.Out α))}
    {s : Hydra α} (h : Link.HydraL.afterRun fuel d q c z ops = some (rs, s)) (e : Err)
    (he : (Link.HydraL.step fuel d o s).out = .error e) : NoTrace (Link.HydraL.step fuel d) s o := by
  have hf1 : HydraSpec.Fits ops := by
    refine ⟨fun o ho => hf.1 o (by simp [ho]), ?_⟩
    have := hf.2
    rw [List.countP_append] at this
    omega
  obtain ⟨s0, h0, h1⟩ := Link.HydraL.afterRun_model hfu hf1 h
  have hal := Hydra.allowed_of_fits hf
  rw [Allowed_append] at hal
  have hi := (runM_refines (fun s a o h g => Hydra.step_spec s a o h g) ops s0 HydraSpec.Stored.empty (Hydra.inv_new h0)
    hal.1).2
  rw [h1] at hi
  have hb := Link.HydraL.bounds_run ops (HydraSpec.Stored.empty (α := α))
  have h2 := hf.2
  rw [List.countP_append, List.countP_cons, List.countP_nil] at h2
  simp only [HydraSpec.Stored.empty] at hb
  have heq : Link.HydraL.step fuel d o s = Hydra.step d o s := by
    refine Link.HydraL.step_eq fuel hfu hi o ?_ ?_ (fun hc => ?_) (fun i hid => hf.1 o (by simp) i hid)
    · simp only [HydraSpec.Stored.empty] at *; omega
    · simp only [HydraSpec.Stored.empty] at *; omega
    · rw [hc] at h2; simp only [HydraSpec.Stored.empty] at *; simp at h2; omega
  apply noTrace_of_state
  rw [heq] at he ⊢
  exact Hydra.throw_keeps hi hal.2.1 he

/-- C105 for the code generated from KeyValueIndexedMap.ftl, BaseKeyIndex.ftl and BaseHash.java. -/
theorem C105_generated_map {K V : Type} [Inhabited K] [Inhabited V] {fuel : Nat} (hf : 2 ^ 31 ≤ fuel) {s : Index K V}
    {a : IndexSpec.Abs K V} (h : Link.Map.Made fuel s a) (o : Index.Op K V) (hi : Link.Map.IntArg o)
    (hg : IndexSpec.Guard o a) (e : Err) (he : (Link.Map.step fuel o s).out = .error e) :
    NoTrace (Link.Map.step fuel) s o := by
  obtain ⟨F, hI⟩ := Index.reach_inv (h.reach hf)
  rw [h.eq hf o hi hg] at he
  apply noTrace_of_state
  rw [h.eq hf o hi hg]
  exact Index.throw_keeps hI hg he

/-- C105 for the code generated from KeyValueHeap.ftl, BaseKeyHeap.ftl and BaseHeap.java. -/
theorem C105_generated_heap {K V : Type} [BEq K] [BEq V] {fuel : Nat} (hfu : 2 ^ 31 ≤ fuel) {c : Comparator K} {dk : K}
    {dv : V} {n : Int} (hn : n < 2 ^ 31) {ops : List (Heap.Op K V)}
    (hg : HeapSpec.Guarded (HeapSpec.empty c dk dv n) ops) {s : Heap K V} (h : Link.HeapL.Made fuel c dk dv n ops s)
    (o : Heap.Op K V) (ho : HeapSpec.Guard o (HeapSpec.ideal (HeapSpec.empty c dk dv n) ops)) (e : Err)
    (he : (Link.HeapL.step fuel o s).out = .error e) : NoTrace (Link.HeapL.step fuel) s o := by
  have hs := h.model hfu hn hg
  rw [Link.HeapL.eq1 hfu hn hg hs o ho] at he
  apply noTrace_of_state
  rw [Link.HeapL.eq1 hfu hn hg hs o ho]
  exact Heap.throw_keeps (Heap.afterRun_spec hs hg).1 ho he

/- Non-vacuity: the generated map throws five ways and goes on. -/
example : (match Gen.KeyValueIndexedMap.init2 (fun k : Int => BitVec.ofInt 32 k) (fun a b => a == b) 1 (3, 4) rawIndex with
    | .ok _ s => (runM (Link.Map.step 40) s [Index.Op.put 1 10, .get 2, .removeAt 9, .setEqMethod (fun _ _ => true),
        .putValueAt (-1) 3, .getKeyAt 7, .get 1, .size]).1
    | .err e _ => [.error e]) =
      [.ok (.int 0), .error .keyNotFound, .error .indexOutOfBounds, .error .illegalState, .error .indexOutOfBounds,
        .error .indexOutOfBounds, .ok (.val 10), .ok (.int 1)] := by
  decide +kernel

end Verif

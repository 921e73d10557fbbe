import Verif.Link.HydraRun
/-! # C46 - C48 for the code generated from KeyHydraDeque.ftl -/
namespace Verif
open Hydra HydraSpec
variable {α : Type}

theorem Link.HydraL.afterRun_inv {fuel : Nat} (hfu : 2 ^ 31 ≤ fuel) {d : α} {q c : Int} {s₀ : Hydra α} {ops : List (Op α)}
    (hf : Fits ops) {rs : List (Except Err (Out α))} {s : Hydra α} (h : Link.HydraL.afterRun fuel d q c s₀ ops = some (rs, s))
    (o : Op α) (ho : isAdd o = false) (hid : ∀ i, idOf o = some i → -2 ^ 31 ≤ i ∧ i < 2 ^ 30) :
    Link.HydraL.step fuel d o s = Hydra.step d o s := by
  obtain ⟨s0, h0, h1⟩ := Link.HydraL.afterRun_model hfu hf h
  have hi := (run_spec h0 hf).2
  rw [h1] at hi
  have hb := Link.HydraL.bounds_run ops (Stored.empty (α := α))
  have h2 := hf.2
  simp only [Stored.empty] at hb
  refine Link.HydraL.step_eq fuel hfu hi o ?_ ?_ (fun hc => by rw [ho] at hc; cases hc) hid <;>
    (simp only [Stored.empty] at *; omega)

/-- C46 for the generated code: `size()` is the sum of the lengths of all lists (the lists from some id on are empty),
`size(i)` is the length of one, and `isEmpty()` says whether all are empty. -/
theorem C46_generated_sizes {fuel : Nat} (hfu : 2 ^ 31 ≤ fuel) {d : α} {q c : Int} {s₀ : Hydra α} {ops : List (Op α)}
    (hf : Fits ops) {rs : List (Except Err (Out α))} {s : Hydra α}
    (h : Link.HydraL.afterRun fuel d q c s₀ ops = some (rs, s)) :
    let L := (runS HydraSpec.step Family.empty ops).2.lists
    (∃ n : Nat, ∀ i : Int, i < 0 ∨ (n : Int) ≤ i → L i = []) ∧
    (∀ n : Nat, (∀ i : Int, (n : Int) ≤ i → L i = []) →
      (Link.HydraL.step fuel d .size s).out = .ok (.int ((List.range n).map fun (i : Nat) => (L i).length).sum)) ∧
    (∀ i : Int, -2 ^ 31 ≤ i → i < 2 ^ 30 → (Link.HydraL.step fuel d (.sizeOf i) s).out = .ok (.int (L i).length)) ∧
    ((Link.HydraL.step fuel d .isEmpty s).out = .ok (.bool true) ↔ ∀ i, L i = []) := by
  have k := Link.HydraL.afterRun_inv hfu hf h
  obtain ⟨s0, h0, h1⟩ := Link.HydraL.afterRun_model hfu hf h
  have := C46_sizes d q c s0 h0 ops hf
  rw [h1] at this
  obtain ⟨t1, t2, t3, t4⟩ := this
  refine ⟨t1, ?_, fun i hi hi' => ?_, ?_⟩
  · rw [k .size rfl fun i hi => by cases hi]; exact t2
  · rw [k (.sizeOf i) rfl fun j hj => by injection hj with hj; omega]; exact t3 i
  · rw [k .isEmpty rfl fun i hi => by cases hi]; exact t4

/-- C46 for the generated code: removing from an empty list throws NoSuchElementException and changes nothing; removing
from another one gives one of its values. -/
theorem C46_generated_empty_removal {fuel : Nat} (hfu : 2 ^ 31 ≤ fuel) {d : α} {q c : Int} {s₀ : Hydra α}
    {ops : List (Op α)} (hf : Fits ops) {rs : List (Except Err (Out α))} {s : Hydra α}
    (h : Link.HydraL.afterRun fuel d q c s₀ ops = some (rs, s)) (i : Int) (hi : -2 ^ 31 ≤ i) (hi' : i < 2 ^ 30) (o : Op α)
    (ho : o = .removeFirst i ∨ o = .removeLast i) :
    let L := (runS HydraSpec.step Family.empty ops).2.lists
    (L i = [] → Link.HydraL.step fuel d o s = .err .noSuchElement s) ∧
    (L i ≠ [] → ∃ v ∈ L i, (Link.HydraL.step fuel d o s).out = .ok (.val v)) := by
  have k := Link.HydraL.afterRun_inv hfu hf h
  obtain ⟨s0, h0, h1⟩ := Link.HydraL.afterRun_model hfu hf h
  have := C46_empty_removal d q c s0 h0 ops hf i o ho
  rw [h1] at this
  rw [k o (by rcases ho with rfl | rfl <;> rfl) fun j hj => by
    rcases ho with rfl | rfl <;> (injection hj with hj; omega)]
  exact this

/-- C47 for the generated code: the client loop over a new ForwardIterator hands out the list, over a new
ReverseIterator the list in reverse, and leaves the deque as it is. -/
theorem C47_generated_iterators {fuel : Nat} (hfu : 2 ^ 31 ≤ fuel) {d : α} {q c : Int} {s₀ : Hydra α}
    {ops : List (Op α)} (hf : Fits ops) {rs : List (Except Err (Out α))} {s : Hydra α}
    (h : Link.HydraL.afterRun fuel d q c s₀ ops = some (rs, s)) (i : Int) (hi : 0 ≤ i) (hi' : i < 2 ^ 30) :
    let L := (runS HydraSpec.step Family.empty ops).2.lists
    Link.HydraL.step fuel d (.iterate i) s = .ok (.seq (L i)) s ∧
    Link.HydraL.step fuel d (.reverseIterate i) s = .ok (.seq (L i).reverse) s := by
  have k := Link.HydraL.afterRun_inv hfu hf h
  obtain ⟨s0, h0, h1⟩ := Link.HydraL.afterRun_model hfu hf h
  obtain ⟨t1, t2⟩ := C47_iterators d q c s0 h0 ops hf i hi
  rw [h1] at t1 t2
  rw [k (.iterate i) rfl fun j hj => by injection hj with hj; omega,
    k (.reverseIterate i) rfl fun j hj => by injection hj with hj; omega]
  exact ⟨JM.bind_ok t1, JM.bind_ok t2⟩

/-- C47 for the generated code: an iterator that has reached the end throws, and nothing changes. -/
theorem C47_generated_exhausted (fwd : Bool) (d : α) (t : HydraIt α)
    (h : Link.HydraL.itHasNext fwd d t = .ok false t) : Link.HydraL.itNext fwd d t = .err .invalidEntry t := by
  obtain ⟨s, e⟩ := t
  have q : Link.HydraL.itHasNext fwd d ⟨s, e⟩ = _ := Link.HydraL.hasNext_eq fwd d s e
  rw [q] at h
  injection h with h
  have q2 : Link.HydraL.itNext fwd d ⟨s, e⟩ = _ := Link.HydraL.next_eq fwd d s e
  rw [q2, C47_exhausted s _ e h]

/-- C48 for the generated code: the entries handed out are those of the ideal allocator, which reuses freed entries,
last freed first. -/
theorem C48_generated_allocation {fuel : Nat} (hfu : 2 ^ 31 ≤ fuel) {d : α} {q c : Int} {s₀ : Hydra α}
    {ops : List (Op α)} (hf : Fits ops) {rs : List (Except Err (Out α))} {s : Hydra α}
    (h : Link.HydraL.afterRun fuel d q c s₀ ops = some (rs, s)) :
    rs = (runS storedStep Stored.empty ops).1 := by
  obtain ⟨s0, h0, h1⟩ := Link.HydraL.afterRun_model hfu hf h
  have := C48_allocation d q c s0 h0 ops hf
  rw [h1] at this; exact this

/-- C48 for the generated code (partial: without `clear`): an entry handed out is below the largest number of values
held at once. -/
theorem C48_generated_peak_partial {fuel : Nat} (hfu : 2 ^ 31 ≤ fuel) {d : α} {q c : Int} {s₀ : Hydra α}
    {ops : List (Op α)} (hf : Fits ops) (hc : Op.clear ∉ ops) {rs : List (Except Err (Out α))} {s : Hydra α}
    (h : Link.HydraL.afterRun fuel d q c s₀ ops = some (rs, s)) (e : Int) (he : .ok (.entry e) ∈ rs) :
    0 ≤ e ∧ e < hydraPeak Family.empty ops := by
  obtain ⟨s0, h0, h1⟩ := Link.HydraL.afterRun_model hfu hf h
  refine C48_peak_partial d q c s0 h0 ops hf hc e ?_
  rw [h1]; exact he

/-- C48 is false of the generated code too, with `clear`: entries grow without bound although at most one value is held
at a time. -/
theorem C48_generated_clear_refuted {fuel : Nat} (hfu : 2 ^ 31 ≤ fuel) (d v : α) (q c : Int) (s₀ : Hydra α)
    (hq : 0 ≤ q) (hc : 1 ≤ c) (hc' : c ≤ 2 ^ 30) (n : Nat) (hn : (n : Int) + 1 < 2 ^ 30) :
    let ops := (List.replicate n [Op.addLast 0 v, Op.clear]).flatten ++ [Op.addLast 0 v]
    (∃ rs s, Link.HydraL.afterRun fuel d q c s₀ ops = some (rs, s) ∧ rs.getLast? = some (.ok (.entry n))) ∧
    hydraPeak (Family.empty (α := α)) ops ≤ 1 := by
  intro ops
  have hf : Fits ops := by
    refine ⟨fun o ho i hi => ?_, ?_⟩
    · simp only [ops, List.mem_append, List.mem_flatten, List.mem_replicate, List.mem_singleton] at ho
      rcases ho with ⟨l, ⟨-, rfl⟩, ho⟩ | rfl
      · simp only [List.mem_cons, List.not_mem_nil, or_false] at ho
        rcases ho with rfl | rfl
        · injection hi with hi; omega
        · cases hi
      · injection hi with hi; omega
    · have : (List.replicate n [Op.addLast 0 v, Op.clear]).flatten.countP isAdd = n := by
        clear ops hn
        induction n with
        | zero => rfl
        | succ n ih =>
          rw [List.replicate_succ, List.flatten_cons, List.countP_append, ih]
          show 1 + n = n + 1
          omega
      simp only [ops, List.countP_append, this, List.countP_cons, List.countP_nil, isAdd]
      simp; omega
  obtain ⟨s0, h0⟩ := (C45_new q c d).1 hq hc hc'
  obtain ⟨r1, r2⟩ := C48_clear_refuted d v q c s0 h0 n hn
  refine ⟨⟨(runM (Hydra.step d) s0 ops).1, (runM (Hydra.step d) s0 ops).2, ?_, r1⟩, r2⟩
  rw [Link.HydraL.afterRun_eq hfu d q c s₀ hf, h0]

/- Non-vacuity: the generated constructor and calls run, with a reused entry. -/
example : ((Link.HydraL.afterRun 40 (0 : Int) 0 1
      { values := Arr.create 0 0, heads := Arr.create 0 0, tails := Arr.create 0 0, count := Arr.create 0 0,
        nexts := Arr.create 0 0, prevs := Arr.create 0 0, freeList := 0, size := 0, maxEntry := 0 }
      [Op.addLast 0 10, .addFirst 2 20, .removeLast 2, .addLast 2 21, .removeFirst 1]).map fun r =>
        (r.1, (Link.HydraL.step 40 0 (.iterate 2) r.2).out, (Link.HydraL.step 40 0 .size r.2).out)) = some
      ([.ok (.entry 0), .ok (.entry 1), .ok (.val 20), .ok (.entry 1), .error .noSuchElement],
       .ok (.seq [21]), .ok (.int 2)) := by decide +kernel

end Verif

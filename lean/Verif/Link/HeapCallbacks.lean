import Verif.Link.HeapProps
import Verif.Link.DequeProps
import Verif.Props.CallbacksHeap
/-! # C95 for the code generated from KeyValueHeap.ftl, BaseKeyHeap.ftl and BaseHeap.java: consumers that call back -/
namespace Verif
open Heap HeapSpec HeapProof
variable {K V : Type} [BEq K] [BEq V]

namespace Link.HeapL

theorem forEachDo_loop (g : Int → List (Op K V)) {seen out : List Int} {e : Nat} {a fin : Abs K V}
    (hw : Walks (perValue g) seen e a out fin) : ∀ {s : Heap K V}, Inv s a → Fits a →
    ∃ n, ∀ fuel fuel', n ≤ fuel → 2 ^ 31 ≤ fuel' → ∃ s',
      Gen.KeyValueHeap.forEachEntry_loop1 (consumerOf (step fuel') g) fuel seen e s = .ok out s' ∧ Inv s' fin ∧ Fits fin := by
  induction hw with
  | @done seen e a he =>
    intro s h hb
    refine ⟨1, fun fuel fuel' hf hf' => ?_⟩
    obtain ⟨k, rfl⟩ : ∃ k, fuel = k + 1 := ⟨fuel - 1, by omega⟩
    refine ⟨s, ?_, h, hb⟩
    rw [Gen.KeyValueHeap.forEachEntry_loop1, JM.bind_ok (JM.get_apply _),
      if_neg (by have := h.sz; simp; omega)]; rfl
  | @skip seen out e a fin he hl _ ih =>
    intro s h hb
    obtain ⟨n, hn⟩ := ih h hb
    refine ⟨n + 1, fun fuel fuel' hf hf' => ?_⟩
    obtain ⟨k, rfl⟩ : ∃ k, fuel = k + 1 := ⟨fuel - 1, by omega⟩
    obtain ⟨s', r1, r2⟩ := hn k fuel' (by omega) hf'
    refine ⟨s', ?_, r2⟩
    have hv : isValidEntry (e : Int) s = .ok false s := by
      rw [isValid_spec h, if_neg (by omega)]
      congr 1
      apply decide_eq_false
      rintro (hx | ⟨_, hx, _⟩)
      · exact hl hx
      · omega
    have hul := h.used_le
    unfold used at hul
    have e1 : i32 ((e : Int) + 1) = ((e + 1 : Nat) : Int) := by
      have : a.cap < 2 ^ 31 := hb
      have := h.cap
      rw [i32_of_range (by omega)]; omega
    rw [Gen.KeyValueHeap.forEachEntry_loop1, JM.bind_ok (JM.get_apply _), if_pos (by have := h.sz; simp; omega),
      isValid_eq, JM.bind_ok hv]
    simp only [e1]
    exact r1
  | @step seen out e a fin he hl hg _ ih =>
    intro s h hb
    rw [perValue_snoc] at hg ih
    obtain ⟨n, hn⟩ := ih (run_spec _ s a h hg).2.1 (ideal_fits _ hb)
    refine ⟨n + 1, fun fuel fuel' hf hf' => ?_⟩
    obtain ⟨k, rfl⟩ : ∃ k, fuel = k + 1 := ⟨fuel - 1, by omega⟩
    obtain ⟨s', r1, r2⟩ := hn k fuel' (by omega) hf'
    refine ⟨s', ?_, r2⟩
    have hv : isValidEntry (e : Int) s = .ok true s := by
      rw [isValid_spec h, if_neg (by omega), decide_eq_true (.inl hl)]
    have hul := h.used_le
    unfold used at hul
    have e1 : i32 ((e : Int) + 1) = ((e + 1 : Nat) : Int) := by
      have : a.cap < 2 ^ 31 := hb
      have := h.cap
      rw [i32_of_range (by omega)]; omega
    rw [Gen.KeyValueHeap.forEachEntry_loop1, JM.bind_ok (JM.get_apply _), if_pos (by have := h.sz; simp; omega),
      isValid_eq, JM.bind_ok hv]
    simp only [e1, if_true]
    have hc : ((consumerOf (step fuel') g (e : Int)) >>= fun v => (pure (seen ++ [v]) : JM (Heap K V) (List Int))) s =
        .ok (seen ++ [(e : Int)]) (runM Heap.step s (g e)).2 := by
      rw [JM.bind_ok (consumerOf_apply _ _ _ _), run_eq fuel' hf' _ h hb hg]; rfl
    rw [JM.bind_ok hc]
    exact r1

/-- `s` answers every further guarded history of calls of the generated class like the ideal heap `a`. -/
def Behaves (fuel : Nat) (s : Heap K V) (a : Abs K V) : Prop :=
  ∀ ops : List (Op K V), Guarded a ops → Legal a ops (runM (step fuel) s ops).1

end Link.HeapL

open Link.HeapL (Made)

/-- C95 for the generated code: `forEachEntry` on any heap made by the constructor and any guarded history, with a
consumer that makes the calls `g e` when it is handed entry `e`, hands out exactly what the walk over the ideal heap
does and leaves its contents. -/
theorem C95_generated_walk_partial {c : Comparator K} {dk : K} {dv : V} {n : Int} (hn : n < 2 ^ 31)
    {ops : List (Op K V)} (hg : Guarded (empty c dk dv n) ops)
    (g : Int → List (Op K V)) (out : List Int) (fin : Abs K V)
    (hw : Walks (perValue g) [] 0 (ideal (empty c dk dv n) ops) out fin) :
    ∃ m, ∀ fuel, m ≤ fuel → ∀ s : Heap K V, Made fuel c dk dv n ops s → ∃ s',
      Gen.KeyValueHeap.forEachEntry fuel (consumerOf (Link.HeapL.step fuel) g) s = .ok out s' ∧
      Link.HeapL.Behaves fuel s' fin := by
  by_cases hne : ∃ s, Heap.afterRun c dk dv n ops = some s
  · obtain ⟨s, hs⟩ := hne
    obtain ⟨m, hm⟩ := Link.HeapL.forEachDo_loop g hw (afterRun_spec hs hg).1 (Link.HeapL.ideal_fits ops hn)
    refine ⟨max m (2 ^ 31), fun fuel hf s₁ hs₁ => ?_⟩
    have := hs₁.model (by omega) hn hg
    rw [hs] at this
    obtain rfl : s = s₁ := by simpa using this
    obtain ⟨s', r1, r2, r3⟩ := hm fuel fuel (by omega) (by omega)
    refine ⟨s', ?_, fun ops' hg' => ?_⟩
    · unfold Gen.KeyValueHeap.forEachEntry
      rw [show ((0 : Nat) : Int) = 0 from rfl] at r1
      exact r1
    · rw [Link.HeapL.run_eq fuel (by omega) ops' r2 r3 hg']
      exact (run_spec ops' s' fin r2 hg').1
  · exact ⟨2 ^ 31, fun fuel hf s hs => absurd ⟨s, hs.model hf hn hg⟩ hne⟩

/-- C95 for the generated code and consumers that neither insert nor remove nor clear: when no entry is waiting for
reuse, every live entry is handed out exactly once, and the contents at the end are what the calls say. -/
theorem C95_generated_updates_partial {c : Comparator K} {dk : K} {dv : V} {n : Int} (h0 : 0 ≤ n) (hn : n < 2 ^ 31)
    {ops : List (Op K V)} (hg : Guarded (empty c dk dv n) ops)
    (hf : (ideal (empty c dk dv n) ops).freed = []) (g : Int → List (Op K V)) (hk : ∀ e, ∀ o ∈ g e, Keeps o) :
    ∃ l : List Int, l.Nodup ∧ (∀ e, e ∈ l ↔ e ∈ (ideal (empty c dk dv n) ops).live) ∧
      (ServeGuarded (perValue g) [] l (ideal (empty c dk dv n) ops) → ∃ m, ∀ fuel, m ≤ fuel →
        ∀ s : Heap K V, Made fuel c dk dv n ops s → ∃ s',
          Gen.KeyValueHeap.forEachEntry fuel (consumerOf (Link.HeapL.step fuel) g) s = .ok l s' ∧
          Link.HeapL.Behaves fuel s' (served (perValue g) [] l (ideal (empty c dk dv n) ops))) := by
  obtain ⟨s, hs⟩ : ∃ s, Heap.afterRun c dk dv n ops = some s := by
    unfold Heap.afterRun Heap.new
    rw [if_neg (by omega)]
    exact ⟨_, rfl⟩
  obtain ⟨h1, -⟩ := afterRun_spec hs hg
  refine ⟨present (ideal (empty c dk dv n) ops).live 0 (ideal (empty c dk dv n) ops).live.length, ?_, fun e => ?_, ?_⟩
  · exact (List.pairwise_map.mpr ((List.nodup_range' (step := 1)).imp fun h hx => h (Int.ofNat.inj hx))).filter _
  · unfold present
    rw [List.mem_filter, List.mem_map]
    simp only [List.mem_range', decide_eq_true_eq]
    refine ⟨fun h => h.2, fun h => ⟨?_, h⟩⟩
    have hr := h1.rng e (.inl h)
    unfold used at hr
    rw [hf] at hr
    simp only [List.length_nil] at hr
    exact ⟨e.toNat, ⟨e.toNat, by omega, by omega⟩, by show ((e.toNat : Nat) : Int) = e; omega⟩
  · intro hsg
    have hk' : ∀ l, ∀ o ∈ perValue g l, Keeps o := by
      intro l o ho
      unfold perValue at ho
      cases hl : l.getLast? with
      | none => rw [hl] at ho; simp at ho
      | some e => rw [hl] at ho; exact hk e o ho
    have := HeapSpec.walks_keeps hk' _ 0 [] (ideal (empty c dk dv n) ops) (by rw [Nat.zero_add]) hsg
    exact C95_generated_walk_partial hn hg g _ _ this

/-- C95 is false of the generated code if the consumer removes the entry it is handed: half of the entries are never
handed out and stay in the heap. -/
theorem C95_generated_remove_refuted :
    let run := Link.HeapL.afterRun 40 asc (0 : Int) (0 : Int) 4 Link.HeapL.fresh
      [.insert 5, .insert 3, .insert 8, .insert 4]
    let walk := fun s => Gen.KeyValueHeap.forEachEntry 40 (consumerOf (Link.HeapL.step 40) fun e => [.removeAt e]) s
    run.map (fun r => (walk r.2).out) = some (.ok [0, 1]) ∧
    run.map (fun r => (Link.HeapL.step 40 .getSize (walk r.2).state).out) = some (.ok (.int 2)) := by
  decide +kernel

/- Non-vacuity: a consumer that removes and inserts. -/
example : Guarded (empty asc (0 : Int) (0 : Int) 4) [.insert 5, .insert 3, .insert 8] ∧
    ∃ fin, Walks (perValue fun e => if e = 0 then [.removeAt 1, .insertKV 9 90, .insert 2] else []) [] 0
      (ideal (empty asc (0 : Int) (0 : Int) 4) [.insert 5, .insert 3, .insert 8]) [0, 1, 2, 3] fin := by
  refine ⟨by simp only [Guarded, Guard]; decide +kernel, _, .step (by decide +kernel) (by decide +kernel) ?_
    (.step (by decide +kernel) (by decide +kernel) ?_ (.step (by decide +kernel) (by decide +kernel) ?_
      (.step (by decide +kernel) (by decide +kernel) ?_ (.done (by decide +kernel)))))⟩
  · show Guarded _ [_, _, _]; simp only [Guarded, Guard]; decide +kernel
  all_goals exact trivial

/- Non-vacuity of `C95_generated_updates_partial`. -/
example : ServeGuarded (perValue fun e => [.resetKey e (-e), .setValueAt e 7])
    [] [0, 1, 2] (ideal (empty asc (0 : Int) (0 : Int) 4) [.insert 5, .insert 3, .insert 8]) := by
  simp only [ServeGuarded, perValue, List.nil_append, List.cons_append, List.getLast?_singleton, Option.map, Option.getD,
    List.getLast?_cons_cons, Guarded, Guard]
  decide +kernel

end Verif

import Verif.Spec.CallbacksHeap
import Verif.Props.Heap
/-! # Property C95: consumers that change the heap they are walking -/
namespace Verif
open Heap HeapSpec HeapProof
variable {K V : Type} [BEq K] [BEq V]

theorem Heap.forEachDoFrom_spec {f : Consumer Int (Op K V)} {seen out : List Int} {e : Nat} {a fin : Abs K V}
    (hw : Walks f seen e a out fin) : ∀ {s : Heap K V}, Inv s a →
    ∃ n, ∀ fuel, n ≤ fuel → ∃ s', forEachDoFrom f fuel e seen s = .ok out s' ∧ Inv s' fin := by
  induction hw with
  | @done seen e a he =>
    intro s h
    refine ⟨1, fun fuel hf => ?_⟩
    obtain ⟨k, rfl⟩ : ∃ k, fuel = k + 1 := ⟨fuel - 1, by omega⟩
    refine ⟨s, ?_, h⟩
    rw [forEachDoFrom, JM.bind_ok (JM.get_apply _), if_neg (by have := h.sz; omega)]; rfl
  | @skip seen out e a fin he hl _ ih =>
    intro s h
    obtain ⟨n, hn⟩ := ih h
    refine ⟨n + 1, fun fuel hf => ?_⟩
    obtain ⟨k, rfl⟩ : ∃ k, fuel = k + 1 := ⟨fuel - 1, by omega⟩
    obtain ⟨s', r1, r2⟩ := hn k (by omega)
    refine ⟨s', ?_, r2⟩
    have hv : isValidEntry (e : Int) s = .ok false s := by
      rw [isValid_spec h, if_neg (by omega)]
      congr 1
      apply decide_eq_false
      rintro (hx | ⟨_, hx, _⟩)
      · exact hl hx
      · omega
    rw [forEachDoFrom, JM.bind_ok (JM.get_apply _), if_pos (by have := h.sz; omega), JM.bind_ok hv]
    exact r1
  | @step seen out e a fin he hl hg _ ih =>
    intro s h
    obtain ⟨n, hn⟩ := ih (run_spec _ s a h hg).2.1
    refine ⟨n + 1, fun fuel hf => ?_⟩
    obtain ⟨k, rfl⟩ : ∃ k, fuel = k + 1 := ⟨fuel - 1, by omega⟩
    obtain ⟨s', r1, r2⟩ := hn k (by omega)
    refine ⟨s', ?_, r2⟩
    have hv : isValidEntry (e : Int) s = .ok true s := by
      rw [isValid_spec h, if_neg (by omega), decide_eq_true (.inl hl)]
    have hc : callAll step (f (seen ++ [(e : Int)])) s = .ok () (runM step s (f (seen ++ [(e : Int)]))).2 := rfl
    rw [forEachDoFrom, JM.bind_ok (JM.get_apply _), if_pos (by have := h.sz; omega), JM.bind_ok hv, if_pos rfl,
      JM.bind_ok hc]
    exact r1

/-- `s` answers every further guarded history like the ideal heap `a`. -/
def Heap.Behaves (s : Heap K V) (a : Abs K V) : Prop :=
  ∀ ops : List (Op K V), Guarded a ops → Legal a ops (runM step s ops).1

/-- C95: `forEachEntry` on any reachable heap, with any consumer that calls back into the heap (respecting
`Guarded`), hands out exactly what the walk over the ideal heap does and leaves its contents: entry by entry, what is
live when its number is reached, as long as that number is below the number of live entries at that time. -/
theorem C95_walk_partial {c : Comparator K} {dk : K} {dv : V} {n : Int} {ops : List (Op K V)}
    (hg : Guarded (empty c dk dv n) ops) {s : Heap K V} (hs : afterRun c dk dv n ops = some s)
    (f : Consumer Int (Op K V)) (out : List Int) (fin : Abs K V)
    (hw : Walks f [] 0 (ideal (empty c dk dv n) ops) out fin) :
    ∃ m, ∀ fuel, m ≤ fuel → ∃ s', forEachDo f fuel s = .ok out s' ∧ Heap.Behaves s' fin := by
  obtain ⟨m, hm⟩ := Heap.forEachDoFrom_spec hw (afterRun_spec hs hg).1
  refine ⟨m, fun fuel hf => ?_⟩
  obtain ⟨s', r1, r2⟩ := hm fuel hf
  exact ⟨s', r1, fun ops' hg' => (run_spec ops' s' fin r2 hg').1⟩

theorem HeapSpec.live_keeps {o : Op K V} (h : Keeps o) (a : Abs K V) : (after o a).live = a.live := by
  cases o with
  | setComparator c => cases c <;> rfl
  | _ => simp only [Keeps] at h <;> simp only [after] <;> (try split) <;> rfl

theorem HeapSpec.live_keeps_all : ∀ (ops : List (Op K V)) (a : Abs K V), (∀ o ∈ ops, Keeps o) →
    (ideal a ops).live = a.live
  | [], _, _ => rfl
  | o :: ops, a, h => by
    have := live_keeps_all ops (after o a) (fun o ho => h o (List.mem_cons_of_mem _ ho))
    rw [live_keeps (h o List.mem_cons_self)] at this
    exact this

/-- The contents after the calls a consumer makes while it is handed the entries `l`. -/
def HeapSpec.served (f : Consumer Int (Op K V)) : List Int → List Int → Abs K V → Abs K V
  | _, [], a => a
  | seen, e :: l, a => served f (seen ++ [e]) l (ideal a (f (seen ++ [e])))

/-- All these calls respect `Guarded`. -/
def HeapSpec.ServeGuarded (f : Consumer Int (Op K V)) : List Int → List Int → Abs K V → Prop
  | _, [], _ => True
  | seen, e :: l, a => Guarded a (f (seen ++ [e])) ∧ ServeGuarded f (seen ++ [e]) l (ideal a (f (seen ++ [e])))

theorem HeapSpec.walks_keeps {f : Consumer Int (Op K V)} (hk : ∀ l, ∀ o ∈ f l, Keeps o) :
    ∀ (n e : Nat) (seen : List Int) (a : Abs K V), e + n = a.live.length →
      ServeGuarded f seen (present a.live e n) a →
      Walks f seen e a (seen ++ present a.live e n) (served f seen (present a.live e n) a)
  | 0, e, seen, a, he, _ => by
    have : present a.live e 0 = [] := rfl
    rw [this, List.append_nil]
    exact .done (by omega)
  | n + 1, e, seen, a, he, hg => by
    by_cases hl : (e : Int) ∈ a.live
    · have hp : present a.live e (n + 1) = (e : Int) :: present a.live (e + 1) n := by
        unfold present
        rw [List.range'_succ, List.map_cons, List.filter_cons, if_pos (by simpa using hl)]; rfl
      rw [hp] at hg ⊢
      have hlive := live_keeps_all (f (seen ++ [(e : Int)])) a (hk _)
      have ih := walks_keeps hk n (e + 1) (seen ++ [(e : Int)]) (ideal a (f (seen ++ [(e : Int)])))
        (by rw [hlive]; omega) (by rw [hlive]; exact hg.2)
      rw [hlive, List.append_assoc] at ih
      exact .step (by omega) hl hg.1 ih
    · have hp : present a.live e (n + 1) = present a.live (e + 1) n := by
        unfold present
        rw [List.range'_succ, List.map_cons, List.filter_cons, if_neg (by simpa using hl)]
      rw [hp] at hg ⊢
      exact .skip (by omega) hl (walks_keeps hk n (e + 1) seen a (by omega) hg)

/-- C95, for consumers that neither insert nor remove nor clear (new keys and values, another comparator): when no
entry is waiting for reuse, every live entry is handed out exactly once, and the contents at the end are what the
calls say. -/
theorem C95_updates_partial {c : Comparator K} {dk : K} {dv : V} {n : Int} {ops : List (Op K V)}
    (hg : Guarded (empty c dk dv n) ops) {s : Heap K V} (hs : afterRun c dk dv n ops = some s)
    (hf : (ideal (empty c dk dv n) ops).freed = [])
    (f : Consumer Int (Op K V)) (hk : ∀ l, ∀ o ∈ f l, Keeps o) :
    ∃ l : List Int, l.Nodup ∧ (∀ e, e ∈ l ↔ e ∈ (ideal (empty c dk dv n) ops).live) ∧
      (ServeGuarded f [] l (ideal (empty c dk dv n) ops) → ∃ m, ∀ fuel, m ≤ fuel → ∃ s', forEachDo f fuel s = .ok l s' ∧
        Heap.Behaves s' (served f [] l (ideal (empty c dk dv n) ops))) := by
  obtain ⟨h1, -⟩ := afterRun_spec hs hg
  refine ⟨present (ideal (empty c dk dv n) ops).live 0 (ideal (empty c dk dv n) ops).live.length, ?_, fun e => ?_, ?_⟩
  · exact (List.pairwise_map.mpr ((List.nodup_range' (step := 1)).imp fun h hx => h (Int.ofNat.inj hx))).filter _
  · unfold present
    rw [List.mem_filter, List.mem_map]
    simp only [List.mem_range', decide_eq_true_eq]
    refine ⟨fun h => h.2, fun h => ⟨?_, h⟩⟩
    have hr := h1.rng e (.inl h)
    unfold used at hr
    rw [hf] at hr
    simp only [List.length_nil] at hr
    exact ⟨e.toNat, ⟨e.toNat, by omega, by omega⟩, by show ((e.toNat : Nat) : Int) = e; omega⟩
  · intro hsg
    have := HeapSpec.walks_keeps hk _ 0 [] (ideal (empty c dk dv n) ops) (by rw [Nat.zero_add]) hsg
    exact C95_walk_partial hg hs f _ _ this

/-- What `forEachEntry` with a consumer hands out after a history on a new heap of ints. -/
def heapWalk (n : Int) (ops : List (Op Int Int)) (f : Consumer Int (Op Int Int)) : Option (Except Err (List Int)) :=
  (afterRun asc 0 0 n ops).map fun s => (forEachDo f 100 s).out

/-- C95 is false if the consumer removes the entry it is handed: the bound of the loop shrinks while the entry
grows, and half of the entries are never handed out and stay in the heap. -/
theorem C95_remove_refuted :
    let ops : List (Op Int Int) := [.insert 5, .insert 3, .insert 8, .insert 4]
    heapWalk 4 ops (fun seen => [.removeAt (seen.getLastD 0)]) = some (.ok [0, 1]) ∧
    ∃ s s', afterRun asc 0 0 4 ops = some s ∧
      forEachDo (fun seen => [.removeAt (seen.getLastD 0)]) 100 s = .ok [0, 1] s' ∧
      (step .getSize s').out = .ok (.int 2) := by
  exact ⟨by decide +kernel, _, _, rfl, rfl, by decide +kernel⟩

/- Non-vacuity of `C95_walk_partial`: a consumer that removes and inserts. -/
example : Guarded (empty asc (0 : Int) (0 : Int) 4) [.insert 5, .insert 3, .insert 8] ∧
    ∃ fin, Walks (fun seen => if seen = [0] then [.removeAt 1, .insertKV 9 90, .insert 2] else []) [] 0
      (ideal (empty asc (0 : Int) (0 : Int) 4) [.insert 5, .insert 3, .insert 8]) [0, 1, 2, 3] fin := by
  refine ⟨by simp only [Guarded, Guard]; decide +kernel, _, .step (by decide +kernel) (by decide +kernel) ?_
    (.step (by decide +kernel) (by decide +kernel) ?_ (.step (by decide +kernel) (by decide +kernel) ?_
      (.step (by decide +kernel) (by decide +kernel) ?_ (.done (by decide +kernel)))))⟩
  · rw [if_pos (by decide)]; simp only [Guarded, Guard]; decide +kernel
  all_goals exact trivial
/- Non-vacuity of `C95_updates_partial`: the consumer gives the entries it is handed new keys and values. -/
example : heapWalk 4 [.insert 5, .insert 3, .insert 8]
    (fun seen => [.resetKey (seen.getLastD 0) (-(seen.getLastD 0)), .setValueAt (seen.getLastD 0) 7]) =
      some (.ok [0, 1, 2]) := by decide +kernel
example : ServeGuarded (fun seen => [.resetKey (seen.getLastD 0) (-(seen.getLastD 0)), .setValueAt (seen.getLastD 0) 7])
    [] [0, 1, 2] (ideal (empty asc (0 : Int) (0 : Int) 4) [.insert 5, .insert 3, .insert 8]) := by
  simp only [ServeGuarded, Guarded, Guard]; decide +kernel

end Verif

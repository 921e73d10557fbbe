import Verif.Link.Script
import Verif.Spec.ScriptUse
/-! C113 for the heap: what a consumer that removes what it is handed really does. -/
namespace Verif
open ScriptSpec Verif.Heap Verif.HeapSpec Verif.HeapProof
variable {K V : Type} [BEq K] [BEq V]

namespace Link.HalfL

/-- The entries `i`, `i + 1`, ... , `i + k - 1`. -/
def upFrom (i k : Nat) : List Int := (List.range' i k).map Int.ofNat

theorem half_sure (L : Nat) : ∀ (k i : Nat) (a : Abs K V) (seen : List Int), i + k = (L + 1) / 2 → a.live.Nodup →
    (∀ e, e ∈ a.live ↔ (i : Int) ≤ e ∧ e < L) → a.live.length + i = L →
    Sure (fun o a => Guard o a.2) heapCan heapMove (dropsEntry (K := K) (V := V))
      (fun r u b => r = .ok () ∧ u = seen ++ upFrom i k ∧ b.2 = ideal a ((upFrom i k).map .removeAt)) (i, a) seen
  | 0, i, a, seen, hk, _, _, hl => by
    refine .done ?_ ⟨rfl, by simp [upFrom], rfl⟩
    unfold heapMove
    rw [if_neg (by simp only; omega)]
  | k + 1, i, a, seen, hk, hnd, hm, hl => by
    have hi : ((i : Nat) : Int) ∈ a.live := (hm _).2 ⟨by omega, by omega⟩
    refine .step (b := (i + 1, a)) (v := (i : Int)) (fun r u b => r = .ok () ∧ u = seen ++ [(i : Int)] ∧
        b = (i + 1, after (.removeAt (i : Int)) a)) ?_ ⟨?_, ?_⟩ (by simp) ?_
    · unfold heapMove
      rw [if_pos (by simp only; omega)]
      simp only [if_pos hi]
    · exact .inr (.inl (by show (i : Int) < (a.live.length : Int) + a.freed.length; omega))
    · rintro r b ⟨h, rfl⟩
      have h : r = .ok .unit := by
        have h : r = if ((i : Nat) : Int) ∈ a.live then _ else _ := h
        rwa [if_pos hi] at h
      subst h
      exact ⟨rfl, rfl, rfl⟩
    · rintro u b ⟨-, rfl, rfl⟩
      have e : after (.removeAt (i : Int)) a = { a with
          live := a.live.erase i, freed := (i : Int) :: a.freed, keyOf := upd a.keyOf i a.dk, valOf := upd a.valOf i a.dv } := by
        simp only [after, if_pos hi]
      have := half_sure L k (i + 1) (after (.removeAt (i : Int)) a) (seen ++ [(i : Int)]) (by omega)
        (by rw [e]; exact hnd.erase _)
        (fun x => by
          rw [e]
          simp only [hnd.mem_erase_iff, hm]
          omega)
        (by rw [e]; simp only [List.length_erase_of_mem hi]; omega)
      simpa [upFrom, List.range'_succ, ideal] using this

end Link.HalfL

/-- C113, heap: what happens when everything is removed as it is handed out.  After any history that leaves no removed
entry waiting for reuse and `L` entries in the heap, `forEachEntry` with that consumer returns, but it has handed out
only the first half of the entries, 0 up to (and without) `(L + 1) / 2`; the others are still in the heap, which behaves
like one from which just those were removed. -/
theorem C113_generated_heap_half {cmp : Comparator K} {dk : K} {dv : V} {n : Int} (hn : n < 2 ^ 31)
    {ops : List (Op K V)} (hg : Guarded (empty cmp dk dv n) ops) {L : Nat}
    (hf : (ideal (empty cmp dk dv n) ops).freed = []) (hL : (ideal (empty cmp dk dv n) ops).live.length = L)
    (calls : Nat) (hc : 2 ^ 31 ≤ calls) {s : Heap K V} (hs : Link.HeapL.Made calls cmp dk dv n ops s) :
    let half := (List.range ((L + 1) / 2)).map Int.ofNat
    ∃ s', (∃ m, ∀ fuel, m ≤ fuel →
      Ended (Gen.KeyValueHeapWalk.forEachEntry fuel (consumer (Link.HeapL.step calls) dropsEntry) ⟨s, []⟩) (.ok ())
        ⟨s', half⟩) ∧
      Link.HeapL.Behaves calls s' (ideal (empty cmp dk dv n) (ops ++ half.map .removeAt)) := by
  intro half
  obtain ⟨h1, -⟩ := afterRun_spec (hs.model hc hn hg) hg
  have hnd : (ideal (empty cmp dk dv n) ops).live.Nodup := h1.nd
  have hlt : ∀ e ∈ (ideal (empty cmp dk dv n) ops).live, (0 : Int) ≤ e ∧ e < L := fun e he => by
    have := h1.rng e (.inl he)
    unfold used at this
    rw [hf] at this
    simp only [List.length_nil] at this
    omega
  have hmem : ∀ e, e ∈ (ideal (empty cmp dk dv n) ops).live ↔ ((0 : Nat) : Int) ≤ e ∧ e < L := fun e => by
    refine ⟨fun h => by have := hlt e h; omega, fun h => ?_⟩
    have := h1.all e (by omega) (by unfold used; rw [hf]; simp only [List.length_nil]; omega)
    rw [hf] at this
    exact this.resolve_right List.not_mem_nil
  obtain ⟨r, u', b, s', ⟨rfl, rfl, hb⟩, hrun, hmore⟩ := C113_generated_heap hn hg (dropsEntry (K := K) (V := V)) [] _
    (Link.HalfL.half_sure L ((L + 1) / 2) 0 _ [] (by omega) hnd hmem (by omega)) calls hc hs
  have e : Link.HalfL.upFrom 0 ((L + 1) / 2) = half := by
    show _ = (List.range _).map Int.ofNat
    rw [List.range_eq_range']; rfl
  rw [e] at hb hrun
  rw [hb] at hmore
  refine ⟨s', by simpa using hrun, ?_⟩
  have e2 : ideal (empty cmp dk dv n) (ops ++ half.map .removeAt) =
      ideal (ideal (empty cmp dk dv n) ops) (half.map .removeAt) := List.foldl_append
  rw [e2]
  exact hmore

/- The hypotheses of `C113_generated_heap_half` are met by a heap of capacity 4 with five insertions (one of them into a
cell that had been freed), and this is the run on the generated code: 3, 4 remain. -/
example : Guarded (empty asc (0 : Int) (0 : Int) 4) [.insert 5, .insert 3, .removeAt 0, .insert 8, .insert 4, .insert 1, .insert 2] ∧
    (ideal (empty asc (0 : Int) (0 : Int) 4)
      [.insert 5, .insert 3, .removeAt 0, .insert 8, .insert 4, .insert 1, .insert 2]).freed = [] ∧
    (ideal (empty asc (0 : Int) (0 : Int) 4)
      [.insert 5, .insert 3, .removeAt 0, .insert 8, .insert 4, .insert 1, .insert 2]).live.length = 5 := by
  refine ⟨by simp only [Guarded, Guard]; decide +kernel, by decide +kernel, by decide +kernel⟩

example : (Link.HeapL.afterRun 40 asc (0 : Int) (0 : Int) 4 Link.HeapL.fresh
      [.insert 5, .insert 3, .removeAt 0, .insert 8, .insert 4, .insert 1, .insert 2]).map (fun r =>
    match Gen.KeyValueHeapWalk.forEachEntry 40 (consumer (Link.HeapL.step 40) dropsEntry) ⟨r.2, []⟩ with
      | .ok _ t => (t.ext, (Link.HeapL.step 40 .getSize t.obj).out, (Link.HeapL.step 40 (.isValidEntry 3) t.obj).out,
          (Link.HeapL.step 40 (.isValidEntry 2) t.obj).out)
      | _ => ([], .error .runtime, .error .runtime, .error .runtime)) =
    some ([0, 1, 2], .ok (.int 2), .ok (.bool true), .ok (.bool false)) := by
  decide +kernel

end Verif

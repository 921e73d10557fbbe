import Verif.Proofs.IteratorUse
import Verif.Props.IndexWalk
/-! # Property C94: an iterator and its collection used together -/
namespace Verif
open Verif.Index Verif.IndexSpec Verif.Iterating
variable {K V : Type} [Inhabited K] [Inhabited V]

/-- C94: a program of at most 2^30 calls that uses a collection and an iterator of it in any order.  After
`iterator()`, the calls of the iterator have the results of the ideal cursor over the entries that `forEachEntry`
lists, whatever calls that do not change the number of entries come in between (updates of values, lookups, adding
a key that is there, freeing a reserved entry, walks).  Once a call on the collection has changed the number of
entries, `next` and `remove` throw ConcurrentModificationException and change nothing, until `iterator()` is called
again.  The collection meanwhile has the right results.  (Nothing is promised between `clear()` and the next
`iterator()`.) -/
theorem C94_iterator_use {exact : Prop} {s : Index K V} {a : Abs K V} (h : Reach exact s a) (it : Iter)
    (ops : List (UseOp K V)) (hlen : ops.length ≤ 2 ^ 30) :
    UseLegal ⟨⟨.start, [], a⟩, .void⟩ ⟨s, it⟩ ops := by
  obtain ⟨F, hF⟩ := reach_inv h
  exact use_legal ops 0 _ _ ⟨⟨F, hF⟩, trivial⟩ (by omega) (by
    have e : (2 : Nat) ^ 30 = 1073741824 := by decide
    omega)

/-- What the calls of a program return, on a new map. -/
def useRun (ic : Int) (num den : Nat) (ops : List (UseOp Int Int)) : List (Except Err (Out Int Int)) :=
  match exampleNew ic num den with
  | .error _ => []
  | .ok s => (runM useStep ⟨s, exampleIter⟩ ops).1

/- Non-vacuity: the iterator works through updates, notices an addition, and works again when renewed. -/
example : useRun 4 3 4 [.call (.put 1 5), .call (.put 9 6), .call (.put 17 7), .iterator, .next,
    .call (.put 9 60), .call (.add 17), .call (.removeAt 7), .remove, .next, .call (.get 9), .call (.put 2 8), .next,
    .remove, .call .size, .iterator, .next] =
    [.ok (.int 0), .ok (.int 1), .ok (.int 2), .ok .unit, .ok (.int 2), .ok (.int 1), .ok (.int 2),
      .error .indexOutOfBounds, .ok .unit, .ok (.int 1), .ok (.val 60), .ok (.int 2), .error .concurrentModification,
      .error .concurrentModification, .ok (.int 3), .ok .unit, .ok (.int 1)] := by decide +kernel
/- ... and the calls of this program are allowed. -/
example : ∀ (o : UseOp Int Int), o ∈ [UseOp.next, .remove, .iterator, .call (.put 9 60), .call (.remove 4)] →
    UseGuard o ⟨⟨.start, [2, 1, 0], empty (fun k : Int => BitVec.ofInt 32 k) (fun a b => a == b)⟩, .valid⟩ := by
  intro o ho
  simp only [List.mem_cons, List.not_mem_nil, or_false] at ho
  rcases ho with rfl | rfl | rfl | rfl | rfl
  · exact nofun
  · exact nofun
  · trivial
  · exact ⟨int_coherent, by decide⟩
  · trivial

end Verif

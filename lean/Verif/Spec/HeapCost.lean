import Verif.Model.HeapEff
import Verif.Spec.Heap
/-! How often a heap may call its comparator. -/
namespace Verif.HeapSpec
open Verif.Heap Verif.HeapEff
variable {K V : Type}

/-- A comparator that counts its calls. -/
def counting : Effect Nat K := fun c x y => ⟨fun n => .ok (c.compare x y) (n + 1)⟩

/-- The largest number of comparisons a call on the heap `a` makes: logarithmic in the number of entries for the
calls that change one entry, linear for the searches, `n log n` for a change of the comparator. -/
def maxCompares (a : Abs K V) : Op K V → Nat
  | .insert _ | .insertKV _ _ => Nat.log2 (a.live.length + 1)
  | .removeAt e => if e ∈ a.live then 3 * Nat.log2 (a.live.length - 1) else 0
  | .resetKey e _ => if e ∈ a.live then 3 * Nat.log2 a.live.length else 0
  | .setComparator (some c) => if c.ref = a.cmp.ref then 0 else a.live.length * Nat.log2 a.live.length
  | .containsKey _ | .getFirstEntry _ => a.live.length
  | _ => 0

end Verif.HeapSpec

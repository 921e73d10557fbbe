import Verif.Spec.Callbacks
import Verif.Spec.Heap
/-! How far an array may grow. -/
namespace Verif.GrowthSpec

/-- `n` is the least of `c`, `2c`, `4c`, ... that is at least `need`. -/
def LeastDoubling (c need n : Nat) : Prop :=
  (∃ k, n = c * 2 ^ k) ∧ need ≤ n ∧ ∀ j, need ≤ c * 2 ^ j → n ≤ c * 2 ^ j

/-- The most cells the calls of a history on a vector ask for: one per element, or what `ensureSize` is given. -/
def vectorPeak {α : Type} : List α → List (Vec.Op α) → Nat
  | l, [] => l.length
  | l, .ensureSize n :: os => max n.toNat (vectorPeak l os)
  | l, o :: os => max l.length (vectorPeak (VecSpec.step o l).2 os)

/-- The largest number of entries a heap has during a history. -/
def heapPeak {K V : Type} [BEq K] [BEq V] : HeapSpec.Abs K V → List (Heap.Op K V) → Nat
  | a, [] => a.live.length
  | a, o :: os => max a.live.length (heapPeak (HeapSpec.after o a) os)

end Verif.GrowthSpec

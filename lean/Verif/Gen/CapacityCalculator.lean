import Verif.Gen.Prelude
/-!
GENERATED by tools/j2l/translate.py from CapacityCalculator.java.  Do not edit: the translator is the only
reading of the Java text here.  Lean/Verif/Link proves that these definitions agree with the model.
-/
set_option linter.unusedVariables false
namespace Verif.Gen.CapacityCalculator
open Verif

/-- CapacityCalculator.java:12-30 `calculateNewCapacity`. -/
def calculateNewCapacity {σ : Type} (capacity : Int) (capacityThreshold : Int) : JM σ Int := do
  if (decide (capacity = (i32 ((i32 (Int.tdiv MAX_INT 4)) + 1)))) = true then do
    (if (decide (capacityThreshold = (i32 ((i32 (Int.tdiv MAX_INT 4)) + 1)))) = true then do
        JM.throw .resize
      else pure ())
    pure capacity
  else do
    let newCapacity := (shl32 capacity 1)
    (if (decide (newCapacity ≤ capacity)) = true then do
        JM.throw .resize
      else pure ())
    pure (min newCapacity (i32 ((i32 (Int.tdiv MAX_INT 4)) + 1)))
end Verif.Gen.CapacityCalculator

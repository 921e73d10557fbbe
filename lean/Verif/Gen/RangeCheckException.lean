import Verif.Gen.Prelude
/-!
GENERATED by tools/j2l/translate.py from RangeCheckException.java.  Do not edit: the translator is the only
reading of the Java text here.  Lean/Verif/Link proves that these definitions agree with the model.
-/
set_option linter.unusedVariables false
namespace Verif.Gen.RangeCheckException
open Verif

/-- RangeCheckException.java:10-18 `assertWithinRange`. -/
def assertWithinRange {σ : Type} (min : Int) (max : Int) (value : Int) : JM σ Unit := do
  (if ((decide (value < min)) || (decide (value > max))) = true then do
      JM.throw .rangeCheck
    else pure ())
  pure ()
end Verif.Gen.RangeCheckException

import Verif.Gen.Prelude
/-!
GENERATED by tools/j2l/translate.py from InitializationException.java.  Do not edit: the translator is the only
reading of the Java text here.  Lean/Verif/Link proves that these definitions agree with the model.
-/
set_option linter.unusedVariables false
namespace Verif.Gen.InitializationException
open Verif

/-- InitializationException.java:10-15 `assertMinimum`. -/
def assertMinimum {σ : Type} (minValid : Int) (value : Int) : JM σ Unit := do
  (if (decide (value < minValid)) = true then do
      JM.throw .initialization
    else pure ())
  pure ()
end Verif.Gen.InitializationException

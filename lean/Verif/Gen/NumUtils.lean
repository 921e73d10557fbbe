import Verif.Gen.Prelude
/-!
GENERATED by tools/j2l/translate.py from NumUtils.java.  Do not edit: the translator is the only
reading of the Java text here.  Lean/Verif/Link proves that these definitions agree with the model.
-/
set_option linter.unusedVariables false
namespace Verif.Gen.NumUtils
open Verif

/-- NumUtils.java:8-10 `nextPowerOf2`. -/
def nextPowerOf2 {σ : Type} (v : Int) : JM σ Int := do
  pure (shl32 1 (i32 (32 - (numberOfLeadingZeros (i32 (v - 1))))))
end Verif.Gen.NumUtils

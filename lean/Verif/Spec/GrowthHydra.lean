import Verif.Spec.Growth
import Verif.Spec.Hydra
/-! How much storage a family of lists takes. -/
namespace Verif.GrowthSpec
open Hydra HydraSpec
variable {α : Type}

/-- The cells a history takes: for each stretch between `clear`s the largest number of values stored at once in it,
added up.  `p` is the largest number so far in the present stretch. -/
def hydraSpent : Family α → Int → List (Op α) → Int
  | _, p, [] => p
  | a, p, .clear :: os => p + hydraSpent (HydraSpec.step .clear a).2 0 os
  | a, p, o :: os => hydraSpent (HydraSpec.step o a).2 (max p (HydraSpec.step o a).2.total) os

end Verif.GrowthSpec

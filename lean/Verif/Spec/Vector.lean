import Verif.Model.Vector
/-! The ideal append-only list. -/
namespace Verif.VecSpec
open Verif.Vec
variable {α : Type}

def step : Op α → List α → Except Err (Out α) × List α
  | .append v, l => (.ok .unit, l ++ [v])
  | .ensureSize _, l => (.ok .unit, l)
  | .valueAt i, l =>
    match l[i.toNat]? with
    | some v => (.ok (.val v), l)
    | none => (.error .indexOutOfBounds, l)
  | .size, l => (.ok (.int l.length), l)
  | .isEmpty, l => (.ok (.bool l.isEmpty), l)
  | .forEach, l => (.ok (.seq l), l)
  | .clear, _ => (.ok .unit, [])

/-- Calls the property speaks about: at most 2^30 elements, `ensureSize` requests up to 2^30, and
`valueAt` only inside the vector (it is documented as not range-checked). -/
def Legal : Op α → List α → Prop
  | .append _, l => (l.length : Int) < 2 ^ 30
  | .ensureSize n, _ => n ≤ 2 ^ 30
  | .valueAt i, l => 0 ≤ i ∧ i < l.length
  | _, _ => True

end Verif.VecSpec

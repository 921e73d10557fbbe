import Verif.Model.CallbacksHeap
import Verif.Spec.Heap
/-!
The walk of `forEachEntry` over a heap that its consumer changes: entry by entry, as long as the number of the
entry is below the number of live entries.
-/
namespace Verif.HeapSpec
open Verif.Heap
variable {K V : Type} [BEq K] [BEq V]

/-- With `seen` handed out, the contents `a` and the entry `e` next, the consumer `f` is handed `out` in total and
the contents are `fin` at the end.  All its calls respect `Guarded`. -/
inductive Walks (f : Consumer Int (Op K V)) : List Int → Nat → Abs K V → List Int → Abs K V → Prop
  | done {seen : List Int} {e : Nat} {a : Abs K V} : a.live.length ≤ e → Walks f seen e a seen a
  | skip {seen out : List Int} {e : Nat} {a fin : Abs K V} : e < a.live.length → (e : Int) ∉ a.live →
      Walks f seen (e + 1) a out fin → Walks f seen e a out fin
  | step {seen out : List Int} {e : Nat} {a fin : Abs K V} : e < a.live.length → (e : Int) ∈ a.live →
      Guarded a (f (seen ++ [(e : Int)])) →
      Walks f (seen ++ [(e : Int)]) (e + 1) (ideal a (f (seen ++ [(e : Int)]))) out fin → Walks f seen e a out fin

/-- The call does not change which entries are live. -/
def Keeps : Op K V → Prop
  | .insert _ | .insertKV _ _ | .removeAt _ | .clear => False
  | _ => True

/-- The live entries that `forEachEntry` presents from `e` on. -/
def present (live : List Int) (e n : Nat) : List Int :=
  ((List.range' e n).map Int.ofNat).filter fun e => decide (e ∈ live)

end Verif.HeapSpec

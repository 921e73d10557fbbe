import Verif.Model.Callbacks
import Verif.Model.Heap
/-!
Models `forEachEntry` of `heap/BaseHeap.java` with a consumer that calls back into the heap (`Consumer`, see
Model/Callbacks.lean).
-/
namespace Verif.Heap
variable {K V : Type} [BEq K] [BEq V]

/-- BaseHeap.java:43-47, the loop of `forEachEntry` from `entry` on for at most `fuel` iterations: `size` and the
state of the entry are read again in every iteration. -/
def forEachDoFrom (f : Consumer Int (Op K V)) : Nat → Int → List Int → JM (Heap K V) (List Int)
  | 0, _, _ => JM.throw .diverge
  | fuel + 1, entry, seen => do
    let s ← get
    if entry < s.size then do
      let v ← isValidEntry entry
      if v then do
        callAll step (f (seen ++ [entry]))
        forEachDoFrom f fuel (entry + 1) (seen ++ [entry])
      else forEachDoFrom f fuel (entry + 1) seen
    else pure seen

/-- BaseHeap.java:42-48 `forEachEntry` with a consumer that calls back. -/
def forEachDo (f : Consumer Int (Op K V)) (fuel : Nat) : JM (Heap K V) (List Int) :=
  forEachDoFrom f fuel 0 []

end Verif.Heap

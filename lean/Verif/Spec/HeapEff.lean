import Verif.Model.HeapEff
import Verif.Spec.Heap
/-! Which keys a comparator that can fail has to be able to compare. -/
namespace Verif.HeapSpec
open Verif.Heap Verif.HeapEff
variable {σ K V : Type}

/-- A comparator that throws when `cmp` says so (`StringType.Asc`, for instance, see `Cmp.ascRef`). -/
def throwing (cmp : K → K → Except Err Int) : Effect Unit K := fun _ x y => ⟨fun u =>
  match cmp x y with
  | .ok r => .ok r u
  | .error e => .err e u⟩

/-- The comparators of which `C` holds can compare the keys of which `P` holds, and then compare as the function says. -/
def Comparable (eff : Effect σ K) (C : Comparator K → Prop) (P : K → Prop) : Prop :=
  ∀ c x y u, C c → P x → P y → ∃ u', eff c x y u = .ok (c.compare x y) u'

/-- The call inserts, sets or looks for a key only if `P` holds of it, and sets a comparator only if `C` does. -/
def Uses (C : Comparator K → Prop) (P : K → Prop) : Op K V → Prop
  | .insert k | .insertKV k _ | .resetKey _ k | .containsKey k | .getFirstEntry k => P k
  | .setComparator (some c) => C c
  | _ => True

end Verif.HeapSpec

import Verif.Model.SortMem
import Verif.Spec.Sort
/-! Vocabulary for sorting with comparators that have effects. -/
namespace Verif.SortSpec
variable {σ K : Type}

/-- `cmp`, with a counter of its calls. -/
def counted (cmp : K → K → JM σ Int) : K → K → JM (Nat × σ) Int := fun x y => ⟨fun t =>
  match cmp x y t.2 with
  | .ok r e => .ok r (t.1 + 1, e)
  | .err x e => .err x (t.1 + 1, e)⟩

/-- What `cmp` answers (or throws) depends on the two keys only, whatever else it does: it is `c`. -/
def Decided (cmp : K → K → JM σ Int) (c : K → K → Except Err Int) : Prop := ∀ x y e, (cmp x y e).out = c x y

/-- The keys at positions `off..off+len-1` of one array. -/
def keysOf (a : Arr K) (off len : Int) : List K := (List.range len.toNat).map fun (i : Nat) => a.get (off + (i : Int))

end Verif.SortSpec

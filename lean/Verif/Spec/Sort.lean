import Verif.Model.Sort
/-! Vocabulary for the companion sort: what it should do to the two arrays. -/
namespace Verif.SortSpec
open Verif.CompanionSort
variable {K V : Type}

/-- The arrays are as long as Java allows. -/
def Sized (s : Arrs K V) : Prop := s.pri.len < 2147483648 ∧ s.sec.len < 2147483648

/-- `off..off+len-1` are positions of both arrays. -/
def InBoth (s : Arrs K V) (off len : Int) : Prop :=
  0 ≤ off ∧ 0 ≤ len ∧ off + len ≤ s.pri.len ∧ off + len ≤ s.sec.len

/-- The pairs at positions `off..off+len-1`. -/
def pairs (s : Arrs K V) (off len : Int) : List (K × V) :=
  (List.range len.toNat).map fun (i : Nat) => (s.pri.get (off + (i : Int)), s.sec.get (off + (i : Int)))

/-- The keys at positions `off..off+len-1`. -/
def keys (s : Arrs K V) (off len : Int) : List K :=
  (List.range len.toNat).map fun (i : Nat) => s.pri.get (off + (i : Int))

/-- Both arrays keep their length and everything outside `off..off+len-1`. -/
def SameOutside (s s' : Arrs K V) (off len : Int) : Prop :=
  s'.pri.len = s.pri.len ∧ s'.sec.len = s.sec.len ∧
  ∀ i, i < off ∨ off + len ≤ i → s'.pri.get i = s.pri.get i ∧ s'.sec.get i = s.sec.get i

/-- `c` orders the values satisfying `P`: a total preorder in the sense of `java.util.Comparator`. -/
structure Orders (P : K → Prop) (c : K → K → Int) : Prop where
  symm : ∀ a b, P a → P b → (c a b ≤ 0 ↔ 0 ≤ c b a)
  trans : ∀ x y z, P x → P y → P z → c x y ≤ 0 → c y z ≤ 0 → c x z ≤ 0

end Verif.SortSpec

import Verif.Model.Convert
/-! Dictionary order of texts, said without recursion. -/
namespace Verif.TextSpec
open Verif.Convert

/-- `a` comes before `b` in the dictionary: after a common beginning `a` ends and `b` goes on, or `a` has the smaller
character. -/
def Before (a b : JString) : Prop :=
  ∃ common rest, (a = common ∧ rest ≠ [] ∧ b = common ++ rest) ∨
    ∃ x y rest', x.toNat < y.toNat ∧ a = common ++ x :: rest ∧ b = common ++ y :: rest'

/-- The text with every character case-folded: first to upper case, then to lower case. -/
def folded (upper lower : BitVec 16 → BitVec 16) (s : JString) : JString := s.map fun c => lower (upper c)

/-- `c` is a comparison result that says how `a` and `b` are ordered by `lt`, where `same` says they are equal. -/
def Says (c : Int) (lt gt same : Prop) : Prop := (c < 0 ↔ lt) ∧ (0 < c ↔ gt) ∧ (c = 0 ↔ same)

end Verif.TextSpec

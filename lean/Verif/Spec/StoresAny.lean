import Verif.Spec.Stores
/-! What the chunk stores really do for a chunk size that need not be a power of two: indexes share cells. -/
namespace Verif
variable {α : Type}

/-- `2^k` is the least power of two that is at least `c`: the size of a chunk for the requested chunk size `c`. -/
def RoundsTo (c : Int) (k : Nat) : Prop := c ≤ (2 ^ k : Nat) ∧ ∀ j : Nat, c ≤ (2 ^ j : Nat) → k ≤ j

/-- Two indexes share a cell when they lie in the same chunk of `2^k` and agree on the bits of `c - 1`. -/
def SameCell (c : Int) (k : Nat) (i j : Int) : Prop :=
  i / (2 ^ k : Nat) = j / (2 ^ k : Nat) ∧ i.toNat &&& (c - 1).toNat = j.toNat &&& (c - 1).toNat

instance (c : Int) (k : Nat) (i j : Int) : Decidable (SameCell c k i j) := by unfold SameCell; infer_instance

namespace ChunkStoreSpec
open ChunkStore
/-- As `ChunkStoreSpec.step`, except that `set` writes every index sharing the cell. -/
def stepAny (c : Int) (k : Nat) : Op α → (Int → α) → Except Err (Option α) × (Int → α)
  | .get i, f => if i < 0 then (.error .indexOutOfBounds, f) else (.ok (some (f i)), f)
  | .set i v, f =>
    if i < 0 then (.error .indexOutOfBounds, f)
    else (.ok none, fun j => if SameCell c k j i then v else f j)
end ChunkStoreSpec

namespace MatrixStoreSpec
open MatrixStore
/-- The number of rows that fit in the least number of chunks of `2^k` holding `rows` rows. -/
def room (nf : Int) (k : Nat) (rows : Int) : Int := ceilDiv (rows * nf) (2 ^ k : Nat) * (2 ^ k : Nat) / nf

/-- As `MatrixStoreSpec.step`, with the number of rows there is room for: a row beyond it reads as the default, `set`
makes room for its row, and writes every row and field sharing the cell. -/
def stepAny (d : α) (nf c : Int) (k : Nat) :
    Op α → Int × (Int → Int → α) → Except Err (Option α) × (Int × (Int → Int → α))
  | .get r x, (n, f) =>
    if x < 0 ∨ nf ≤ x then (.error .rangeCheck, (n, f))
    else if r < 0 then (.error .indexOutOfBounds, (n, f))
    else (.ok (some (if n ≤ r then d else f r x)), (n, f))
  | .set r x v, (n, f) =>
    if x < 0 ∨ nf ≤ x then (.error .rangeCheck, (n, f))
    else if r < 0 then (.error .indexOutOfBounds, (n, f))
    else (.ok none, (if n ≤ r then room nf k (r + 1) else n,
      fun i j => if SameCell c k (i * nf + j) (r * nf + x) then v else f i j))

/-- The calls considered, as in `MatrixStoreSpec.Legal`. -/
def LegalAny (nf : Int) (o : Op α) (a : Int × (Int → Int → α)) : Prop := Legal nf o a.2
end MatrixStoreSpec
end Verif

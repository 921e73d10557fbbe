import Verif.Model.Stores
/-! The ideal stores: a function from cells to values, initially the default everywhere. -/
namespace Verif
variable {α : Type}

namespace ChunkStoreSpec
open ChunkStore
/-- `get` returns the last value set, negative indexes are rejected. -/
def step : Op α → (Int → α) → Except Err (Option α) × (Int → α)
  | .get i, f => if i < 0 then (.error .indexOutOfBounds, f) else (.ok (some (f i)), f)
  | .set i v, f =>
    if i < 0 then (.error .indexOutOfBounds, f)
    else (.ok none, fun j => if j = i then v else f j)

/-- Indexes below 2^30 (any index for `get`). -/
def Legal : Op α → (Int → α) → Prop
  | .get i, _ => -2147483648 ≤ i ∧ i < 2147483648
  | .set i _, _ => -2147483648 ≤ i ∧ i < 2 ^ 30
end ChunkStoreSpec

namespace MatrixStoreSpec
open MatrixStore
/-- `get` returns the last value set at that row and field; bad fields and negative rows are
rejected. -/
def step (numFields : Int) : Op α → (Int → Int → α) → Except Err (Option α) × (Int → Int → α)
  | .get r c, f =>
    if c < 0 ∨ numFields ≤ c then (.error .rangeCheck, f)
    else if r < 0 then (.error .indexOutOfBounds, f)
    else (.ok (some (f r c)), f)
  | .set r c v, f =>
    if c < 0 ∨ numFields ≤ c then (.error .rangeCheck, f)
    else if r < 0 then (.error .indexOutOfBounds, f)
    else (.ok none, fun i j => if i = r ∧ j = c then v else f i j)

/-- Any field; rows such that all cells up to the row number at most 2^30. -/
def Legal (numFields : Int) : Op α → (Int → Int → α) → Prop
  | .get r _, _ => -2147483648 ≤ r * numFields ∧ r < 2147483648
  | .set r _ _, _ => -2147483648 ≤ r * numFields ∧ (r + 1) * numFields ≤ 2 ^ 30
end MatrixStoreSpec
end Verif

import Verif.Model.Hydra
/-!
The ideal family of double-ended lists, one per id, front first; and, for the storage property, the
same family in which every value carries the number of the storage entry it occupies.
-/
namespace Verif.HydraSpec
open Verif.Hydra
variable {α : Type}

/-- `f` with the value at `i` replaced. -/
def upd {β : Type} (f : Int → β) (i : Int) (x : β) : Int → β := fun j => if j = i then x else f j

/-- The ideal state: the lists, and how many values were added and not yet removed. -/
structure Family (α : Type) where
  lists : Int → List α
  total : Int

/-- No values anywhere. -/
def Family.empty : Family α := ⟨fun _ => [], 0⟩

/-- What the ideal family answers (entry numbers are not part of it: adding returns `unit`). -/
def step : Op α → Family α → Except Err (Out α) × Family α
  | .addFirst i v, a =>
    if i < 0 then (.error .indexOutOfBounds, a)
    else (.ok .unit, ⟨upd a.lists i (v :: a.lists i), a.total + 1⟩)
  | .addLast i v, a =>
    if i < 0 then (.error .indexOutOfBounds, a)
    else (.ok .unit, ⟨upd a.lists i (a.lists i ++ [v]), a.total + 1⟩)
  | .removeFirst i, a =>
    match a.lists i with
    | [] => (.error .noSuchElement, a)
    | v :: l => (.ok (.val v), ⟨upd a.lists i l, a.total - 1⟩)
  | .removeLast i, a =>
    match (a.lists i).getLast? with
    | none => (.error .noSuchElement, a)
    | some v => (.ok (.val v), ⟨upd a.lists i (a.lists i).dropLast, a.total - 1⟩)
  | .size, a => (.ok (.int a.total), a)
  | .sizeOf i, a => (.ok (.int (a.lists i).length), a)
  | .isEmpty, a => (.ok (.bool (decide (a.total = 0))), a)
  | .iterate i, a =>
    if i < 0 then (.error .indexOutOfBounds, a) else (.ok (.seq (a.lists i)), a)
  | .reverseIterate i, a =>
    if i < 0 then (.error .indexOutOfBounds, a) else (.ok (.seq (a.lists i).reverse), a)
  | .clear, _ => (.ok .unit, Family.empty)

/-- Forget the entry number an addition returns. -/
def eraseOut : Except Err (Out α) → Except Err (Out α)
  | .ok (.entry _) => .ok .unit
  | o => o

/-- The ideal state with storage: every value with its entry, the freed entries (most recently
freed first), and the first entry never used. -/
structure Stored (α : Type) where
  lists : Int → List (Int × α)
  total : Int
  freed : List Int
  next : Int

/-- Nothing stored, nothing ever used. -/
def Stored.empty : Stored α := ⟨fun _ => [], 0, [], 0⟩

/-- The entry the next addition uses: the most recently freed one, else the first unused one. -/
def Stored.entry (a : Stored α) : Int := a.freed.headD a.next

/-- The state after taking that entry. -/
def Stored.take (a : Stored α) : Stored α :=
  match a.freed with
  | [] => { a with next := a.next + 1 }
  | _ :: fs => { a with freed := fs }

/-- What the family with storage answers. -/
def storedStep : Op α → Stored α → Except Err (Out α) × Stored α
  | .addFirst i v, a =>
    if i < 0 then (.error .indexOutOfBounds, a)
    else (.ok (.entry a.entry), { a.take with
      lists := upd a.lists i ((a.entry, v) :: a.lists i), total := a.total + 1 })
  | .addLast i v, a =>
    if i < 0 then (.error .indexOutOfBounds, a)
    else (.ok (.entry a.entry), { a.take with
      lists := upd a.lists i (a.lists i ++ [(a.entry, v)]), total := a.total + 1 })
  | .removeFirst i, a =>
    match a.lists i with
    | [] => (.error .noSuchElement, a)
    | (e, v) :: l => (.ok (.val v), { a with
        lists := upd a.lists i l, total := a.total - 1, freed := e :: a.freed })
  | .removeLast i, a =>
    match (a.lists i).getLast? with
    | none => (.error .noSuchElement, a)
    | some (e, v) => (.ok (.val v), { a with
        lists := upd a.lists i (a.lists i).dropLast, total := a.total - 1, freed := e :: a.freed })
  | .size, a => (.ok (.int a.total), a)
  | .sizeOf i, a => (.ok (.int (a.lists i).length), a)
  | .isEmpty, a => (.ok (.bool (decide (a.total = 0))), a)
  | .iterate i, a =>
    if i < 0 then (.error .indexOutOfBounds, a)
    else (.ok (.seq ((a.lists i).map Prod.snd)), a)
  | .reverseIterate i, a =>
    if i < 0 then (.error .indexOutOfBounds, a)
    else (.ok (.seq ((a.lists i).map Prod.snd).reverse), a)
  | .clear, a => (.ok .unit, { a with lists := fun _ => [], total := 0, freed := [] })

/-- The ids and the number of entries the arrays can hold: list ids below 2^30, and fewer than
2^30 additions that find no freed entry. -/
def Room (o : Op α) (a : Stored α) : Prop :=
  match o with
  | .addFirst i _ => -2 ^ 31 ≤ i ∧ i < 2 ^ 30 ∧ (a.freed = [] → a.next < 2 ^ 30)
  | .addLast i _ => -2 ^ 31 ≤ i ∧ i < 2 ^ 30 ∧ (a.freed = [] → a.next < 2 ^ 30)
  | _ => True

/-- The list a call is about. -/
def idOf : Op α → Option Int
  | .addFirst i _ => some i | .addLast i _ => some i
  | .removeFirst i => some i | .removeLast i => some i
  | .sizeOf i => some i | .iterate i => some i | .reverseIterate i => some i
  | .size => none | .isEmpty => none | .clear => none

/-- The call adds a value. -/
def isAdd : Op α → Bool
  | .addFirst _ _ => true | .addLast _ _ => true
  | _ => false

/-- A history the arrays can hold: list ids are ints below 2^30 and there are fewer than 2^30
additions. -/
def Fits (ops : List (Op α)) : Prop :=
  (∀ o ∈ ops, ∀ i, idOf o = some i → -2 ^ 31 ≤ i ∧ i < 2 ^ 30) ∧
  (ops.countP isAdd : Int) < 2 ^ 30

end Verif.HydraSpec

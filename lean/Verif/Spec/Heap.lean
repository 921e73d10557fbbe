import Verif.Model.Heap
/-!
The ideal heap: which entries are live, what key and value every entry has, and which entries were
freed.  It has no tree.
-/
namespace Verif.HeapSpec
open Verif.Heap

/-- The ideal heap. -/
structure Abs (K V : Type) where
  /-- the entries in the heap -/
  live : List Int
  /-- entries removed and not reused, most recently removed first -/
  freed : List Int
  keyOf : Int → K
  valOf : Int → V
  cap : Int
  cmp : Comparator K
  dk : K
  dv : V

variable {K V : Type}

/-- A new heap. -/
def empty (asc : Comparator K) (dk : K) (dv : V) (capacity : Int) : Abs K V :=
  ⟨[], [], fun _ => dk, fun _ => dv, capacity, asc, dk, dv⟩

/-- `f` with the value at `i` replaced. -/
def upd {β : Type} (f : Int → β) (i : Int) (x : β) : Int → β := fun j => if j = i then x else f j

namespace Abs

/-- The entry the next insertion uses: the most recently removed one, else the first never used. -/
def entry (a : Abs K V) : Int := a.freed.headD a.live.length

/-- No cell is left for an insertion. -/
def Full (a : Abs K V) : Prop := a.freed = [] ∧ a.cap ≤ a.live.length

instance (a : Abs K V) : Decidable a.Full := by unfold Full; infer_instance

/-- The capacity cannot be doubled: it is 0, or 2^29, or at least 2^30. -/
def Stuck (a : Abs K V) : Prop := a.cap = 0 ∨ a.cap = 2 ^ 29 ∨ 2 ^ 30 ≤ a.cap

instance (a : Abs K V) : Decidable a.Stuck := by unfold Stuck; infer_instance

/-- The capacity after an insertion. -/
def newCap (a : Abs K V) : Int := if a.Full then min (2 * a.cap) (2 ^ 29) else a.cap

/-- The ideal heap after an insertion of the key `k`. -/
def insert (a : Abs K V) (k : K) : Abs K V :=
  { a with live := a.entry :: a.live, freed := a.freed.tail, keyOf := upd a.keyOf a.entry k, cap := a.newCap }

end Abs

/-- The ideal state after a call. -/
def after [BEq K] [BEq V] : Op K V → Abs K V → Abs K V
  | .insert k, a => if a.Full ∧ a.Stuck then a else a.insert k
  | .insertKV k v, a =>
    if a.Full ∧ a.Stuck then a else { a.insert k with valOf := upd a.valOf a.entry v }
  | .removeAt e, a =>
    if e ∈ a.live then { a with
      live := a.live.erase e, freed := e :: a.freed, keyOf := upd a.keyOf e a.dk, valOf := upd a.valOf e a.dv }
    else a
  | .resetKey e k, a => if 0 ≤ e ∧ e < a.cap then { a with keyOf := upd a.keyOf e k } else a
  | .setComparator (some c), a => { a with cmp := c }
  | .clear, a => { a with
      live := [], freed := []
      -- only as many cells as there are live entries are reset
      keyOf := fun e => if 0 ≤ e ∧ e < a.live.length then a.dk else a.keyOf e
      valOf := fun e => if 0 ≤ e ∧ e < a.live.length then a.dv else a.valOf e }
  | .setDefaultKey k, a =>
    if a.live ≠ [] ∨ (a.dk == k) = true then a else { a with dk := k, keyOf := fun _ => k }
  | .setDefaultValue v, a =>
    if a.live ≠ [] ∨ (a.dv == v) = true then a else { a with dv := v, valOf := fun _ => v }
  | .setValueAt e v, a => if 0 ≤ e ∧ e < a.cap then { a with valOf := upd a.valOf e v } else a
  | _, a => a

/-- What a caller has to respect.  An entry inside the arrays that was never handed out is not removed
from a heap that is not empty; only live entries get new keys; a comparator object is always the
same function; fewer than 2^30 entries; and a full heap whose capacity is strictly between 2^29 and
2^30 gets no insertion. -/
def Guard : Op K V → Abs K V → Prop
  | .insert _, a | .insertKV _ _, a =>
    a.live.length < 2 ^ 30 ∧ ¬ (a.Full ∧ 2 ^ 29 < a.cap ∧ a.cap < 2 ^ 30)
  | .removeAt e, a => a.live = [] ∨ e < a.live.length + a.freed.length ∨ a.cap ≤ e
  | .resetKey e _, a => e ∈ a.live ∨ e < 0 ∨ a.cap ≤ e
  | .setComparator (some c), a => c.ref = a.cmp.ref → c = a.cmp
  | _, _ => True

/-- The key `k` compares equal to a live key. -/
def Abs.Has (a : Abs K V) (k : K) : Prop := ∃ e ∈ a.live, a.cmp.compare k (a.keyOf e) = 0

/-- Which result of a call is right (`peek` on a non-empty heap: some live entry; that it is a minimum
is a separate theorem, because it needs the comparator to be an order). -/
def Ok [BEq K] [BEq V] : Op K V → Except Err (Out K V) → Abs K V → Prop
  | .insert _, out, a | .insertKV _ _, out, a =>
    out = if a.Full ∧ a.Stuck then .error .resize else .ok (.int a.entry)
  | .removeAt e, out, a =>
    out = if e ∈ a.live then .ok .unit
      else if e < 0 ∨ a.cap ≤ e then .error .rangeCheck else .error .invalidEntry
  | .resetKey e _, out, a => out = if e ∈ a.live then .ok .unit else .error .indexOutOfBounds
  | .setComparator none, out, _ => out = .error .nullPointer
  | .setComparator (some _), out, _ => out = .ok .unit
  | .clear, out, _ => out = .ok .unit
  | .setDefaultKey _, out, a => out = if a.live = [] then .ok .unit else .error .unsupported
  | .setDefaultValue _, out, a => out = if a.live = [] then .ok .unit else .error .runtime
  | .setValueAt e _, out, a => out = if 0 ≤ e ∧ e < a.cap then .ok .unit else .error .indexOutOfBounds
  | .peek, out, a =>
    (a.live = [] → out = .error .runtime) ∧ (a.live ≠ [] → ∃ e ∈ a.live, out = .ok (.int e))
  | .getSize, out, a => out = .ok (.int a.live.length)
  | .isEmpty, out, a => out = .ok (.bool (decide (a.live = [])))
  | .getCapacity, out, a => out = .ok (.int a.cap)
  -- only entries below the size are reported
  | .forEachEntry, out, a =>
    out = .ok (.ints (((List.range a.live.length).map Int.ofNat).filter fun e => decide (e ∈ a.live)))
  -- entries never handed out count as valid unless the heap is empty
  | .isValidEntry e, out, a =>
    out = if e < 0 then .error .indexOutOfBounds
      else .ok (.bool (decide (e ∈ a.live ∨
        (a.live ≠ [] ∧ ((a.live.length + a.freed.length : Nat) : Int) ≤ e ∧ e < a.cap))))
  | .getKeyAt e, out, a =>
    out = if 0 ≤ e ∧ e < a.cap then .ok (.key (a.keyOf e)) else .error .indexOutOfBounds
  | .containsKey k, out, a => ∃ b, out = .ok (.bool b) ∧ (b = true ↔ a.Has k)
  | .getFirstEntry k, out, a =>
    (∃ e ∈ a.live, a.cmp.compare k (a.keyOf e) = 0 ∧ out = .ok (.int e)) ∨
    (¬ a.Has k ∧ out = .ok (.int (-1)))
  | .getValueAt e, out, a =>
    out = if 0 ≤ e ∧ e < a.cap then .ok (.val (a.valOf e)) else .error .indexOutOfBounds
  | .getValueAtOrDefault e d, out, a =>
    out = if 0 ≤ e ∧ e < a.cap then .ok (.val (a.valOf e)) else .ok (.val d)
  | .getDefaultKey, out, a => out = .ok (.key a.dk)
  | .getDefaultValue, out, a => out = .ok (.val a.dv)

/-- What the history says the contents are. -/
def ideal [BEq K] [BEq V] (a : Abs K V) (ops : List (Op K V)) : Abs K V := ops.foldl (fun a o => after o a) a

/-- Every call of the history respects `Guard`. -/
def Guarded [BEq K] [BEq V] : Abs K V → List (Op K V) → Prop
  | _, [] => True
  | a, o :: os => Guard o a ∧ Guarded (after o a) os

/-- All results of a history are right. -/
def Legal [BEq K] [BEq V] : Abs K V → List (Op K V) → List (Except Err (Out K V)) → Prop
  | _, [], [] => True
  | a, o :: os, r :: rs => Ok o r a ∧ Legal (after o a) os rs
  | _, _, _ => False

/-- `c` is a total preorder on the keys satisfying `P`: sign-symmetric and transitive. -/
structure TotalOn (P : K → Prop) (c : K → K → Int) : Prop where
  symm : ∀ a b, P a → P b → (c a b ≤ 0 ↔ 0 ≤ c b a)
  trans : ∀ x y z, P x → P y → P z → c x y ≤ 0 → c y z ≤ 0 → c x z ≤ 0

/-- The call puts only keys satisfying `P` in the heap and only comparators that order them. -/
def Sane (P : K → Prop) : Op K V → Prop
  | .insert k | .insertKV k _ | .resetKey _ k => P k
  | .setComparator (some c) => TotalOn P c.compare
  | _ => True

end Verif.HeapSpec

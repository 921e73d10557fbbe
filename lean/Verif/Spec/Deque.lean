import Verif.Model.Deque
/-! The ideal double-ended sequence: a list, front first. -/
namespace Verif.DequeSpec
open Verif.Deque
variable {α : Type}

/-- What an ideal list does on each call. -/
def step : Op α → List α → Except Err (Out α) × List α
  | .addFirst v, l => (.ok .unit, v :: l)
  | .addLast v, l => (.ok .unit, l ++ [v])
  | .removeFirst, [] => (.error .noSuchElement, [])
  | .removeFirst, v :: l => (.ok (.val v), l)
  | .removeLast, l =>
    match l.getLast? with
    | none => (.error .noSuchElement, l)
    | some v => (.ok (.val v), l.dropLast)
  | .peekFirst, l =>
    match l.head? with
    | none => (.error .noSuchElement, l)
    | some v => (.ok (.val v), l)
  | .peekLast, l =>
    match l.getLast? with
    | none => (.error .noSuchElement, l)
    | some v => (.ok (.val v), l)
  | .size, l => (.ok (.int l.length), l)
  | .isEmpty, l => (.ok (.bool l.isEmpty), l)
  | .forEach, l => (.ok (.seq l), l)
  | .clear, _ => (.ok .unit, [])

/-- The history stays below 2^29 elements after this call. -/
def Bounded (o : Op α) (l : List α) : Prop := ((step o l).2.length : Int) < 2 ^ 29

end Verif.DequeSpec

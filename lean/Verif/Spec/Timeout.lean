import Verif.Model.Timeout
/-!
What a timeout manager should do, in terms of its pending items; no heap.
-/
namespace Verif.TimeoutSpec
open Verif.Timeout

/-- An item that was added and neither acknowledged nor reported; `entry` is the handle `addNewItem` returned. -/
structure Item where
  entry : Int
  value : Int
  deadline : Int
  deriving DecidableEq, Repr

/-- The items waiting, all handles ever returned, and the reports still needed for the thread to end. -/
structure Ideal where
  pending : List Item
  handed : List Int
  latch : Nat

/-- A round of the manager with the given clock readings: `fired` are the items it reports, in that order, and
`rest` are those it keeps. -/
structure Fires (clock : Nat → Int) (fired rest : List Item) (reports : List Report) (delay : Int) : Prop where
  /-- the `n`-th report is about the `n`-th fired item, at the `n`-th clock reading -/
  reports : reports = fired.mapIdx fun n i => ⟨clock n, i.value, clock n - i.deadline⟩
  /-- nothing is reported before its deadline has passed -/
  due : ∀ n i, fired[n]? = some i → i.deadline < clock n
  /-- earliest deadline first -/
  sorted : fired.Pairwise fun i j => i.deadline ≤ j.deadline
  first : ∀ i ∈ fired, ∀ j ∈ rest, i.deadline ≤ j.deadline
  /-- nothing overdue is left at the last reading -/
  notDue : ∀ i ∈ rest, clock fired.length ≤ i.deadline
  /-- the delay is 100 if nothing is left, else the time to the earliest deadline left -/
  idle : rest = [] → delay = 100
  next : rest ≠ [] → ∃ i ∈ rest, (∀ j ∈ rest, i.deadline ≤ j.deadline) ∧ delay = i.deadline - clock fired.length

/-- The schedules with results that are right. -/
inductive Legal : Ideal → List (Event × Result) → Prop
  | nil {s} : Legal s []
  /-- an added item is pending, under a handle no pending item has -/
  | add {s v d e t} : (∀ i ∈ s.pending, i.entry ≠ e) →
      Legal { s with pending := ⟨e, v, d⟩ :: s.pending, handed := e :: s.handed } t → Legal s ((.add v d, .entry e) :: t)
  /-- acknowledging the handle of a pending item removes that item and no other -/
  | acknowledge {s i t} : i ∈ s.pending → Legal { s with pending := s.pending.erase i } t →
      Legal s ((.acknowledge i.entry, .done) :: t)
  /-- acknowledging a handle no pending item has is rejected without effect -/
  | late {s e t} : (∀ i ∈ s.pending, i.entry ≠ e) → Legal s t → Legal s ((.acknowledge e, .error .invalidEntry) :: t)
  | poll {s clock fired rest reports delay t} : s.latch ≠ 0 → (fired ++ rest).Perm s.pending →
      Fires clock fired rest reports delay →
      Legal { s with pending := rest, latch := s.latch - fired.length } t →
      Legal s ((.poll clock, .polled reports delay) :: t)
  | stopped {s clock t} : s.latch = 0 → Legal s t → Legal s ((.poll clock, .stopped) :: t)

/-- Every handle acknowledged was returned before (`handed` are the handles returned so far). -/
def Proper : List Int → List (Event × Result) → Prop
  | _, [] => True
  | h, (.add _ _, .entry e) :: t => Proper (e :: h) t
  | h, (.acknowledge e, _) :: t => e ∈ h ∧ Proper h t
  | h, _ :: t => Proper h t

/-- Deadlines and clock readings are non-negative longs. -/
def InRange : Event → Prop
  | .add _ d => 0 ≤ d ∧ d < 2 ^ 63
  | .acknowledge _ => True
  | .poll clock => ∀ n, 0 ≤ clock n ∧ clock n < 2 ^ 63

/-- Number of items added. -/
def adds (es : List Event) : Nat := es.countP fun | .add _ _ => true | _ => false

/-- All reports of a schedule. -/
def reportsOf (t : List (Event × Result)) : List Report :=
  t.flatMap fun | (_, .polled rs _) => rs | _ => []

/-- How often a timeout of the item with this value was reported. -/
def reported (v : Int) (t : List (Event × Result)) : Nat := (reportsOf t).countP fun r => r.value == v

/-- Adding an item with the value `v`. -/
def IsAdd (v : Int) (x : Event × Result) : Prop := ∃ d r, x = (.add v d, r)

end Verif.TimeoutSpec

import Verif.Model.Walk
import Verif.Spec.Callbacks
import Verif.Spec.Heap
import Verif.Spec.CallbacksIndex
/-!
Consumers that do everything at once: keep a state of their own, call back into the collection, look at what the
calls return or throw, and throw themselves.
-/
namespace Verif.ScriptSpec
open Verif
variable {op res σ α A O : Type}

/-- What such a consumer does when it is handed one value: it returns with its state changed to `u`, throws with its
state changed to `u`, or makes a call and goes on as the outcome of the call tells it. -/
inductive Script (op res σ : Type)
  | done (u : σ)
  | fail (e : Err) (u : σ)
  | call (o : op) (next : Except Err res → Script op res σ)

/-- The script run on a real collection. -/
def Script.play (step : op → JM O res) : Script op res σ → JM (Beside σ O) Unit
  | .done u => ⟨fun t => .ok () { t with ext := u }⟩
  | .fail e u => ⟨fun t => .err e { t with ext := u }⟩
  | .call o next => ⟨fun t => (next (step o t.obj).out).play step { t with obj := (step o t.obj).state }⟩

/-- The consumer: a script for each value and state. -/
def consumer (step : op → JM O res) (c : α → σ → Script op res σ) (v : α) : JM (Beside σ O) Unit :=
  ⟨fun t => (c v t.ext).play step t⟩

/-- The script run on ideal contents: whatever the calls may answer, each is one that may be made (`may`), and the end
is as `Q` says (how it ended, the consumer's state, the contents).  `can o a r b`: the call `o` on contents `a` may
answer `r` and leave `b`. -/
def Script.sure (may : op → A → Prop) (can : op → A → Except Err res → A → Prop)
    (Q : Except Err Unit → σ → A → Prop) : Script op res σ → A → Prop
  | .done u, a => Q (.ok ()) u a
  | .fail e u, a => Q (.error e) u a
  | .call o next, a => may o a ∧ ∀ r b, can o a r b → Script.sure may can Q (next r) b

/-- The walk over ideal contents is sure to end as `P` says.  `a` is the contents with the place of the walk in them, and
`move a` is what the walk does there: it ends (`none`), or hands out `v` and stands at `b` (`some (some v, b)`), or goes
on to `b` without handing anything out (`some (none, b)`).  An exception of the consumer ends the walk. -/
inductive Sure (may : op → A → Prop) (can : op → A → Except Err res → A → Prop)
    (move : A → Option (Option α × A)) (c : α → σ → Script op res σ) (P : Except Err Unit → σ → A → Prop) : A → σ → Prop
  | done {a : A} {u : σ} : move a = none → P (.ok ()) u a → Sure may can move c P a u
  | skip {a b : A} {u : σ} : move a = some (none, b) → Sure may can move c P b u → Sure may can move c P a u
  | step {a b : A} {u : σ} {v : α} (Q : Except Err Unit → σ → A → Prop) : move a = some (some v, b) →
      Script.sure may can Q (c v u) b → (∀ e u' b', Q (.error e) u' b' → P (.error e) u' b') →
      (∀ u' b', Q (.ok ()) u' b' → Sure may can move c P b' u') → Sure may can move c P a u

/-- The walk `w` returned or threw as `r` says, and left the collection and the consumer's state `t`. -/
def Ended {β τ : Type} (w : Res τ β) (r : Except Err Unit) (t : τ) : Prop :=
  match r with
  | .ok _ => ∃ b, w = .ok b t
  | .error e => w = .err e t

/-! ### vector: the next index and the elements -/

/-- At each index the element the vector then has there. -/
def vectorMove (a : Nat × List α) : Option (Option α × Nat × List α) := (a.2[a.1]?).map fun v => (some v, a.1 + 1, a.2)

/-- Every call a vector allows, with the answer and effect of the ideal list. -/
def vectorCan (o : Vec.Op α) (a : Nat × List α) (r : Except Err (Vec.Out α)) (b : Nat × List α) : Prop :=
  r = (VecSpec.step o a.2).1 ∧ b = (a.1, (VecSpec.step o a.2).2)

/-! ### deque: the values behind and ahead (`DequeSpec.Walk`) -/

/-- The first of the values ahead. -/
def dequeMove : DequeSpec.Walk α → Option (Option α × DequeSpec.Walk α)
  | ⟨_, []⟩ => none
  | ⟨b, v :: a⟩ => some (some v, ⟨b ++ [v], a⟩)

/-- The walk survives the call, and the answer is that of the ideal sequence. -/
def dequeCan (limit : Nat) (o : Deque.Op α) (w : DequeSpec.Walk α) (r : Except Err (Deque.Out α)) (w' : DequeSpec.Walk α) :
    Prop := r = (DequeSpec.step o w.all).1 ∧ DequeSpec.Walk.call limit o w = some w'

/-! ### heap: the next entry and the contents -/

section Heap
variable {K V : Type} [BEq K] [BEq V]

/-- Entry by entry, as long as the number of the entry is below the number of live entries; only live ones are handed
out. -/
def heapMove (a : Nat × HeapSpec.Abs K V) : Option (Option Int × Nat × HeapSpec.Abs K V) :=
  if a.1 < a.2.live.length then
    some (if (a.1 : Int) ∈ a.2.live then some (a.1 : Int) else none, a.1 + 1, a.2)
  else none

/-- The answers an ideal heap may give, and its contents afterwards. -/
def heapCan (o : Heap.Op K V) (a : Nat × HeapSpec.Abs K V) (r : Except Err (Heap.Out K V)) (b : Nat × HeapSpec.Abs K V) :
    Prop := HeapSpec.Ok o r a.2 ∧ b = (a.1, HeapSpec.after o a.2)

end Heap
/-! ### indexed map: the entries still to come and the contents -/

section Index
open Verif.Index
variable {K V : Type} [Inhabited K] [Inhabited V]

/-- What a walk hands out of a row. -/
def handsOut : Kind → IndexSpec.Row K V → Out K V
  | .entries, r => .int r.entry
  | .keys, r => .key r.key
  | .values, r => .val r.val

/-- Entry by entry; what an entry then holds is handed out, and an entry that is gone is passed over. -/
def indexMove (k : Kind) : List Int × IndexSpec.Abs K V → Option (Option (Out K V) × List Int × IndexSpec.Abs K V)
  | ([], _) => none
  | (e :: rest, a) => some ((a.rows.find? fun r => r.entry = e).map (handsOut k), rest, a)

/-- The calls that may be made: they respect `Guard`, and `KeepsNext` for the first entry to come that is still there. -/
def indexMay (o : Op K V) (a : List Int × IndexSpec.Abs K V) : Prop :=
  IndexSpec.Guard o a.2 ∧ IndexSpec.KeepsNext (a.1.find? fun e => e ∈ a.2.live) o a.2

/-- The answers an ideal indexed map may give, and its contents afterwards. -/
def indexCan (o : Op K V) (a : List Int × IndexSpec.Abs K V) (r : Except Err (Out K V)) (b : List Int × IndexSpec.Abs K V) :
    Prop := IndexSpec.Ok o r a.2 ∧ b = (a.1, IndexSpec.after o r a.2)

end Index
end Verif.ScriptSpec

import Verif.Model.Walk
/-! What it means to hand out a list to a consumer. -/
namespace Verif.WalkSpec
variable {σ O α β : Type}

/-- Handing the values `l` to the consumer `c`, one by one; the first exception ends it. -/
def feed (c : α → JM σ β) : List α → JM σ (List β)
  | [] => pure []
  | x :: l => do
    let r ← c x
    let rs ← feed c l
    pure (r :: rs)

/-- The walk `w`, given the consumer `c` in state `u`, hands out exactly `l`: the consumer ends in the state, and the
walk with the result or exception, that handing out `l` gives, and the collection is as it was. -/
def HandsOut (w : JM (Beside σ O) (List β)) (s : O) (c : α → JM σ β) (l : List α) : Prop :=
  ∀ u, w ⟨s, u⟩ = match feed c l u with
    | .ok rs u' => .ok rs ⟨s, u'⟩
    | .err e u' => .err e ⟨s, u'⟩

end Verif.WalkSpec

import Verif.Trace
/-! The vocabulary of C105: a call that left no trace. -/
namespace Verif

/-- The call `o` on the object `s` left no trace: whatever calls follow, they return or throw what they would have
returned or thrown had `o` not been called. -/
def NoTrace {σ op β : Type} (step : op → JM σ β) (s : σ) (o : op) : Prop :=
  ∀ os, (runM step s (o :: os)).1 = (step o s).out :: (runM step s os).1

end Verif

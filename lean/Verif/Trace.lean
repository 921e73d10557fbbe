import Verif.Java
/-!
Histories: running a list of API calls on a model, and on an abstract specification, and the
generic refinement argument.  Nothing here models a particular method of `/repo`.
-/
namespace Verif

/-- Run a list of calls on an object; the results are the returned values or exceptions.  After an
exception the history continues with the state the call left behind. -/
def runM {σ op β : Type} (step : op → JM σ β) : σ → List op → List (Except Err β) × σ
  | s, [] => ([], s)
  | s, o :: os =>
    let r := step o s
    let rest := runM step r.state os
    (r.out :: rest.1, rest.2)

/-- Run a list of calls on an abstract specification state. -/
def runS {S op β : Type} (step : op → S → Except Err β × S) : S → List op → List (Except Err β) × S
  | a, [] => ([], a)
  | a, o :: os =>
    let r := step o a
    let rest := runS step r.2 os
    (r.1 :: rest.1, rest.2)

/-- Every call of the history is allowed (by `G`) in the specification state it meets. -/
def Allowed {S op β : Type} (step : op → S → Except Err β × S) (G : op → S → Prop) :
    S → List op → Prop
  | _, [] => True
  | a, o :: os => G o a ∧ Allowed step G (step o a).2 os

theorem runM_refines {σ S op β : Type} {step : op → JM σ β} {spec : op → S → Except Err β × S}
    {Inv : σ → S → Prop} {G : op → S → Prop}
    (H : ∀ s a o, Inv s a → G o a →
      (step o s).out = (spec o a).1 ∧ Inv (step o s).state (spec o a).2) :
    ∀ (os : List op) (s : σ) (a : S), Inv s a → Allowed spec G a os →
      (runM step s os).1 = (runS spec a os).1 ∧ Inv (runM step s os).2 (runS spec a os).2
  | [], s, a, h, _ => ⟨rfl, h⟩
  | o :: os, s, a, h, hg => by
    obtain ⟨h1, h2⟩ := H s a o h hg.1
    obtain ⟨h3, h4⟩ := runM_refines H os _ _ h2 hg.2
    exact ⟨by simp only [runM, runS, h1, h3], h4⟩

theorem runM_append {σ op β : Type} (step : op → JM σ β) (s : σ) (os ps : List op) :
    runM step s (os ++ ps) =
      ((runM step s os).1 ++ (runM step (runM step s os).2 ps).1,
        (runM step (runM step s os).2 ps).2) := by
  induction os generalizing s with
  | nil => simp [runM]
  | cons o os ih => simp [runM, ih]

theorem runS_append {S op β : Type} (step : op → S → Except Err β × S) (s : S) (os ps : List op) :
    runS step s (os ++ ps) =
      ((runS step s os).1 ++ (runS step (runS step s os).2 ps).1,
        (runS step (runS step s os).2 ps).2) := by
  induction os generalizing s with
  | nil => simp [runS]
  | cons o os ih => simp [runS, ih]

theorem Allowed_append {S op β : Type} (step : op → S → Except Err β × S) (G : op → S → Prop)
    (s : S) (os ps : List op) :
    Allowed step G s (os ++ ps) ↔ Allowed step G s os ∧ Allowed step G (runS step s os).2 ps := by
  induction os generalizing s with
  | nil => simp [Allowed, runS]
  | cons o os ih => simp [Allowed, runS, ih, and_assoc]

end Verif

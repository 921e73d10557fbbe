import Verif.Model.CallbacksIndex
import Verif.Spec.IndexReach
/-! What the three `forEach` methods of the indexed collections should do when the consumer calls back. -/
namespace Verif.IndexSpec
open Verif.Index
variable {K V : Type} [Inhabited K] [Inhabited V]

/-- The call leaves the entries alone that were not handed out yet (`es` were), except for their values: it adds
no new key, takes out no entry but one of `es`, and does not clear or change the hash or equality function. -/
def Tame (es : List Int) : Op K V → Abs K V → Prop
  | .add k, a | .put k _, a => (a.find k).isSome
  | .remove k, a => ∀ r, a.find k = some r → r.entry ∈ es
  | .removeAt e, a => e ∈ a.live → e ∈ es
  | .removeAtAndReserve e, _ => e ∈ es
  | .clear, _ | .setHashMethod _, _ | .setEqMethod _, _ => False
  | _, _ => True

/-- Every call respects `Guard` and `Tame`. -/
def Tames (es : List Int) : Abs K V → Index K V → List (Op K V) → Prop
  | _, _, [] => True
  | a, s, o :: os => (Guard o a ∧ Tame es o a) ∧ Tames es (after o (step o s).out a) (step o s).state os

/-- The walk over the entries `rest`, when `es` were visited and `seen` handed out before: at each entry the
consumer is handed what the entry then has, and its calls are made.  At the end `out` was handed out and the
collection is `t`, with contents `c`. -/
inductive Visits (k : Kind) (f : Consumer (Out K V) (Op K V)) :
    List Int → List (Out K V) → Index K V → Abs K V → List Int → List (Out K V) → Index K V → Abs K V → Prop
  | done {es : List Int} {seen : List (Out K V)} {s : Index K V} {a : Abs K V} : Visits k f es seen s a [] seen s a
  | step {es : List Int} {seen : List (Out K V)} {s : Index K V} {a : Abs K V} {e : Int} {rest : List Int}
      {out : List (Out K V)} {t : Index K V} {c : Abs K V} {b : Out K V} :
      (match k with
        | .entries => b = .int e
        | .keys => result (.getKeyAt e) s = .ok b
        | .values => result (.getValueAt e) s = .ok b) →
      Tames (es ++ [e]) a s (f (seen ++ [b])) →
      Visits k f (es ++ [e]) (seen ++ [b]) (final s (f (seen ++ [b]))) (ideal a s (f (seen ++ [b]))) rest out t c →
      Visits k f es seen s a (e :: rest) out t c

/-- The call does not take out the entry that comes next, adds no new key and does not clear or change the hash or
equality function. -/
def KeepsNext (next : Option Int) : Op K V → Abs K V → Prop
  | .add k, a | .put k _, a => (a.find k).isSome
  | .remove k, a => ∀ r, a.find k = some r → next ≠ some r.entry
  | .removeAt e, _ | .removeAtAndReserve e, _ => next ≠ some e
  | .clear, _ | .setHashMethod _, _ | .setEqMethod _, _ => False
  | _, _ => True

/-- Every call respects `Guard` and `KeepsNext`. -/
def AllKeepNext (next : Option Int) : Abs K V → Index K V → List (Op K V) → Prop
  | _, _, [] => True
  | a, s, o :: os =>
    (Guard o a ∧ KeepsNext next o a) ∧ AllKeepNext next (after o (step o s).out a) (step o s).state os

/-- The walk over the entries `rest` when `seen` was handed out before: at each entry the consumer is handed what the
entry then has, and its calls are made; the entries that these took out are left out of the rest of the walk.  At
the end `out` was handed out and the collection is `t`, with contents `c`. -/
inductive Walks (k : Kind) (f : Consumer (Out K V) (Op K V)) :
    List (Out K V) → Index K V → Abs K V → List Int → List (Out K V) → Index K V → Abs K V → Prop
  | done {seen : List (Out K V)} {s : Index K V} {a : Abs K V} : Walks k f seen s a [] seen s a
  | step {seen : List (Out K V)} {s : Index K V} {a : Abs K V} {e : Int} {rest : List Int}
      {out : List (Out K V)} {t : Index K V} {c : Abs K V} {b : Out K V} :
      (match k with
        | .entries => b = .int e
        | .keys => result (.getKeyAt e) s = .ok b
        | .values => result (.getValueAt e) s = .ok b) →
      AllKeepNext rest.head? a s (f (seen ++ [b])) →
      Walks k f (seen ++ [b]) (final s (f (seen ++ [b]))) (ideal a s (f (seen ++ [b])))
        (rest.filter fun e => e ∈ (ideal a s (f (seen ++ [b]))).live) out t c →
      Walks k f seen s a (e :: rest) out t c

end Verif.IndexSpec

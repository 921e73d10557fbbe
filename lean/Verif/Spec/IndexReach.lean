import Verif.Spec.Index
import Verif.Model.Iterator
import Verif.Spec.Cursor
/-!
The vocabulary of the statements about the indexed collections: which collections a program can
get, and what a history of calls does to a key.
-/
namespace Verif.IndexSpec
open Verif.Index
variable {K V : Type} [Inhabited K] [Inhabited V]

/-- The ideal map after the entries in `l` satisfying `P` were removed in the order of `l`. -/
def Abs.removing (a : Abs K V) (P : Int → Bool) (l : List Int) : Abs K V :=
  { a with rows := a.rows.filter fun r => !(P r.entry), free := (l.filter P).reverse ++ a.free }

/-- The callback `e -> { if (P(e)) map.removeAt(e); }` (it also reports what it was given). -/
def removingCallback (P : Int → Bool) (e : Int) : JM (Index K V) Int := do
  JM.when (P e) (removeAt e)
  pure e

/-- `Reach exact s a`: a program that respects `Guard` can hold the collection `s`, and `a` is what
its calls (and their results) say the contents are.  If `exact` holds, all collections involved were
created with `capacity * loadFactor >= 1/2`. -/
inductive Reach : Prop → Index K V → Abs K V → Prop
  /-- construction, with any capacity, load factor and functions -/
  | new {exact : Prop} {hash : K → BitVec 32} {eq : K → K → Bool} {ic : Int} {num den : Nat}
      {s : Index K V} : Index.new hash eq ic num den = .ok s →
      (exact → (den : Int) ≤ 2 * nextPowerOf2 ic * num) → Reach exact s (empty hash eq)
  /-- one public call -/
  | call {exact : Prop} {s : Index K V} {a : Abs K V} (o : Op K V) : Reach exact s a → Guard o a →
      Reach exact (step o s).state (after o (step o s).out a)
  /-- `s.copyFrom(src)` -/
  | copy {exact exact' : Prop} {s src s' : Index K V} {a b : Abs K V} : Reach exact' s a →
      Reach exact src b → a.hash = b.hash → a.eq = b.eq → src.capacity < 2 ^ 29 →
      copyFrom src s = .ok () s' → Reach exact s' b
  /-- `forEachEntry` with a callback that removes some of the entries it is given -/
  | forEachRemoving {exact : Prop} {s s' : Index K V} {a : Abs K V} {P : Int → Bool} {l : List Int} :
      Reach exact s a → forEachWith (removingCallback P) s = .ok l s' →
      Reach exact s' (a.removing P l)
  /-- a full iteration with `EntryIterator` that removes some of the entries -/
  | iterate {exact : Prop} {s : Index K V} {t : Iterating K V} {a : Abs K V} {it : Iter}
      {P : Int → Bool} {fuel : Nat} {l : List Int} : Reach exact s a → s.size < fuel →
      (do Iterating.reset; Iterating.drive P fuel) ⟨s, it⟩ = .ok l t →
      Reach exact t.map (a.removing P l)
  /-- any sequence of at most 2^30 calls on a new `EntryIterator` -/
  | iterating {exact : Prop} {s : Index K V} {a : Abs K V} {l : List Int} (it : Iter)
      (ops : List Iterating.ItOp) : ops.length ≤ 1073741824 → Reach exact s a → (step .forEachEntry s).out = .ok (.ints l) →
      Reach exact (runM Iterating.itStep (Iterating.reset ⟨s, it⟩).state ops).2.map
        (runS Cursor.step ⟨.start, l, a⟩ ops).2.map

/-- Every call of the history respects `Guard`. -/
def Guarded : Abs K V → Index K V → List (Op K V) → Prop
  | _, _, [] => True
  | a, s, o :: os => Guard o a ∧ Guarded (after o (step o s).out a) (step o s).state os

/-- What the history and its results say the contents are. -/
def ideal : Abs K V → Index K V → List (Op K V) → Abs K V
  | a, _, [] => a
  | a, s, o :: os => ideal (after o (step o s).out a) (step o s).state os

/-- The collection after the history. -/
def final (s : Index K V) (ops : List (Op K V)) : Index K V := (runM step s ops).2

/-- What the call `o` on the collection `s` returns or throws. -/
abbrev result (o : Op K V) (s : Index K V) : Except Err (Out K V) := (step o s).out

/-- The key `k'` looks the same in two collections: present or absent, same entry, same value. -/
def SameFor (k' : K) (s t : Index K V) : Prop :=
  result (.containsKey k') s = result (.containsKey k') t ∧
  result (.lookupEntry k') s = result (.lookupEntry k') t ∧
  result (.get k') s = result (.get k') t

/-- The call adds the key `k` (or keeps it). -/
def Adds (eq : K → K → Bool) (k : K) : Op K V → Prop
  | .add k' | .put k' _ => eq k k' = true
  | _ => False

/-- The call, made on the collection `s`, takes the key `k` away. -/
def Drops (eq : K → K → Bool) (k : K) (s : Index K V) : Op K V → Prop
  | .remove k' => eq k k' = true
  | .removeAt e | .removeAtAndReserve e => (lookupEntry k s).out = .ok e
  | .clear => True
  | _ => False

/-- A call other than `setHashMethod` and `setEqMethod`. -/
def Plain : Op K V → Prop
  | .setHashMethod _ | .setEqMethod _ => False
  | _ => True

/-- `k` was added in the history `ops` and not taken away since. -/
def AddedAndKept (eq : K → K → Bool) (k : K) (s : Index K V) (ops : List (Op K V)) : Prop :=
  ∃ pre o post, ops = pre ++ o :: post ∧ Adds eq k o ∧
    ∀ p1 o' p2, post = p1 ++ o' :: p2 → ¬ Drops eq k (final s (pre ++ o :: p1)) o'

/-- The call does not remove the key `k`, which has entry `e`. -/
def Untouched (eq : K → K → Bool) (k : K) (e : Int) : Op K V → Prop
  | .remove k' => eq k k' = false
  | .removeAt e' | .removeAtAndReserve e' => e' ≠ e
  | .clear => False
  | _ => True

/-- The call does not set the value of the key `k`, which has entry `e`. -/
def Unwritten (eq : K → K → Bool) (k : K) (e : Int) : Op K V → Prop
  | .put k' _ => eq k k' = false
  | .putValueAt e' _ => e' ≠ e
  | _ => True

/-- The call neither frees the reserved entry `e` nor overwrites its value. -/
def Holding (e : Int) : Op K V → Prop
  | .freeReservedEntry e' => e' ≠ e
  | .putValueAt e' _ => e' ≠ e
  | .clear => False
  | _ => True

/-- The number of entries in use: associations and reserved entries. -/
def Abs.used (a : Abs K V) : Int := a.rows.length + a.reserved.length

/-- The largest number of entries in use at any moment of the history. -/
def peak : Abs K V → Index K V → List (Op K V) → Int
  | a, _, [] => a.used
  | a, s, o :: os => max a.used (peak (after o (step o s).out a) (step o s).state os)

/-- A call whose result an ideal map determines. -/
def Determined : Op K V → Abs K V → Prop
  | .removeAt e, a => e ∈ a.live
  | .getKeyAt e, a | .getValueAt e, a | .putValueAt e _, a => e ∈ a.live ∨ e ∈ a.held
  | .getValueAtOrDefault e _, a => e ∈ a.live ∨ e ∈ a.held ∨ e < 0
  | .capacity, _ | .forEach, _ | .forEachEntry, _ | .forEachValue, _ => False
  | _, _ => True

/-- Every call of the history respects `Guard` and has a result that an ideal map determines. -/
def AllDetermined : Abs K V → Index K V → List (Op K V) → Prop
  | _, _, [] => True
  | a, s, o :: os => (Guard o a ∧ Determined o a) ∧
      AllDetermined (after o (step o s).out a) (step o s).state os

/-- A call that neither takes a key nor changes the functions (and does not reserve an entry). -/
def Keyless : Op K V → Prop
  | .removeAt _ | .freeReservedEntry _ | .getKeyAt _ | .getValueAt _ | .getValueAtOrDefault _ _
  | .putValueAt _ _ | .size | .isEmpty | .capacity | .forEach | .forEachEntry | .forEachValue
  | .clear => True
  | _ => False

end Verif.IndexSpec

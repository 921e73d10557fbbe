import Verif.Model.Index
/-!
The ideal indexed map: a list of rows (entry, key, value), a list of reserved rows, the stack of
freed entries and the number of entries ever handed out.  It says nothing about hashing.

The specification is a monitor: `Ok` says which result of a call is right in an ideal state,
`after` what the ideal state is after the call (it may use the result: a specification cannot
predict which entry a table will choose; `OkExact` does predict it).
-/
namespace Verif.IndexSpec
open Verif.Index

/-- One association. -/
structure Row (K V : Type) where
  entry : Int
  key : K
  val : V

/-- The ideal indexed map. -/
structure Abs (K V : Type) where
  /-- the associations held -/
  rows : List (Row K V)
  /-- removed by `removeAtAndReserve` and not yet freed -/
  reserved : List (Row K V)
  /-- entries handed out before and now free, most recently freed first -/
  free : List Int
  /-- all entries handed out so far are below this -/
  next : Int
  hash : K → BitVec 32
  eq : K → K → Bool

variable {K V : Type} [Inhabited K] [Inhabited V]

/-- The empty map. -/
def empty (hash : K → BitVec 32) (eq : K → K → Bool) : Abs K V := ⟨[], [], [], 0, hash, eq⟩

namespace Abs
/-- The row of a key. -/
def find (a : Abs K V) (k : K) : Option (Row K V) := a.rows.find? fun r => a.eq k r.key

/-- The entries held. -/
def live (a : Abs K V) : List Int := a.rows.map (·.entry)

/-- The reserved entries. -/
def held (a : Abs K V) : List Int := a.reserved.map (·.entry)

/-- Replace the value at an entry. -/
def setVal (e : Int) (v : V) (l : List (Row K V)) : List (Row K V) :=
  l.map fun r => if r.entry = e then { r with val := v } else r

/-- Take an entry out of the associations. -/
def drop (a : Abs K V) (e : Int) : Abs K V := { a with rows := a.rows.filter fun r => r.entry ≠ e }

/-- A new association with the given entry. -/
def insert (a : Abs K V) (e : Int) (k : K) (v : V) : Abs K V :=
  { a with rows := ⟨e, k, v⟩ :: a.rows, free := a.free.filter (· ≠ e), next := max a.next (e + 1) }

end Abs

/-- The hash and equality functions fit together.  Equality need not be reflexive (NaN). -/
structure Coherent (hash : K → BitVec 32) (eq : K → K → Bool) : Prop where
  symm : ∀ a b, eq a b → eq b a
  trans : ∀ a b c, eq a b → eq b c → eq a c
  hash : ∀ a b, eq a b → hash a &&& 0x7fffffff#32 = hash b &&& 0x7fffffff#32

/-- What a caller has to respect: the functions are coherent when a key is added, the table is not
full (2^29 - 29 entries in use), only live entries (with a key equal to itself) are reserved and
only reserved ones freed. -/
def Guard : Op K V → Abs K V → Prop
  | .add _, a | .put _ _, a =>
      Coherent a.hash a.eq ∧ (a.rows.length + a.reserved.length + 29 < 2 ^ 29)
  | .removeAtAndReserve e, a => ∃ r ∈ a.rows, r.entry = e ∧ a.eq r.key r.key
  | .freeReservedEntry e, a => e ∈ a.held
  | _, _ => True

/-- The ideal state after a call that gave the result `out`. -/
def after : Op K V → Except Err (Out K V) → Abs K V → Abs K V
  | .add k, out, a =>
    match a.find k, out with
    | none, .ok (.int e) => a.insert e k default
    | _, _ => a
  | .put k v, out, a =>
    match a.find k, out with
    | none, .ok (.int e) => a.insert e k v
    | some r, _ => { a with rows := Abs.setVal r.entry v a.rows }
    | _, _ => a
  | .remove k, _, a =>
    match a.find k with
    | none => a
    | some r => { a.drop r.entry with free := r.entry :: a.free }
  | .removeAt e, _, a =>
    if e ∈ a.live then { a.drop e with free := e :: a.free } else a
  | .removeAtAndReserve e, _, a =>
    { a.drop e with reserved := (a.rows.filter fun r => r.entry = e) ++ a.reserved }
  | .freeReservedEntry e, _, a =>
    { a with reserved := a.reserved.filter (fun r => r.entry ≠ e), free := e :: a.free }
  | .putValueAt e v, _, a =>
    { a with rows := Abs.setVal e v a.rows, reserved := Abs.setVal e v a.reserved }
  | .clear, _, a => { a with rows := [], reserved := [], free := [], next := 0 }
  | .setHashMethod h, _, a => if a.rows = [] then { a with hash := h } else a
  | .setEqMethod q, _, a => if a.rows = [] then { a with eq := q } else a
  | _, _, a => a

/-- A new entry: not in use, and not negative. -/
def Fresh (a : Abs K V) (e : Int) : Prop := 0 ≤ e ∧ e ∉ a.live ∧ e ∉ a.held

/-- Which result of a call is right. -/
def Ok : Op K V → Except Err (Out K V) → Abs K V → Prop
  | .add k, out, a | .put k _, out, a =>
    match a.find k with
    | some r => out = .ok (.int r.entry)
    | none => ∃ e, out = .ok (.int e) ∧ Fresh a e
  | .lookupEntry k, out, a =>
    match a.find k with
    | some r => out = .ok (.int r.entry)
    | none => out = .ok (.int (-1))
  | .containsKey k, out, a => out = .ok (.bool (a.find k).isSome)
  | .get k, out, a =>
    match a.find k with
    | some r => out = .ok (.val r.val)
    | none => out = .error .keyNotFound
  | .getOrDefault k d, out, a =>
    match a.find k with
    | some r => out = .ok (.val r.val)
    | none => out = .ok (.val d)
  | .remove k, out, a =>
    match a.find k with
    | some r => out = .ok (.int r.entry)
    | none => out = .ok (.int (-1))
  | .removeAt e, out, a =>
    out = .ok .unit ∨ (e ∉ a.live ∧ out = .error .indexOutOfBounds)
  | .removeAtAndReserve _, out, _ => out = .ok .unit
  | .freeReservedEntry _, out, _ => out = .ok .unit
  | .getKeyAt e, out, a => ∀ r, r ∈ a.rows ∨ r ∈ a.reserved → r.entry = e → out = .ok (.key r.key)
  | .getValueAt e, out, a => ∀ r, r ∈ a.rows ∨ r ∈ a.reserved → r.entry = e → out = .ok (.val r.val)
  | .getValueAtOrDefault e d, out, a =>
    (∀ r, r ∈ a.rows ∨ r ∈ a.reserved → r.entry = e → out = .ok (.val r.val)) ∧
    (e < 0 → out = .ok (.val d))
  | .putValueAt e _, out, a => e ∈ a.live ∨ e ∈ a.held → out = .ok .unit
  | .size, out, a => out = .ok (.int a.rows.length)
  | .isEmpty, out, a => out = .ok (.bool a.rows.isEmpty)
  | .capacity, out, a => ∃ c, out = .ok (.int c) ∧ a.rows.length ≤ c
  | .forEach, out, a => ∃ l, out = .ok (.keys l) ∧ l.Perm (a.rows.map (·.key))
  | .forEachEntry, out, a => ∃ l, out = .ok (.ints l) ∧ l.Perm a.live
  | .forEachValue, out, a => ∃ l, out = .ok (.vals l) ∧ l.Perm (a.rows.map (·.val))
  | .clear, out, _ => out = .ok .unit
  | .setHashMethod _, out, a | .setEqMethod _, out, a =>
    out = if a.rows = [] then .ok .unit else .error .illegalState

/-- The entry an exact allocator hands out next: the most recently freed one, else the next integer. -/
def Abs.alloc (a : Abs K V) : Int :=
  match a.free with
  | e :: _ => e
  | [] => a.next

/-- A new key gets exactly the entry `alloc`. -/
def Exact : Op K V → Except Err (Out K V) → Abs K V → Prop
  | .add k, out, a | .put k _, out, a => a.find k = none → out = .ok (.int a.alloc)
  | _, _, _ => True

/-- `Ok`, and a new key gets exactly the entry `alloc`. -/
def OkExact (o : Op K V) (out : Except Err (Out K V)) (a : Abs K V) : Prop := Ok o out a ∧ Exact o out a

/-- The results of a history are those of an ideal map (as long as the caller respects `Guard`). -/
def Legal (ok : Op K V → Except Err (Out K V) → Abs K V → Prop) :
    Abs K V → List (Op K V) → List (Except Err (Out K V)) → Prop
  | _, [], [] => True
  | a, o :: os, r :: rs => Guard o a → ok o r a ∧ Legal ok (after o r a) os rs
  | _, _, _ => False

end Verif.IndexSpec

import Verif.Model.Bi
/-!
The ideal two-sided collection: the associations held, most recently put first, with the entry each
was given.  Everything the API can show is a function of that list.

`Ok` says which result of a call is right in an ideal state and `after` what the ideal state is
after the call.  `Guard` is what a caller has to respect.
-/
namespace Verif.BiSpec
open Verif.Bi

/-- One association and its entry. -/
structure Assoc where
  entry : Int
  left : Int
  right : Int
  deriving DecidableEq

/-- The key of an association on one side. -/
def Assoc.key : Dir → Assoc → Int
  | .left, a => a.left
  | .right, a => a.right

/-- What an iterator of one side hands out for an association: its entry, or the key on the other
side. -/
def Assoc.show : Dir → Kind → Assoc → Int
  | _, .entry, a => a.entry
  | .left, .value, a => a.right
  | .right, .value, a => a.left

/-- An iterator: the key it was set to and the entries it has still to hand out (`none`: unknown,
because the entry it was to hand out next was removed, or because it could not be set). -/
structure Cursor where
  key : Int
  rest : Option (List Int)

/-- The ideal collection. -/
structure Ideal where
  /-- the associations held, most recent first -/
  assocs : List Assoc
  /-- removed by `removeAtAndReserve` and not yet freed -/
  reserved : List Assoc
  /-- entries handed out before and now free, most recently freed first -/
  free : List Int
  /-- all entries handed out so far are below this -/
  next : Int
  /-- How far the chains of a side reach: at first the initial mapping capacity, later also every
  entry that was put onto a key that already had associations.  A key whose only association has
  an entry from here on cannot be relied on (see `Covered`). -/
  room : Dir → Int
  /-- How far the keys of a side reach: the initial number of keys, later every key put. -/
  span : Dir → Int
  /-- whether counts are tracked -/
  counted : Bool
  /-- whether there is a right side (`CompactManyToMany`) -/
  many : Bool
  /-- the key the mapping object of a side is set to -/
  key : Dir → Int
  cursor : Dir → Kind → Cursor

/-- A new collection. -/
def start (many : Bool) (initialLefts initialRights initialMappingCapacity : Int)
    (includeCounts : Bool) : Ideal :=
  { assocs := [], reserved := [], free := [], next := 0
    room := fun _ => initialMappingCapacity
    span := fun d => match d with | .left => initialLefts | .right => initialRights
    counted := includeCounts, many := many, key := fun _ => -1
    cursor := fun _ _ => ⟨0, none⟩ }

namespace Ideal

/-- The side exists. -/
def has (i : Ideal) : Dir → Prop
  | .left => True
  | .right => i.many = true

/-- The associations of a key of a side, most recent first. -/
def of (i : Ideal) (d : Dir) (k : Int) : List Assoc := i.assocs.filter fun a => a.key d = k

/-- The entries of a key. -/
def entriesOf (i : Ideal) (d : Dir) (k : Int) : List Int := (i.of d k).map (·.entry)

/-- What iterating a key hands out. -/
def listOf (i : Ideal) (d : Dir) (kind : Kind) (k : Int) : List Int := (i.of d k).map (Assoc.show d kind)

/-- The association of a pair of keys. -/
def find (i : Ideal) (l r : Int) : Option Assoc := i.assocs.find? fun a => a.left = l ∧ a.right = r

/-- The entries held. -/
def live (i : Ideal) : List Int := i.assocs.map (·.entry)

/-- The reserved entries. -/
def held (i : Ideal) : List Int := i.reserved.map (·.entry)

/-- The entry the next new association gets: the most recently freed one, else the next integer. -/
def alloc (i : Ideal) : Int :=
  match i.free with
  | e :: _ => e
  | [] => i.next

/-- If the key has exactly one association, the entry of that one is within `room`. -/
def Covered (i : Ideal) (d : Dir) (k : Int) : Prop :=
  ∀ e, i.entriesOf d k = [e] → e < i.room d

/-- What removing an entry does to an iterator. -/
def Cursor.drop (e : Int) (c : Cursor) : Cursor :=
  { c with rest := match c.rest with
      | some (x :: l) => if x = e then none else some (x :: l.filter (· ≠ e))
      | o => o }

/-- Take an entry out of the associations. -/
def drop (i : Ideal) (e : Int) : Ideal :=
  { i with assocs := i.assocs.filter fun a => a.entry ≠ e
           cursor := fun d k => Cursor.drop e (i.cursor d k) }

/-- A new association. -/
def insert (i : Ideal) (e l r : Int) : Ideal :=
  { i with
    assocs := ⟨e, l, r⟩ :: i.assocs
    free := i.free.filter (· ≠ e)
    next := max i.next (e + 1)
    room := fun d => if i.of d (Assoc.key d ⟨e, l, r⟩) = [] then i.room d else max (i.room d) (e + 1)
    span := fun d => max (i.span d) (Assoc.key d ⟨e, l, r⟩ + 1) }

/-- Set an iterator. -/
def setCursor (i : Ideal) (d : Dir) (k : Kind) (c : Cursor) : Ideal :=
  { i with cursor := fun d' k' => if d' = d ∧ k' = k then c else i.cursor d' k' }

/-- A new association of a key with the entry `e` does not go beyond what the side can link. -/
def Linkable (i : Ideal) (d : Dir) (k e : Int) : Prop :=
  ∀ x, i.entriesOf d k = [x] → x < max (i.room d) (e + 1)

end Ideal

/-- A Java `int`. -/
def IsInt (k : Int) : Prop := -2147483648 ≤ k ∧ k ≤ 2147483647

/-- The entry may be taken out on both sides. -/
def Removable (i : Ideal) (a : Assoc) : Prop := ∀ d, i.has d → i.Covered d (a.key d)

/-- What a caller has to respect:
* keys are Java `int`s, and the keys of new associations are array offsets (0 to 2^30 - 1);
* there are less than 2^29 - 29 associations;
* only held entries are removed by entry, only reserved ones are freed;
* associations are only added to and removed from keys that the chains still reach
  (`Linkable`, `Covered`; `Small` below is a simple sufficient condition);
* the right side is only used on a `CompactManyToMany`; an iterator is not asked any more after the
  entry it was about to hand out was removed. -/
def Guard : Op → Ideal → Prop
  | .put l r, i => IsInt l ∧ IsInt r ∧ (i.find l r = none →
      (∀ d, i.has d → 0 ≤ Assoc.key d ⟨0, l, r⟩ ∧ Assoc.key d ⟨0, l, r⟩ < 2 ^ 30 ∧
        i.Linkable d (Assoc.key d ⟨0, l, r⟩) i.alloc) ∧
      i.assocs.length + i.reserved.length + 29 < 2 ^ 29)
  | .remove l r, i => IsInt l ∧ IsInt r ∧ ∀ a, i.find l r = some a → Removable i a
  | .removeAt e, i | .removeAtAndReserve e, i => ∃ a ∈ i.assocs, a.entry = e ∧ Removable i a
  | .freeReservedEntry e, i => e ∈ i.held
  | .contains l r, _ | .lookupEntry l r, _ => IsInt l ∧ IsInt r
  | .withKey d _, i | .count d, i | .forEachOf d _, i | .iterator d _, i | .iterReset d _, i => i.has d
  | .hasNext d k, i | .next d k, i => i.has d ∧ (i.cursor d k).rest ≠ none
  | _, _ => True

/-- The ideal state after a call that gave the result `out`. -/
def after : Op → Except Err Out → Ideal → Ideal
  | .put l r, out, i =>
    match i.find l r, out with
    | none, .ok (.int e) => i.insert e l r
    | _, _ => i
  | .remove l r, _, i =>
    match i.find l r with
    | none => i
    | some a => { i.drop a.entry with free := a.entry :: i.free }
  | .removeAt e, _, i => { i.drop e with free := e :: i.free }
  | .removeAtAndReserve e, _, i =>
    { i.drop e with reserved := (i.assocs.filter fun a => a.entry = e) ++ i.reserved }
  | .freeReservedEntry e, _, i =>
    { i with reserved := i.reserved.filter (fun a => a.entry ≠ e), free := e :: i.free }
  | .withKey d key, _, i => { i with key := fun d' => if d' = d then key else i.key d' }
  | .forEachOf d k, out, i =>
    i.setCursor d k ⟨i.key d, match out with | .ok _ => some [] | .error _ => none⟩
  | .iterator d k, out, i =>
    i.setCursor d k ⟨i.key d, match out with | .ok _ => some (i.entriesOf d (i.key d)) | .error _ => none⟩
  | .iterReset d k, out, i =>
    i.setCursor d k ⟨(i.cursor d k).key,
      match out with | .ok _ => some (i.entriesOf d (i.cursor d k).key) | .error _ => none⟩
  | .next d k, out, i =>
    match (i.cursor d k).rest, out with
    | some (_ :: l), .ok _ => i.setCursor d k ⟨(i.cursor d k).key, some l⟩
    | _, _ => i
  | _, _, i => i

/-- The call sets or moves the iterator `k` of side `d`. -/
def Moves (d : Dir) (k : Kind) : Op → Prop
  | .forEachOf d' k' | .iterator d' k' | .iterReset d' k' | .next d' k' => d' = d ∧ k' = k
  | _ => False

/-- Setting an iterator to a key: an entry iterator can always be set, a value iterator to every key
in `span`, to no negative key, and possibly to other keys. -/
def SetOk (i : Ideal) (d : Dir) (k : Kind) (key : Int) (good : Except Err Out) (out : Except Err Out) :
    Prop :=
  match k with
  | .entry => out = good
  | .value =>
    (0 ≤ key → key < i.span d → out = good) ∧ (key < 0 → out = .error .indexOutOfBounds) ∧
    (out = good ∨ out = .error .indexOutOfBounds)

/-- Which result of a call is right. -/
def Ok : Op → Except Err Out → Ideal → Prop
  | .put l r, out, i =>
    match i.find l r with
    | some a => out = .ok (.int a.entry)
    | none => out = .ok (.int i.alloc)
  | .remove l r, out, i | .lookupEntry l r, out, i =>
    match i.find l r with
    | some a => out = .ok (.int a.entry)
    | none => out = .ok (.int (-1))
  | .removeAt e, out, _ => out = .ok (.int e)
  | .removeAtAndReserve _, out, _ | .freeReservedEntry _, out, _ | .withKey _ _, out, _ =>
    out = .ok .unit
  | .contains l r, out, i => out = .ok (.bool (i.find l r).isSome)
  | .size, out, i => out = .ok (.int i.assocs.length)
  | .getLeftAt e, out, i => ∀ a, a ∈ i.assocs ∨ a ∈ i.reserved → a.entry = e → out = .ok (.int a.left)
  | .getRightAt e, out, i => ∀ a, a ∈ i.assocs ∨ a ∈ i.reserved → a.entry = e → out = .ok (.int a.right)
  | .forEachEntry, out, i => ∃ l, out = .ok (.ints l) ∧ l.Perm i.live
  | .count d, out, i =>
    out = if i.counted = false then .error .illegalState
      else if i.key d < 0 then .error .indexOutOfBounds
      else .ok (.int (i.of d (i.key d)).length)
  | .forEachOf d k, out, i =>
    (i.Covered d (i.key d) → SetOk i d k (i.key d) (.ok (.ints (i.listOf d k (i.key d)))) out) ∧
    (out = .ok (.ints (i.listOf d k (i.key d))) ∨ out = .error .indexOutOfBounds)
  | .iterator d k, out, i => SetOk i d k (i.key d) (.ok .unit) out
  | .iterReset d k, out, i => SetOk i d k (i.cursor d k).key (.ok .unit) out
  | .hasNext d k, out, i => ∀ l, (i.cursor d k).rest = some l → out = .ok (.bool (!l.isEmpty))
  | .next d k, out, i =>
    match (i.cursor d k).rest with
    | some (e :: _) =>
      ∃ a ∈ i.assocs, a.entry = e ∧ a.key d = (i.cursor d k).key ∧
        (i.Covered d (i.cursor d k).key → out = .ok (.int (a.show d k))) ∧
        (out = .ok (.int (a.show d k)) ∨ out = .error .indexOutOfBounds)
    | _ => out = .error .indexOutOfBounds

/-- A collection a program can get by construction and calls that respect `Guard`; `i` is what the
calls and their results say the contents are. -/
inductive Reach : Bi → Ideal → Prop
  | new {many : Bool} {il ir ic : Int} {counts : Bool} {s : Bi} : Bi.new many il ir ic counts = .ok s →
      Reach s (start many il ir ic counts)
  | call {s : Bi} {i : Ideal} (o : Op) : Reach s i → Guard o i →
      Reach (step o s).state (after o (step o s).out i)

/-- The results of a history are those of an ideal collection (as long as the caller respects
`Guard`). -/
def Legal : Ideal → List Op → List (Except Err Out) → Prop
  | _, [], [] => True
  | i, o :: os, r :: rs => Guard o i → Ok o r i ∧ Legal (after o r i) os rs
  | _, _, _ => False

/-! ### Collections that stay within their initial capacity

A caller that never has more than `initialMappingCapacity` associations held or reserved at once
need not know anything about `room`. -/

/-- What such a caller has to respect. -/
def Small (cap : Int) : Op → Ideal → Prop
  | .put l r, i => IsInt l ∧ IsInt r ∧ (i.find l r = none →
      (∀ d, i.has d → 0 ≤ Assoc.key d ⟨0, l, r⟩ ∧ Assoc.key d ⟨0, l, r⟩ < 2 ^ 30) ∧
      (i.assocs.length : Int) + i.reserved.length < cap ∧
      i.assocs.length + i.reserved.length + 29 < 2 ^ 29)
  | .remove l r, _ => IsInt l ∧ IsInt r
  | .removeAt e, i | .removeAtAndReserve e, i => e ∈ i.live
  | o, i => Guard o i

/-- Which result is right for such a caller: as `Ok`, and walks do not throw. -/
def Exact : Op → Except Err Out → Ideal → Prop
  | .forEachOf d k, out, i => SetOk i d k (i.key d) (.ok (.ints (i.listOf d k (i.key d)))) out
  | .next d k, out, i =>
    match (i.cursor d k).rest with
    | some (e :: _) =>
      ∃ a ∈ i.assocs, a.entry = e ∧ a.key d = (i.cursor d k).key ∧ out = .ok (.int (a.show d k))
    | _ => out = .error .indexOutOfBounds
  | o, out, i => Ok o out i

/-- The collections such a caller can get. -/
inductive Calm (cap : Int) : Bi → Ideal → Prop
  | new {many : Bool} {il ir : Int} {counts : Bool} {s : Bi} : Bi.new many il ir cap counts = .ok s →
      Calm cap s (start many il ir cap counts)
  | call {s : Bi} {i : Ideal} (o : Op) : Calm cap s i → Small cap o i →
      Calm cap (step o s).state (after o (step o s).out i)

/-- The results of a history of such a caller. -/
def LegalSmall (cap : Int) : Ideal → List Op → List (Except Err Out) → Prop
  | _, [], [] => True
  | i, o :: os, r :: rs => Small cap o i → Exact o r i ∧ LegalSmall cap (after o r i) os rs
  | _, _, _ => False

end Verif.BiSpec

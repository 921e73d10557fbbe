import Verif.Model.IndexEff
/-! The vocabulary of C106 and C107: which questions a call asks the hash and equality functions. -/
namespace Verif.IndexEffSpec
open Verif.Index Verif.IndexEff
variable {σ K V : Type} [Inhabited K] [Inhabited V]

/-- A call of one of the functions. -/
inductive Ask (K : Type)
  | hash (k : K) | eq (a b : K)
  deriving DecidableEq

/-- The calls `l`, one after the other, up to the first that throws. -/
def askAll (eff : Effects σ K) (h : K → BitVec 32) (q : K → K → Bool) : List (Ask K) → JM σ Unit
  | [] => pure ()
  | .hash k :: l => do let _ ← eff.hash h k; askAll eff h q l
  | .eq a b :: l => do let _ ← eff.eq q a b; askAll eff h q l

/-- The functions throw, or return what they should; they may have any other effect outside the collection. -/
structure Honest (eff : Effects σ K) : Prop where
  hash : ∀ f k u r u', eff.hash f k u = .ok r u' → r = f k
  eq : ∀ f a b u r u', eff.eq f a b u = .ok r u' → r = f a b

/-- The beginning of the list up to and including the first element that satisfies `p`. -/
def upto {α : Type} (p : α → Bool) : List α → List α
  | [] => []
  | x :: l => if p x then [x] else x :: upto p l

/-- The keys of the collection, as `forEach` hands them out. -/
def keysOf (s : Index K V) : List K :=
  match (Index.step .forEach s).out with
  | .ok (.keys l) => l
  | _ => []

/-- The keys in `k`'s bucket: with `n` buckets, those whose hash has the same remainder modulo `n`, the sign bit
ignored. -/
def bucket (s : Index K V) (k : K) : List K :=
  (keysOf s).filter fun k' => headOf s.hashFunc s.heads.len k' = headOf s.hashFunc s.heads.len k

/-- A search for `k`: one hash, then comparisons with the keys of its bucket until one is equal. -/
def search (s : Index K V) (k : K) : List (Ask K) :=
  .hash k :: (upto (s.equalFunc k) (bucket s k)).map (.eq k)

/-- The questions a call asks before it changes anything. -/
def asked (s : Index K V) : Op K V → List (Ask K)
  | .add k | .put k _ | .lookupEntry k | .containsKey k | .get k | .getOrDefault k _ | .remove k => search s k
  | .removeAtAndReserve e => search s (s.keys.get e)
  | _ => []

/-- The call adds a new key and the collection grows: the entry handed out reaches `capacity * loadFactor`. -/
def Grows (s : Index K V) (k : K) (r : Except Err (Out K V)) : Prop :=
  (Index.step (.containsKey k) s).out = .ok (.bool false) ∧ ∃ e, r = .ok (.int e) ∧ s.capThreshold ≤ e

open Classical in
/-- The questions a call asks while the collection grows: the hash of every key, and once more that of the new key. -/
noncomputable def askedGrowing (s : Index K V) : Op K V → List (Ask K)
  | .add k => if Grows s k (Index.step (.add k) s).out then (keysOf s).map .hash ++ [.hash k] else []
  | .put k v => if Grows s k (Index.step (.put k v) s).out then (keysOf s).map .hash ++ [.hash k] else []
  | _ => []

/-- Counts the calls of the hash function, and those of the equality function. -/
def counting : Effects (Nat × Nat) K where
  hash f k := ⟨fun u => .ok (f k) (u.1 + 1, u.2)⟩
  eq f a b := ⟨fun u => .ok (f a b) (u.1, u.2 + 1)⟩

/-- How many of the questions are about hashes. -/
def hashes (l : List (Ask K)) : Nat := l.countP fun | .hash _ => true | .eq _ _ => false

/-- How many of the questions are comparisons. -/
def compares (l : List (Ask K)) : Nat := l.countP fun | .hash _ => false | .eq _ _ => true

/-- How often a call hashes a key, when the collection does not grow. -/
def hashesPerCall : Op K V → Nat
  | .add _ | .put _ _ | .lookupEntry _ | .containsKey _ | .get _ | .getOrDefault _ _ | .remove _
  | .removeAtAndReserve _ => 1
  | _ => 0

/-- The key was hashed once without an exception. -/
def Hashed (eff : Effects σ K) (f : K → BitVec 32) (k : K) : Prop := ∃ u u', eff.hash f k u = .ok (f k) u'

/-- A key that was hashed once can always be hashed; the equality function may throw as it likes. -/
def Steady (eff : Effects σ K) : Prop := ∀ f k, Hashed eff f k → ∀ u, ∃ u', eff.hash f k u = .ok (f k) u'

/-- All keys of the collection were hashed without an exception. -/
def AllHashed (eff : Effects σ K) (s : Index K V) : Prop := ∀ k ∈ keysOf s, Hashed eff s.hashFunc k

/-- The elements of a list at the places where `mask` says `true`. -/
def pick {α : Type} : List Bool → List α → List α
  | true :: m, x :: l => x :: pick m l
  | false :: m, _ :: l => pick m l
  | _, _ => []

end Verif.IndexEffSpec

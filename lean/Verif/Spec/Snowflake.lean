import Verif.Java
/-!
The ideal id generator: what each call returns, given the readings of the clock (in milliseconds since
the epoch) that are still to come.  Ids are integers: timestamp, node and sequence number, 42, 10 and 12 bits.
-/
namespace Verif.SnowflakeSpec

/-- An id. -/
def idOf (timestamp : Int) (node seq : Nat) : Int := timestamp * 4194304 + node * 4096 + seq

/-- The timestamp and sequence number of the last id (before the first: -1 and 0), and the readings to come. -/
structure Gen where
  last : Int
  seq : Nat
  readings : List Int

/-- One call: reads the clock; if it shows an earlier time than the last id, the call is refused; a later time
starts with sequence number 0; the same time takes the next sequence number, and if there is none, waits for
the first reading that is different.  A clock that gives no more readings blocks the caller for good. -/
def next (node : Nat) (g : Gen) : Except Err Int × Gen :=
  match g.readings with
  | [] => (.error .diverge, g)
  | t :: ts =>
    if t < g.last then (.error .illegalState, { g with readings := ts })
    else if g.last < t then (.ok (idOf t node 0), ⟨t, 0, ts⟩)
    else if g.seq < 4095 then (.ok (idOf t node (g.seq + 1)), ⟨t, g.seq + 1, ts⟩)
    else match ts.dropWhile (· = g.last) with
      | [] => (.error .diverge, { g with readings := [] })
      | r :: rs => (.ok (idOf r node 0), ⟨r, 0, rs⟩)

/-- `n` calls. -/
def nexts (node : Nat) : Nat → Gen → List (Except Err Int)
  | 0, _ => []
  | n + 1, g => (next node g).1 :: nexts node n (next node g).2

end Verif.SnowflakeSpec

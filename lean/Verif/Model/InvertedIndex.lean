import Verif.Model.Bi
import Verif.Model.Strings
/-!
Models the class `InvertedIndex` of
`examples/src/main/java/com/bytefacets/collections/bi/InvertedIndexExample.java`, the use the documentation
makes of `CompactOneToMany` together with two indexed sets.  Printing is left out; `iterate` returns the
list of what its consumer is given.
-/
namespace Verif

/-- InvertedIndexExample.java:33-37, the fields. -/
structure InvertedIndex where
  orders : Index (BitVec 64) Unit
  terms : Index (Option Convert.JString) Unit
  index : Bi

namespace InvertedIndex
open Verif.Convert

/-- InvertedIndexExample.java:33-37, the initialisers (default load factor 0.75). -/
def new : Except Err InvertedIndex := do
  let orders ← Index.new KeyTypes.longHash KeyTypes.longEq 128 3 4
  let terms ← Index.new Strings.stringHash Strings.stringEq 128 3 4
  let index ← Bi.new false 128 0 128 true
  pure ⟨orders, terms, index⟩

/-- A call on `orders`. -/
def onOrders {α : Type} (m : JM (Index (BitVec 64) Unit) α) : JM InvertedIndex α := ⟨fun s =>
  match m s.orders with
  | .ok a t => .ok a { s with orders := t }
  | .err e t => .err e { s with orders := t }⟩

/-- A call on `terms`. -/
def onTerms {α : Type} (m : JM (Index (Option JString) Unit) α) : JM InvertedIndex α := ⟨fun s =>
  match m s.terms with
  | .ok a t => .ok a { s with terms := t }
  | .err e t => .err e { s with terms := t }⟩

/-- A call on `index`. -/
def onIndex {α : Type} (m : JM Bi α) : JM InvertedIndex α := ⟨fun s =>
  match m s.index with
  | .ok a t => .ok a { s with index := t }
  | .err e t => .err e { s with index := t }⟩

/-- InvertedIndexExample.java:39-52 `add`. -/
def add (orderId : BitVec 64) (symbol strategy : Option JString) : JM InvertedIndex Unit := do
  let orderEntry ← onOrders (Index.add orderId)
  let symbolEntry ← onTerms (Index.add symbol)
  let strategyEntry ← onTerms (Index.add strategy)
  let _ ← onIndex (Bi.put symbolEntry orderEntry)
  let _ ← onIndex (Bi.put strategyEntry orderEntry)
  pure ()

/-- InvertedIndexExample.java:54-57 `count`. -/
def count (term : Option JString) : JM InvertedIndex Int := do
  let termEntry ← onTerms (Index.lookupEntry term)
  if termEntry ≠ -1 then do
    onIndex (Bi.withKey .left termEntry)
    onIndex (Bi.count .left)
  else pure 0

/-- InvertedIndexExample.java:66-70, the consumer for each of the entries. -/
def ordersAt : List Int → JM InvertedIndex (List (BitVec 64))
  | [] => pure []
  | e :: es => do
    let order ← onOrders (Index.getKeyAt e)
    let rest ← ordersAt es
    pure (order :: rest)

/-- InvertedIndexExample.java:59-72 `iterate`. -/
def iterate (term : Option JString) : JM InvertedIndex (List (BitVec 64)) := do
  let termEntry ← onTerms (Index.lookupEntry term)
  if termEntry ≠ -1 then do
    onIndex (Bi.withKey .left termEntry)
    let es ← onIndex (Bi.forEachOf .left .value)
    ordersAt es
  else pure []

/-- The calls. -/
inductive Call
  | add (orderId : BitVec 64) (symbol strategy : Option JString)
  | count (term : Option JString)
  | iterate (term : Option JString)

/-- What they return. -/
inductive Result
  | unit
  | int (n : Int)
  | orders (l : List (BitVec 64))
  deriving DecidableEq

/-- Dispatch of one call to its model. -/
def step : Call → JM InvertedIndex Result
  | .add o s t => do add o s t; pure .unit
  | .count t => do return .int (← count t)
  | .iterate t => do return .orders (← iterate t)

end InvertedIndex
end Verif

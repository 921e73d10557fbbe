import Verif.Model.Callbacks
import Verif.Model.Index
/-!
Models `forEachEntry` (hash/BaseHash.java), `forEach` (hash/BaseKeyIndex.ftl) and `forEachValue`
(hash/KeyValueIndexedMap.ftl) of the indexed collections with a consumer that calls back into the collection.
Consumers are as in `Verif.Model.Callbacks`.
-/
namespace Verif.Index
variable {K V : Type} [Inhabited K] [Inhabited V]

/-- Which of the three: what is handed to the consumer. -/
inductive Kind | entries | keys | values
  deriving DecidableEq

/-- What is handed out at an entry: BaseHash.java:105, BaseKeyIndex.ftl:54, KeyValueIndexedMap.ftl:119. -/
def handed : Kind → Int → JM (Index K V) (Out K V)
  | .entries, e => pure (.int e)
  | .keys, e => do return .key (← rd Index.keys e)
  | .values, e => do return .val (← rd Index.values e)

/-- The inner loop, BaseHash.java:102-107, BaseKeyIndex.ftl:51-56, KeyValueIndexedMap.ftl:116-121, for at most
`fuel` iterations; `seen` is what was handed out before, the result is all that was handed out. -/
def walkDo (k : Kind) (f : Consumer (Out K V) (Op K V)) :
    Nat → Int → List (Out K V) → JM (Index K V) (List (Out K V))
  | 0, _, _ => JM.throw .diverge
  | fuel + 1, e, seen =>
    if e ≥ 0 then do
      let next ← rd Index.nexts e
      let b ← handed k e
      callAll step (f (seen ++ [b]))
      walkDo k f fuel next (seen ++ [b])
    else pure seen

/-- The outer loop, BaseHash.java:101-108, BaseKeyIndex.ftl:50-57, KeyValueIndexedMap.ftl:115-122; `hits` is the
number of values handed out. -/
def scanDo (k : Kind) (f : Consumer (Out K V) (Op K V)) (expectedHits : Int) (inner : Nat) :
    Nat → Int → List (Out K V) → JM (Index K V) (List (Out K V))
  | 0, _, _ => JM.throw .diverge
  | fuel + 1, head, seen => do
    let s ← get
    if head < s.heads.len ∧ (seen.length : Int) < expectedHits then do
      let e ← rd Index.heads head
      let seen ← walkDo k f inner e seen
      scanDo k f expectedHits inner fuel (head + 1) seen
    else pure seen

/-- BaseHash.java:95-109 `forEachEntry`, BaseKeyIndex.ftl:44-58 `forEach`, KeyValueIndexedMap.ftl:109-123
`forEachValue`, each with a consumer that calls back, for at most `fuel` iterations of each loop. -/
def forEachDo (k : Kind) (f : Consumer (Out K V) (Op K V)) (fuel : Nat) : JM (Index K V) (List (Out K V)) := do
  let s ← get
  if s.size = 0 then pure []
  else scanDo k f s.size fuel fuel 0 []

end Verif.Index

import Verif.Gen.KeyValueIndexedMap
import Verif.Model.Walk
/-!
GENERATED by tools/j2l/translate.py from hash/KeyValueIndexedMap.ftl, BaseKeyIndex.ftl, BaseHash.java (consumers with a state of their own).  Do not edit: the translator is the only
reading of the Java text here.  Lean/Verif/Link proves that these definitions agree with the model.
-/
set_option linter.unusedVariables false
namespace Verif.Gen.KeyValueIndexedMapWalk
open Verif Verif.Walk

/-- KeyValueIndexedMap.ftl:116, the loop. -/
def forEachValue_loop2 {β : Type} {σ K V : Type} [Inhabited K] [Inhabited V] (consumer : (V → JM (Beside σ (Index K V)) β)) :
    Nat → (List β) → Int → Int → JM (Beside σ (Index K V)) ((List β) × Int)
  | 0, _, _, _ => JM.throw .diverge
  | n + 1, acc, hits, e => do
    if (decide (e ≥ 0)) = true then do
      let v4 ← lift (rd Index.nexts e)
      let next := v4
      let v5 := i32 (hits + 1)
      let hits := v5
      let v6 ← lift (rd Index.values e)
      let v7 ← consumer v6
      let acc := acc ++ [v7]
      let e := next
      forEachValue_loop2 consumer n acc hits e
    else do
      pure (acc, hits)

/-- KeyValueIndexedMap.ftl:115, the loop. -/
def forEachValue_loop1 {β : Type} {σ K V : Type} [Inhabited K] [Inhabited V] (fuel : Nat) (consumer : (V → JM (Beside σ (Index K V)) β)) (expectedHits : Int) :
    Nat → (List β) → Int → Int → JM (Beside σ (Index K V)) ((List β) × Int)
  | 0, _, _, _ => JM.throw .diverge
  | n + 1, acc, hits, head => do
    let s2 ← lift get
    if ((decide (head < (s2.heads.len : Int))) && (decide (hits < expectedHits))) = true then do
      let v3 ← lift (rd Index.heads head)
      let e := v3
      let (acc, hits) ← forEachValue_loop2 consumer fuel acc hits e
      let v8 := i32 (head + 1)
      let head := v8
      forEachValue_loop1 fuel consumer expectedHits n acc hits head
    else do
      pure (acc, hits)

/-- KeyValueIndexedMap.ftl:109-123 `forEachValue`. -/
def forEachValue {β : Type} {σ K V : Type} [Inhabited K] [Inhabited V] (fuel : Nat) (consumer : (V → JM (Beside σ (Index K V)) β)) : JM (Beside σ (Index K V)) (List β) := do
  let acc : List β := []
  let s1 ← lift get
  if (decide (s1.size = 0)) = true then do
    pure acc
  else do
    let hits := 0
    let expectedHits := s1.size
    let head := 0
    let (acc, hits) ← forEachValue_loop1 fuel consumer expectedHits fuel acc hits head
    pure acc

/-- BaseKeyIndex.ftl:51, the loop. -/
def forEach_loop2 {β : Type} {σ K V : Type} [Inhabited K] [Inhabited V] (consumer : (K → JM (Beside σ (Index K V)) β)) :
    Nat → (List β) → Int → Int → JM (Beside σ (Index K V)) ((List β) × Int)
  | 0, _, _, _ => JM.throw .diverge
  | n + 1, acc, hits, e => do
    if (decide (e ≥ 0)) = true then do
      let v4 ← lift (rd Index.nexts e)
      let next := v4
      let v5 := i32 (hits + 1)
      let hits := v5
      let v6 ← lift (rd Index.keys e)
      let v7 ← consumer v6
      let acc := acc ++ [v7]
      let e := next
      forEach_loop2 consumer n acc hits e
    else do
      pure (acc, hits)

/-- BaseKeyIndex.ftl:50, the loop. -/
def forEach_loop1 {β : Type} {σ K V : Type} [Inhabited K] [Inhabited V] (fuel : Nat) (consumer : (K → JM (Beside σ (Index K V)) β)) (expectedHits : Int) :
    Nat → (List β) → Int → Int → JM (Beside σ (Index K V)) ((List β) × Int)
  | 0, _, _, _ => JM.throw .diverge
  | n + 1, acc, hits, head => do
    let s2 ← lift get
    if ((decide (head < (s2.heads.len : Int))) && (decide (hits < expectedHits))) = true then do
      let v3 ← lift (rd Index.heads head)
      let e := v3
      let (acc, hits) ← forEach_loop2 consumer fuel acc hits e
      let v8 := i32 (head + 1)
      let head := v8
      forEach_loop1 fuel consumer expectedHits n acc hits head
    else do
      pure (acc, hits)

/-- BaseKeyIndex.ftl:44-58 `forEach`. -/
def forEach {β : Type} {σ K V : Type} [Inhabited K] [Inhabited V] (fuel : Nat) (consumer : (K → JM (Beside σ (Index K V)) β)) : JM (Beside σ (Index K V)) (List β) := do
  let acc : List β := []
  let s1 ← lift get
  if (decide (s1.size = 0)) = true then do
    pure acc
  else do
    let hits := 0
    let expectedHits := s1.size
    let head := 0
    let (acc, hits) ← forEach_loop1 fuel consumer expectedHits fuel acc hits head
    pure acc

/-- BaseHash.java:102, the loop. -/
def forEachEntry_loop2 {β : Type} {σ K V : Type} [Inhabited K] [Inhabited V] (consumer : (Int → JM (Beside σ (Index K V)) β)) :
    Nat → (List β) → Int → Int → JM (Beside σ (Index K V)) ((List β) × Int)
  | 0, _, _, _ => JM.throw .diverge
  | n + 1, acc, hits, e => do
    if (decide (e ≥ 0)) = true then do
      let v4 ← lift (rd Index.nexts e)
      let next := v4
      let v5 := i32 (hits + 1)
      let hits := v5
      let v6 ← consumer e
      let acc := acc ++ [v6]
      let e := next
      forEachEntry_loop2 consumer n acc hits e
    else do
      pure (acc, hits)

/-- BaseHash.java:101, the loop. -/
def forEachEntry_loop1 {β : Type} {σ K V : Type} [Inhabited K] [Inhabited V] (fuel : Nat) (consumer : (Int → JM (Beside σ (Index K V)) β)) (expectedHits : Int) :
    Nat → (List β) → Int → Int → JM (Beside σ (Index K V)) ((List β) × Int)
  | 0, _, _, _ => JM.throw .diverge
  | n + 1, acc, hits, head => do
    let s2 ← lift get
    if ((decide (head < (s2.heads.len : Int))) && (decide (hits < expectedHits))) = true then do
      let v3 ← lift (rd Index.heads head)
      let e := v3
      let (acc, hits) ← forEachEntry_loop2 consumer fuel acc hits e
      let v7 := i32 (head + 1)
      let head := v7
      forEachEntry_loop1 fuel consumer expectedHits n acc hits head
    else do
      pure (acc, hits)

/-- BaseHash.java:95-109 `forEachEntry`. -/
def forEachEntry {β : Type} {σ K V : Type} [Inhabited K] [Inhabited V] (fuel : Nat) (consumer : (Int → JM (Beside σ (Index K V)) β)) : JM (Beside σ (Index K V)) (List β) := do
  let acc : List β := []
  let s1 ← lift get
  if (decide (s1.size = 0)) = true then do
    pure acc
  else do
    let hits := 0
    let expectedHits := s1.size
    let head := 0
    let (acc, hits) ← forEachEntry_loop1 fuel consumer expectedHits fuel acc hits head
    pure acc
end Verif.Gen.KeyValueIndexedMapWalk

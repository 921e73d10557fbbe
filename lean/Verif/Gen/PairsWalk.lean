import Verif.Gen.Pairs
import Verif.Model.Walk
/-!
GENERATED by tools/j2l/translate.py from bi/Side.java, Mapping.java, CompactOneToMany.java, CompactManyToMany.java, functional/KeyIterator.ftl, hash/BaseHash.java (consumers with a state of their own).  Do not edit: the translator is the only
reading of the Java text here.  Lean/Verif/Link proves that these definitions agree with the model.
-/
set_option linter.unusedVariables false
namespace Verif.Gen.PairsWalk
open Verif Verif.Walk

namespace EntryIterator

/-- KeyIterator.ftl:16, the loop. -/
def forEach_loop1 {β σ : Type} (lookup : Int → JM Bi Int) (d : Dir) (consumer : (Int → JM (Beside σ Bi) β)) :
    Nat → (List β) → JM (Beside σ Bi) (List β)
  | 0, _ => JM.throw .diverge
  | n + 1, acc => do
    let v1 ← lift (Pairs.EntryIterator.hasNext lookup d)
    if v1 = true then do
      let v2 ← lift (Pairs.EntryIterator.next lookup d)
      let v3 ← consumer v2
      let acc := acc ++ [v3]
      forEach_loop1 lookup d consumer n acc
    else do
      pure acc

/-- KeyIterator.ftl:14-19 `forEach`. -/
def forEach {β σ : Type} (lookup : Int → JM Bi Int) (d : Dir) (fuel : Nat) (consumer : (Int → JM (Beside σ Bi) β)) : JM (Beside σ Bi) (List β) := do
  let acc : List β := []
  let acc ← forEach_loop1 lookup d consumer fuel acc
  pure acc


end EntryIterator

namespace ValueIterator

/-- KeyIterator.ftl:16, the loop. -/
def forEach_loop1 {β σ : Type} (lookup : Int → JM Bi Int) (d : Dir) (consumer : (Int → JM (Beside σ Bi) β)) :
    Nat → (List β) → JM (Beside σ Bi) (List β)
  | 0, _ => JM.throw .diverge
  | n + 1, acc => do
    let v1 ← lift (Pairs.ValueIterator.hasNext lookup d)
    if v1 = true then do
      let v2 ← lift (Pairs.ValueIterator.next lookup d)
      let v3 ← consumer v2
      let acc := acc ++ [v3]
      forEach_loop1 lookup d consumer n acc
    else do
      pure acc

/-- KeyIterator.ftl:14-19 `forEach`. -/
def forEach {β σ : Type} (lookup : Int → JM Bi Int) (d : Dir) (fuel : Nat) (consumer : (Int → JM (Beside σ Bi) β)) : JM (Beside σ Bi) (List β) := do
  let acc : List β := []
  let acc ← forEach_loop1 lookup d consumer fuel acc
  pure acc


end ValueIterator

namespace Mapping

/-- Mapping.java:44-46 `forEachValue`. -/
def forEachValue {β σ : Type} (lookup : Int → JM Bi Int) (d : Dir) (fuel : Nat) (consumer : (Int → JM (Beside σ Bi) β)) : JM (Beside σ Bi) (List β) := do
  let acc : List β := []
  let v1 ← lift (Pairs.Mapping.valueIterator lookup d)
  let v2 ← ValueIterator.forEach lookup d fuel consumer
  let acc := acc ++ v2
  pure acc

/-- Mapping.java:49-51 `forEachEntry`. -/
def forEachEntry {β σ : Type} (lookup : Int → JM Bi Int) (d : Dir) (fuel : Nat) (consumer : (Int → JM (Beside σ Bi) β)) : JM (Beside σ Bi) (List β) := do
  let acc : List β := []
  let v1 ← lift (Pairs.Mapping.entryIterator lookup d)
  let v2 ← EntryIterator.forEach lookup d fuel consumer
  let acc := acc ++ v2
  pure acc

end Mapping

namespace Set

/-- BaseHash.java:102, the loop. -/
def forEachEntry_loop2 {β σ : Type} (consumer : (Int → JM (Beside σ Bi) β)) :
    Nat → (List β) → Int → Int → JM (Beside σ Bi) ((List β) × Int)
  | 0, _, _, _ => JM.throw .diverge
  | n + 1, acc, hits, e => do
    if (decide (e ≥ 0)) = true then do
      let v4 ← lift (rd (fun self => self.mappings.nexts) e)
      let next := v4
      let v5 := i32 (hits + 1)
      let hits := v5
      let v6 ← consumer e
      let acc := acc ++ [v6]
      let e := next
      forEachEntry_loop2 consumer n acc hits e
    else do
      pure (acc, hits)

/-- BaseHash.java:101, the loop. -/
def forEachEntry_loop1 {β σ : Type} (fuel : Nat) (consumer : (Int → JM (Beside σ Bi) β)) (expectedHits : Int) :
    Nat → (List β) → Int → Int → JM (Beside σ Bi) ((List β) × Int)
  | 0, _, _, _ => JM.throw .diverge
  | n + 1, acc, hits, head => do
    let s2 ← lift get
    if ((decide (head < (s2.mappings.heads.len : Int))) && (decide (hits < expectedHits))) = true then do
      let v3 ← lift (rd (fun self => self.mappings.heads) head)
      let e := v3
      let (acc, hits) ← forEachEntry_loop2 consumer fuel acc hits e
      let v7 := i32 (head + 1)
      let head := v7
      forEachEntry_loop1 fuel consumer expectedHits n acc hits head
    else do
      pure (acc, hits)

/-- BaseHash.java:95-109 `forEachEntry`. -/
def forEachEntry {β σ : Type} (fuel : Nat) (consumer : (Int → JM (Beside σ Bi) β)) : JM (Beside σ Bi) (List β) := do
  let acc : List β := []
  let s1 ← lift get
  if (decide (s1.mappings.size = 0)) = true then do
    pure acc
  else do
    let hits := 0
    let expectedHits := s1.mappings.size
    let head := 0
    let (acc, hits) ← forEachEntry_loop1 fuel consumer expectedHits fuel acc hits head
    pure acc


end Set

namespace OneToMany

/-- CompactOneToMany.java:171-173 `forEachEntry`. -/
def forEachEntry {β σ : Type} (fuel : Nat) (consumer : (Int → JM (Beside σ Bi) β)) : JM (Beside σ Bi) (List β) := do
  let acc : List β := []
  let v1 ← Set.forEachEntry fuel consumer
  let acc := acc ++ v1
  pure acc

end OneToMany

namespace ManyToMany

/-- CompactOneToMany.java:171-173 `forEachEntry`. -/
def forEachEntry {β σ : Type} (fuel : Nat) (consumer : (Int → JM (Beside σ Bi) β)) : JM (Beside σ Bi) (List β) := do
  let acc : List β := []
  let v1 ← Set.forEachEntry fuel consumer
  let acc := acc ++ v1
  pure acc

end ManyToMany
end Verif.Gen.PairsWalk

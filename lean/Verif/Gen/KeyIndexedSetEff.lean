import Verif.Gen.KeyIndexedSet
import Verif.Model.IndexEff
/-!
GENERATED by tools/j2l/translate.py from hash/KeyIndexedSet.ftl, BaseKeyIndex.ftl, BaseHash.java (functions with effects).  Do not edit: the translator is the only
reading of the Java text here.  Lean/Verif/Link proves that these definitions agree with the model.
-/
set_option linter.unusedVariables false
namespace Verif.Gen.KeyIndexedSetEff
open Verif Verif.IndexEff

/-- BaseKeyIndex.ftl:246-249 `computeHead`. -/
def computeHead {σ K V : Type} [Inhabited K] [Inhabited V] (eff : Effects σ K) (key : K) : JM (IndexObs σ K V) Int := do
  let v1 ← hashE eff key
  let hash := (and32 v1.toInt MAX_INT)
  let s2 ← lift get
  pure (and32 hash (i32 ((s2.heads.len : Int) - 1)))

/-- BaseKeyIndex.ftl:63, the loop. -/
def lookupEntry_loop1 {σ K V : Type} [Inhabited K] [Inhabited V] (eff : Effects σ K) (key : K) :
    Nat → Int → JM (IndexObs σ K V) (Flow Int Unit)
  | 0, _ => JM.throw .diverge
  | n + 1, e => do
    if (decide (e ≥ 0)) = true then do
      let v3 ← lift (rd Index.keys e)
      let v4 ← eqE eff key v3
      if v4 = true then do
        pure (.ret e)
      else do
        let v5 ← lift (rd Index.nexts e)
        let e := v5
        lookupEntry_loop1 eff key n e
    else do
      pure (.next ())

/-- BaseKeyIndex.ftl:61-69 `lookupEntry`. -/
def lookupEntry {σ K V : Type} [Inhabited K] [Inhabited V] (eff : Effects σ K) (fuel : Nat) (key : K) : JM (IndexObs σ K V) Int := do
  let v1 ← computeHead eff key
  let head := v1
  let v2 ← lift (rd Index.heads head)
  let e := v2
  let r6 ← lookupEntry_loop1 eff key fuel e
  match r6 with
  | .ret v => pure v
  | .next _ => do
    pure (-1)

/-- BaseKeyIndex.ftl:83-85 `containsKey`. -/
def containsKey {σ K V : Type} [Inhabited K] [Inhabited V] (eff : Effects σ K) (fuel : Nat) (key : K) : JM (IndexObs σ K V) Bool := do
  let v1 ← lookupEntry eff fuel key
  pure (decide (v1 ≠ (-1)))

/-- BaseKeyIndex.ftl:158, the loop. -/
def removeKey_loop1 {σ K V : Type} [Inhabited K] [Inhabited V] (eff : Effects σ K) (key : K) (free : Bool) (head : Int) :
    Nat → Int → Int → JM (IndexObs σ K V) (Flow Int Int)
  | 0, _, _ => JM.throw .diverge
  | n + 1, prev, e => do
    if (decide (e ≥ 0)) = true then do
      let v3 ← lift (rd Index.keys e)
      let v4 ← eqE eff key v3
      if (!v4) = true then do
        let prev := e
        let v5 ← lift (rd Index.nexts e)
        let e := v5
        removeKey_loop1 eff key free head n prev e
      else do
        let v6 ← lift (rd Index.nexts e)
        let next := v6
        (if (decide (prev < 0)) = true then do
            lift (wr Index.heads (fun self a => { self with heads := a }) head next)
            pure ()
          else do
            lift (wr Index.nexts (fun self a => { self with nexts := a }) prev next)
            pure ())
        (if free = true then do
            lift (KeyIndexedSet.freeReservedEntry e)
            pure ()
          else do
            lift (wr Index.nexts (fun self a => { self with nexts := a }) e (-1))
            pure ())
        let s7 ← lift get
        let v8 := i32 (s7.size - 1)
        lift (modify fun self => { self with size := v8 })
        let s9 ← lift get
        let v10 := i32 (s9.modificationCount + 1)
        lift (modify fun self => { self with modificationCount := v10 })
        pure (.ret e)
    else do
      pure (.next prev)

/-- BaseKeyIndex.ftl:151-182 `remove`. -/
def removeKey {σ K V : Type} [Inhabited K] [Inhabited V] (eff : Effects σ K) (fuel : Nat) (key : K) (free : Bool) : JM (IndexObs σ K V) Int := do
  let v1 ← computeHead eff key
  let head := v1
  let v2 ← lift (rd Index.heads head)
  let headEntry := v2
  if (decide (headEntry < 0)) = true then do
    pure (-1)
  else do
    let prev := (-1)
    let e := headEntry
    let r11 ← removeKey_loop1 eff key free head fuel prev e
    match r11 with
    | .ret v => pure v
    | .next prev => do
      pure (-1)

/-- BaseKeyIndex.ftl:92-94 `remove`. -/
def remove1 {σ K V : Type} [Inhabited K] [Inhabited V] (eff : Effects σ K) (fuel : Nat) (key : K) : JM (IndexObs σ K V) Int := do
  let v1 ← removeKey eff fuel key true
  pure v1

/-- BaseKeyIndex.ftl:132-134 `removeAtAndReserve`. -/
def removeAtAndReserve {σ K V : Type} [Inhabited K] [Inhabited V] (eff : Effects σ K) (fuel : Nat) (entry : Int) : JM (IndexObs σ K V) Unit := do
  let v1 ← lift (rd Index.keys entry)
  let v2 ← removeKey eff fuel v1 false
  pure ()

/-- BaseKeyIndex.ftl:271, the loop. -/
def rehash_loop2 {σ K V : Type} [Inhabited K] [Inhabited V] (eff : Effects σ K) (oldNexts : (Arr Int)) (oldKeys : (Arr K)) :
    Nat → Int → JM (IndexObs σ K V) Int
  | 0, _ => JM.throw .diverge
  | n + 1, entry => do
    if (decide (entry ≥ 0)) = true then do
      let v10 ← lift (rdA oldKeys entry)
      let v11 ← computeHead eff v10
      let newHead := v11
      lift (KeyIndexedSet.registerNewEntryForHead newHead entry)
      lift (KeyIndexedSet.updateMaxHead newHead)
      let v12 ← lift (rdA oldNexts entry)
      let entry := v12
      rehash_loop2 eff oldNexts oldKeys n entry
    else do
      pure entry

/-- BaseKeyIndex.ftl:269, the loop. -/
def rehash_loop1 {σ K V : Type} [Inhabited K] [Inhabited V] (eff : Effects σ K) (fuel : Nat) (oldHeads : (Arr Int)) (oldNexts : (Arr Int)) (oldKeys : (Arr K)) (len : Int) :
    Nat → Int → JM (IndexObs σ K V) Unit
  | 0, _ => JM.throw .diverge
  | n + 1, i => do
    if (decide (i < len)) = true then do
      let v9 ← lift (rdA oldHeads i)
      let entry := v9
      let entry ← rehash_loop2 eff oldNexts oldKeys fuel entry
      let v13 := i32 (i + 1)
      let i := v13
      rehash_loop1 eff fuel oldHeads oldNexts oldKeys len n i
    else do
      pure ()

/-- BaseKeyIndex.ftl:251-279 `rehash`. -/
def rehash {σ K V : Type} [Inhabited K] [Inhabited V] (eff : Effects σ K) (fuel : Nat) : JM (IndexObs σ K V) Unit := do
  let s1 ← lift get
  let oldHeads := s1.heads
  let oldNexts := s1.nexts
  let oldKeys := s1.keys
  lift (KeyIndexedSet.calculateNewCapacity)
  let s2 ← lift get
  let v3 ← lift (newArr s2.capacity (-1))
  lift (modify fun self => { self with heads := v3 })
  let s4 ← lift get
  let v5 ← lift (newArr s4.capacity (-1))
  lift (modify fun self => { self with nexts := v5 })
  let s6 ← lift get
  lift (KeyIndexedSet.growKeys s6.capacity)
  let s7 ← lift get
  lift (KeyIndexedSet.growValues s7.capacity)
  let s8 ← lift get
  let len := (min (i32 (s8.maxHead + 1)) (oldHeads.len : Int))
  lift (modify fun self => { self with maxHead := 0 })
  let i := 0
  rehash_loop1 eff fuel oldHeads oldNexts oldKeys len fuel i
  let s14 ← lift get
  let v15 := i32 (s14.modificationCount + 1)
  lift (modify fun self => { self with modificationCount := v15 })
  pure ()

/-- BaseKeyIndex.ftl:190, the loop. -/
def add_loop1 {σ K V : Type} [Inhabited K] [Inhabited V] (eff : Effects σ K) (key : K) :
    Nat → Int → JM (IndexObs σ K V) (Flow Int Unit)
  | 0, _ => JM.throw .diverge
  | n + 1, e => do
    if (decide (e ≥ 0)) = true then do
      let v3 ← lift (rd Index.keys e)
      let v4 ← eqE eff key v3
      if v4 = true then do
        pure (.ret e)
      else do
        let v5 ← lift (rd Index.nexts e)
        let e := v5
        add_loop1 eff key n e
    else do
      pure (.next ())

/-- BaseKeyIndex.ftl:188-214 `add`. -/
def add {σ K V : Type} [Inhabited K] [Inhabited V] (eff : Effects σ K) (fuel : Nat) (key : K) : JM (IndexObs σ K V) Int := do
  let v1 ← computeHead eff key
  let head := v1
  let v2 ← lift (rd Index.heads head)
  let e := v2
  let r6 ← add_loop1 eff key fuel e
  match r6 with
  | .ret v => pure v
  | .next _ => do
    let v7 ← lift (KeyIndexedSet.allocateNewEntry)
    let entry := v7
    let s8 ← lift get
    let head ← (if (decide (entry ≥ s8.capThreshold)) = true then do
        rehash eff fuel
        let v9 ← computeHead eff key
        let head := v9
        pure head
      else pure head)
    lift (KeyIndexedSet.registerNewEntryForHead head entry)
    lift (wr Index.keys (fun self a => { self with keys := a }) entry key)
    lift (KeyIndexedSet.updateMaxHead head)
    let s10 ← lift get
    let v11 := i32 (s10.size + 1)
    lift (modify fun self => { self with size := v11 })
    let s12 ← lift get
    let v13 := i32 (s12.modificationCount + 1)
    lift (modify fun self => { self with modificationCount := v13 })
    pure entry
end Verif.Gen.KeyIndexedSetEff

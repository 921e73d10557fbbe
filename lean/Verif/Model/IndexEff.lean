import Verif.Model.Index
/-!
Models the methods of `hash/BaseKeyIndex.ftl` and `hash/KeyValueIndexedMap.ftl` once more, for hash and equality
functions that have an effect of their own: `eff.hash f k` is the call `hashFunc.code(k)` of the function `f`,
`eff.eq f a b` the call `equalFunc.areEqual(a, b)`; each may change a state `σ` outside the collection (a call counter,
say) or throw.  Methods that call neither function are those of Model/Index.lean.
`Base:` is BaseKeyIndex.ftl, `KV:` is KeyValueIndexedMap.ftl.
-/
namespace Verif

/-- An indexed collection, and the state its functions act on. -/
structure IndexObs (σ K V : Type) where
  index : Index K V
  ext : σ

namespace IndexEff
open Verif.Index
variable {σ K V : Type} [Inhabited K] [Inhabited V]

/-- What calls of the hash and equality functions do. -/
structure Effects (σ K : Type) where
  hash : (K → BitVec 32) → K → JM σ (BitVec 32)
  eq : (K → K → Bool) → K → K → JM σ Bool

/-- A method of the collection that calls neither function. -/
def lift {α : Type} (m : JM (Index K V) α) : JM (IndexObs σ K V) α := ⟨fun t =>
  match m t.index with
  | .ok a i => .ok a ⟨i, t.ext⟩
  | .err e i => .err e ⟨i, t.ext⟩⟩

/-- The call `hashFunc.code(key)` (Base:247). -/
def hashE (eff : Effects σ K) (key : K) : JM (IndexObs σ K V) (BitVec 32) := ⟨fun t =>
  match eff.hash t.index.hashFunc key t.ext with
  | .ok a e => .ok a ⟨t.index, e⟩
  | .err x e => .err x ⟨t.index, e⟩⟩

/-- The call `equalFunc.areEqual(a, b)` (Base:64, 158, 191). -/
def eqE (eff : Effects σ K) (a b : K) : JM (IndexObs σ K V) Bool := ⟨fun t =>
  match eff.eq t.index.equalFunc a b t.ext with
  | .ok r e => .ok r ⟨t.index, e⟩
  | .err x e => .err x ⟨t.index, e⟩⟩

/-- Base:246-249 `computeHead`. -/
def computeHead (eff : Effects σ K) (key : K) : JM (IndexObs σ K V) Int := do
  let hc ← hashE eff key
  let s ← lift get
  pure ((hc &&& 0x7fffffff#32) &&& BitVec.ofInt 32 ((s.heads.len : Int) - 1)).toInt

/-- The loop of Base:63-67 (and 190-194). -/
def lookupLoop (eff : Effects σ K) (key : K) : Nat → Int → JM (IndexObs σ K V) Int
  | 0, _ => JM.throw .diverge
  | fuel + 1, e =>
    if e ≥ 0 then do
      let k ← lift (rd Index.keys e)
      let r ← eqE eff key k
      if r then pure e
      else do
        let next ← lift (rd Index.nexts e)
        lookupLoop eff key fuel next
    else pure (-1)

/-- Base:61-69 `lookupEntry`. -/
def lookupEntry (eff : Effects σ K) (key : K) : JM (IndexObs σ K V) Int := do
  let head ← computeHead eff key
  let e ← lift (rd Index.heads head)
  let s ← lift get
  lookupLoop eff key (s.nexts.len + 1) e

/-- Base:83-85 `containsKey`. -/
def containsKey (eff : Effects σ K) (key : K) : JM (IndexObs σ K V) Bool := do
  let e ← lookupEntry eff key
  pure (decide (e ≠ -1))

/-- The walk of Base:157-161: the matching entry and its predecessor. -/
def findKeyLoop (eff : Effects σ K) (key : K) : Nat → Int → Int → JM (IndexObs σ K V) (Option (Int × Int))
  | 0, _, _ => JM.throw .diverge
  | fuel + 1, prev, e =>
    if e ≥ 0 then do
      let k ← lift (rd Index.keys e)
      let r ← eqE eff key k
      if r then pure (some (prev, e))
      else do
        let next ← lift (rd Index.nexts e)
        findKeyLoop eff key fuel e next
    else pure none

/-- Base:163-180, the end of `remove(key, free)`: unlinking what was found. -/
def removeFound (free : Bool) (head : Int) : Option (Int × Int) → JM (Index K V) Int
  | none => pure (-1)
  | some (prev, e) => do
    let next ← rd Index.nexts e
    unlink head prev next
    if free then freeReservedEntry e else wrNexts e (-1)
    modify fun t => { t with size := t.size - 1 }
    bumpMod
    pure e

/-- Base:151-181 `remove(key, free)`. -/
def removeKey (eff : Effects σ K) (key : K) (free : Bool) : JM (IndexObs σ K V) Int := do
  let head ← computeHead eff key
  let headEntry ← lift (rd Index.heads head)
  if headEntry < 0 then pure (-1)
  else do
    let s ← lift get
    let found ← findKeyLoop eff key (s.nexts.len + 1) (-1) headEntry
    lift (removeFound free head found)

/-- Base:132-134 `removeAtAndReserve`. -/
def removeAtAndReserve (eff : Effects σ K) (entry : Int) : JM (IndexObs σ K V) Unit := do
  let k ← lift (rd Index.keys entry)
  let _ ← removeKey eff k false
  pure ()

/-- Base:269-274, the inner loop of `rehash` over one old chain. -/
def rehashChain (eff : Effects σ K) (oldNexts : Arr Int) (oldKeys : Arr K) : Nat → Int → JM (IndexObs σ K V) Unit
  | 0, _ => JM.throw .diverge
  | fuel + 1, entry =>
    if entry ≥ 0 then do
      let k ← lift (rdA oldKeys entry)
      let newHead ← computeHead eff k
      lift (registerNewEntryForHead newHead entry)
      lift (updateMaxHead newHead)
      let next ← lift (rdA oldNexts entry)
      rehashChain eff oldNexts oldKeys fuel next
    else pure ()

/-- Base:267-275, the outer loop of `rehash`, with `n` old heads left from `i`. -/
def rehashHeads (eff : Effects σ K) (oldHeads oldNexts : Arr Int) (oldKeys : Arr K) :
    Nat → Int → JM (IndexObs σ K V) Unit
  | 0, _ => pure ()
  | n + 1, i => do
    let e ← lift (rdA oldHeads i)
    rehashChain eff oldNexts oldKeys (oldNexts.len + 1) e
    rehashHeads eff oldHeads oldNexts oldKeys n (i + 1)

/-- Base:251-266, what `rehash` does before its loops. -/
def newTable (s : Index K V) : JM (Index K V) Unit := do
  let h ← newArr s.capacity (-1)
  modify fun t => { t with heads := h }
  let n ← newArr s.capacity (-1)
  modify fun t => { t with nexts := n }
  let k ← ensureSize s.keys s.capacity default
  modify fun t => { t with keys := k }
  let v ← ensureSize s.values s.capacity default
  modify fun t => { t with values := v }
  modify fun t => { t with maxHead := 0 }

/-- Base:251-277 `rehash`. -/
def rehash (eff : Effects σ K) : JM (IndexObs σ K V) Unit := do
  let old ← lift get
  lift calcNewCapacity
  let s ← lift get
  lift (newTable s)
  let len := min (old.maxHead + 1) old.heads.len
  rehashHeads eff old.heads old.nexts old.keys len.toNat 0
  lift bumpMod

/-- Base:206-213, the end of `add`. -/
def enter (key : K) (head entry : Int) : JM (Index K V) Int := do
  registerNewEntryForHead head entry
  wrKeys entry key
  updateMaxHead head
  modify fun t => { t with size := t.size + 1 }
  bumpMod
  pure entry

/-- Base:188-214 `add` of the base class. -/
def baseAdd (eff : Effects σ K) (key : K) : JM (IndexObs σ K V) Int := do
  let head ← computeHead eff key
  let e0 ← lift (rd Index.heads head)
  let s ← lift get
  let found ← lookupLoop eff key (s.nexts.len + 1) e0
  if found ≥ 0 then pure found
  else do
    let entry ← lift allocateNewEntry
    let s ← lift get
    if entry ≥ s.capThreshold then do
      rehash eff
      let head ← computeHead eff key
      lift (enter key head entry)
    else lift (enter key head entry)

/-- KV:33-40 `add`. -/
def add (eff : Effects σ K) (key : K) : JM (IndexObs σ K V) Int := do
  let s ← lift get
  let entry ← baseAdd eff key
  let s' ← lift get
  lift (JM.when (s.size ≠ s'.size) do wrValues entry default)
  pure entry

/-- KV:60-66 `get`. -/
def getValue (eff : Effects σ K) (key : K) : JM (IndexObs σ K V) V := do
  let entry ← lookupEntry eff key
  if entry = -1 then JM.throw .keyNotFound
  else lift (rd Index.values entry)

/-- KV:93-97 `put`. -/
def put (eff : Effects σ K) (key : K) (value : V) : JM (IndexObs σ K V) Int := do
  let entry ← add eff key
  lift (wrValues entry value)
  pure entry

/-- KV:129-135 `getOrDefault`. -/
def getOrDefault (eff : Effects σ K) (key : K) (dflt : V) : JM (IndexObs σ K V) V := do
  let entry ← lookupEntry eff key
  if entry = -1 then pure dflt
  else lift (rd Index.values entry)

/-- One public call. -/
def step (eff : Effects σ K) : Op K V → JM (IndexObs σ K V) (Out K V)
  | .add k => do return .int (← add eff k)
  | .put k v => do return .int (← put eff k v)
  | .lookupEntry k => do return .int (← lookupEntry eff k)
  | .containsKey k => do return .bool (← containsKey eff k)
  | .get k => do return .val (← getValue eff k)
  | .getOrDefault k d => do return .val (← getOrDefault eff k d)
  | .remove k => do return .int (← removeKey eff k true)
  | .removeAtAndReserve e => do removeAtAndReserve eff e; pure .unit
  | o => lift (Index.step o)

end IndexEff
end Verif

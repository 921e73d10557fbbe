import Verif.Model.Index
/-!
Models `m.copyFrom(m)`: `BaseHash.java:141-161`, `BaseKeyIndex.ftl:27-41`,
`KeyValueIndexedMap.ftl:43-53` and `KeyIndexedSet.ftl:21-23` with `source == this`, so that every
`source.x` is the field `x` of this object at that moment.
-/
namespace Verif.Index
variable {K V : Type} [Inhabited K] [Inhabited V]

/-- BaseHash.java:141-161 `copyFrom` with `source == this`. -/
def baseCopySelf : JM (Index K V) Unit := do
  let s ← get
  let heads ← headsLike s.heads s.heads.len
  modify fun t => { t with heads := heads }
  let s ← get
  let nexts ← roomLike s.nexts s.nexts.len 0 (-1)
  modify fun t => { t with nexts := nexts }
  let s ← get
  let heads ← arraycopy s.heads 0 s.heads 0 s.heads.len
  modify fun t => { t with heads := heads }
  let s ← get
  let nexts ← arraycopy s.nexts 0 s.nexts 0 s.nexts.len
  modify fun t => { t with nexts := nexts }
  bumpMod
  modify fun t => { t with
    size := t.size, lfNum := t.lfNum, lfDen := t.lfDen, freeList := t.freeList
    nextUnusedEntry := t.nextUnusedEntry, maxHead := t.maxHead }

/-- BaseKeyIndex.ftl:27-41 `copyFrom` with `source == this`. -/
def keysCopySelf : JM (Index K V) Unit := do
  baseCopySelf
  let s ← get
  let keys ← roomLike s.keys s.keys.len default default
  modify fun t => { t with keys := keys }
  let s ← get
  let keys ← arraycopy s.keys 0 s.keys 0 s.keys.len
  modify fun t => { t with keys := keys }
  modify fun t => { t with
    capacity := t.keys.len, capThreshold := threshold t.keys.len t.lfNum t.lfDen }

/-- KeyValueIndexedMap.ftl:43-53 `copyFrom` with `source == this` (a set is the map at `Unit`). -/
def copySelf : JM (Index K V) Unit := do
  keysCopySelf
  let s ← get
  let values ← valuesLike s.values s.values.len
  modify fun t => { t with values := values }
  let s ← get
  let values ← arraycopy s.values 0 s.values 0 s.values.len
  modify fun t => { t with values := values }

end Verif.Index

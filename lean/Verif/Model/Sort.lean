import Verif.Java
/-!
Models `collections/src/main/templates/com/bytefacets/collections/sort/KeyValueCompanionSort.ftl`.

The two arrays are the state.  They are distinct arrays here (when key and value have the same type,
Java also allows passing one array twice; that is in Model/SortMem.lean).  The comparator is a pure function that may throw.
-/
namespace Verif.CompanionSort
variable {K V : Type}

/-- KeyValueCompanionSort.ftl:18, the parameters `pri` and `sec`. -/
structure Arrs (K V : Type) where
  pri : Arr K
  sec : Arr V

/-- A call `cmp.compare(x, y)` (KeyValueCompanionSort.ftl:18, the parameter `cmp`), which returns or throws. -/
def call (cmp : K → K → Except Err Int) (x y : K) : JM (Arrs K V) Int :=
  match cmp x y with
  | .ok r => pure r
  | .error e => JM.throw e

/-- The expression `cmp.compare(pri[i], pri[j])` (KeyValueCompanionSort.ftl:32, 114-116). -/
def cmpAt (cmp : K → K → Except Err Int) (i j : Int) : JM (Arrs K V) Int := do
  let x ← rd Arrs.pri i
  let y ← rd Arrs.pri j
  call cmp x y

/-- `pri[i] = v`. -/
def wrPri (i : Int) (v : K) : JM (Arrs K V) Unit := wr Arrs.pri (fun t a => { t with pri := a }) i v
/-- `sec[i] = v`. -/
def wrSec (i : Int) (v : V) : JM (Arrs K V) Unit := wr Arrs.sec (fun t a => { t with sec := a }) i v

/-- KeyValueCompanionSort.ftl:90-99 `swap`. -/
def swap (a b : Int) : JM (Arrs K V) Unit := do
  let oldPrimaryA ← rd Arrs.pri a
  let oldSecondaryA ← rd Arrs.sec a
  let sb ← rd Arrs.sec b
  wrSec a sb
  let pb ← rd Arrs.pri b
  wrPri a pb
  wrPri b oldPrimaryA
  wrSec b oldSecondaryA

/-- KeyValueCompanionSort.ftl:104-108 `vecswap`, with `n` iterations to go. -/
def vecswapN : Nat → Int → Int → JM (Arrs K V) Unit
  | 0, _, _ => pure ()
  | n + 1, a, b => do
    swap a b
    vecswapN n (a + 1) (b + 1)

/-- KeyValueCompanionSort.ftl:104-108 `vecswap`. -/
def vecswap (a b n : Int) : JM (Arrs K V) Unit := vecswapN n.toNat a b

/-- KeyValueCompanionSort.ftl:113-117 `med3`. -/
def med3 (cmp : K → K → Except Err Int) (a b c : Int) : JM (Arrs K V) Int := do
  if (← cmpAt cmp a b) < 0 then
    if (← cmpAt cmp b c) < 0 then pure b
    else if (← cmpAt cmp a c) < 0 then pure c else pure a
  else
    if (← cmpAt cmp b c) > 0 then pure b
    else if (← cmpAt cmp a c) > 0 then pure c else pure a

/-- KeyValueCompanionSort.ftl:32-34, the inner loop of the insertion sort. -/
def sink (cmp : K → K → Except Err Int) (off : Int) : Nat → Int → JM (Arrs K V) Unit
  | 0, _ => JM.throw .diverge
  | f + 1, j => do
    if j > off then
      let r ← cmpAt cmp (j - 1) j
      if r > 0 then
        swap j (j - 1)
        sink cmp off f (j - 1)
      else pure ()
    else pure ()

/-- KeyValueCompanionSort.ftl:31-35, the outer loop of the insertion sort up to `hi`. -/
def insertion (cmp : K → K → Except Err Int) (off hi : Int) : Nat → Int → JM (Arrs K V) Unit
  | 0, _ => JM.throw .diverge
  | f + 1, i => do
    if i < hi then
      sink cmp off ((i - off).toNat + 1) i
      insertion cmp off hi f (i + 1)
    else pure ()

/-- KeyValueCompanionSort.ftl:40-52, the position of the partition element. -/
def pivot (cmp : K → K → Except Err Int) (off len : Int) : JM (Arrs K V) Int := do
  let m := i32 (off + len / 2)
  if len > 7 then
    let l := off
    let n := i32 (i32 (off + len) - 1)
    if len > 40 then
      let s := len / 8
      let l ← med3 cmp l (i32 (l + s)) (i32 (l + 2 * s))
      let m ← med3 cmp (i32 (m - s)) m (i32 (m + s))
      let n ← med3 cmp (i32 (n - 2 * s)) (i32 (n - s)) n
      med3 cmp l m n
    else med3 cmp l m n
  else pure m

/-- KeyValueCompanionSort.ftl:58-62, the loop that moves `b` up; returns `a` and `b`. -/
def scanB (cmp : K → K → Except Err Int) (v : K) (c : Int) : Nat → Int → Int → JM (Arrs K V) (Int × Int)
  | 0, _, _ => JM.throw .diverge
  | f + 1, a, b => do
    if b ≤ c then
      let x ← rd Arrs.pri b
      let r ← call cmp x v
      if r ≤ 0 then
        let x ← rd Arrs.pri b
        let r ← call cmp x v
        if r = 0 then
          swap a b
          scanB cmp v c f (a + 1) (b + 1)
        else scanB cmp v c f a (b + 1)
      else pure (a, b)
    else pure (a, b)

/-- KeyValueCompanionSort.ftl:63-67, the loop that moves `c` down; returns `c` and `d`. -/
def scanC (cmp : K → K → Except Err Int) (v : K) (b : Int) : Nat → Int → Int → JM (Arrs K V) (Int × Int)
  | 0, _, _ => JM.throw .diverge
  | f + 1, c, d => do
    if c ≥ b then
      let x ← rd Arrs.pri c
      let r ← call cmp x v
      if r ≥ 0 then
        let x ← rd Arrs.pri c
        let r ← call cmp x v
        if r = 0 then
          swap c d
          scanC cmp v b f (c - 1) (d - 1)
        else scanC cmp v b f (c - 1) d
      else pure (c, d)
    else pure (c, d)

/-- KeyValueCompanionSort.ftl:57-71, the partition loop; returns `a`, `b`, `c` and `d`. -/
def partition (cmp : K → K → Except Err Int) (v : K) :
    Nat → Int → Int → Int → Int → JM (Arrs K V) (Int × Int × Int × Int)
  | 0, _, _, _, _ => JM.throw .diverge
  | f + 1, a, b, c, d => do
    let (a, b) ← scanB cmp v c ((c - b).toNat + 2) a b
    let (c, d) ← scanC cmp v b ((c - b).toNat + 2) c d
    if b > c then pure (a, b, c, d)
    else
      swap b c
      partition cmp v f a (b + 1) (c - 1) d

/-- KeyValueCompanionSort.ftl:20-84 `sort`, at most `f` calls deep. -/
def sortF (cmp : K → K → Except Err Int) : Nat → Int → Int → JM (Arrs K V) Unit
  | 0, _, _ => JM.throw .diverge
  | f + 1, off, len => do
    let s ← get
    if i32 (off + len) > s.pri.len then JM.throw .illegalArgument
    else if i32 (off + len) > s.sec.len then JM.throw .illegalArgument
    else if off < 0 ∨ len < 0 then JM.throw .illegalArgument
    else if len < 7 then
      insertion cmp off (i32 (len + off)) ((i32 (len + off) - off).toNat + 1) off
    else
      let m ← pivot cmp off len
      let v ← rd Arrs.pri m
      let c := i32 (i32 (off + len) - 1)
      let (a, b, c, d) ← partition cmp v ((c - off).toNat + 2) off off c c
      let n := i32 (off + len)
      let s := min (a - off) (b - a)
      vecswap off (b - s) s
      let s := min (d - c) (n - d - 1)
      vecswap b (n - s) s
      JM.when (b - a > 1) (sortF cmp f off (b - a))
      JM.when (d - c > 1) (sortF cmp f (n - (d - c)) (d - c))

/-- KeyValueCompanionSort.ftl:18 `sort`.  No run within `len` nested calls ends in `diverge` for a comparator
with `compare(v, v) = 0` (C57); a deeper run than that ends in StackOverflowError, see `C57_irreflexive_diverges`. -/
def sort (cmp : K → K → Except Err Int) (off len : Int) : JM (Arrs K V) Unit :=
  sortF cmp (len.toNat + 1) off len

end Verif.CompanionSort

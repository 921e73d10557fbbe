import Verif.Model.Sort
/-!
Models `collections/src/main/templates/com/bytefacets/collections/sort/KeyValueCompanionSort.ftl` once more, for
what Model/Sort.lean leaves out: comparators with effects of their own, and one array passed twice.
The code works on a state `S`; `Mem` says where in `S` the arrays `pri` and `sec` are, and the comparator is an
arbitrary action on `S`.
-/
namespace Verif.SortMem
variable {S K V : Type}

/-- Where the parameters `pri` and `sec` (KeyValueCompanionSort.ftl:18) are stored. -/
structure Mem (S K V : Type) where
  pri : S → Arr K
  setPri : S → Arr K → S
  sec : S → Arr V
  setSec : S → Arr V → S

/-- The parameter `cmp` (KeyValueCompanionSort.ftl:18): the call `cmp.compare(x, y)`. -/
abbrev Cmp (S K : Type) := K → K → JM S Int

/-- The expression `cmp.compare(pri[i], pri[j])` (KeyValueCompanionSort.ftl:32, 114-116). -/
def cmpAt (M : Mem S K V) (cmp : Cmp S K) (i j : Int) : JM S Int := do
  let x ← rd M.pri i
  let y ← rd M.pri j
  cmp x y

/-- KeyValueCompanionSort.ftl:90-99 `swap`. -/
def swap (M : Mem S K V) (a b : Int) : JM S Unit := do
  let oldPrimaryA ← rd M.pri a
  let oldSecondaryA ← rd M.sec a
  let sb ← rd M.sec b
  wr M.sec M.setSec a sb
  let pb ← rd M.pri b
  wr M.pri M.setPri a pb
  wr M.pri M.setPri b oldPrimaryA
  wr M.sec M.setSec b oldSecondaryA

/-- KeyValueCompanionSort.ftl:104-108 `vecswap`, with `n` iterations to go. -/
def vecswapN (M : Mem S K V) : Nat → Int → Int → JM S Unit
  | 0, _, _ => pure ()
  | n + 1, a, b => do
    swap M a b
    vecswapN M n (a + 1) (b + 1)

/-- KeyValueCompanionSort.ftl:104-108 `vecswap`. -/
def vecswap (M : Mem S K V) (a b n : Int) : JM S Unit := vecswapN M n.toNat a b

/-- KeyValueCompanionSort.ftl:113-117 `med3`. -/
def med3 (M : Mem S K V) (cmp : Cmp S K) (a b c : Int) : JM S Int := do
  if (← cmpAt M cmp a b) < 0 then
    if (← cmpAt M cmp b c) < 0 then pure b
    else if (← cmpAt M cmp a c) < 0 then pure c else pure a
  else
    if (← cmpAt M cmp b c) > 0 then pure b
    else if (← cmpAt M cmp a c) > 0 then pure c else pure a

/-- KeyValueCompanionSort.ftl:32-34, the inner loop of the insertion sort. -/
def sink (M : Mem S K V) (cmp : Cmp S K) (off : Int) : Nat → Int → JM S Unit
  | 0, _ => JM.throw .diverge
  | f + 1, j => do
    if j > off then
      let r ← cmpAt M cmp (j - 1) j
      if r > 0 then
        swap M j (j - 1)
        sink M cmp off f (j - 1)
      else pure ()
    else pure ()

/-- KeyValueCompanionSort.ftl:31-35, the outer loop of the insertion sort up to `hi`. -/
def insertion (M : Mem S K V) (cmp : Cmp S K) (off hi : Int) : Nat → Int → JM S Unit
  | 0, _ => JM.throw .diverge
  | f + 1, i => do
    if i < hi then
      sink M cmp off ((i - off).toNat + 1) i
      insertion M cmp off hi f (i + 1)
    else pure ()

/-- KeyValueCompanionSort.ftl:40-52, the position of the partition element. -/
def pivot (M : Mem S K V) (cmp : Cmp S K) (off len : Int) : JM S Int := do
  let m := i32 (off + len / 2)
  if len > 7 then
    let l := off
    let n := i32 (i32 (off + len) - 1)
    if len > 40 then
      let s := len / 8
      let l ← med3 M cmp l (i32 (l + s)) (i32 (l + 2 * s))
      let m ← med3 M cmp (i32 (m - s)) m (i32 (m + s))
      let n ← med3 M cmp (i32 (n - 2 * s)) (i32 (n - s)) n
      med3 M cmp l m n
    else med3 M cmp l m n
  else pure m

/-- KeyValueCompanionSort.ftl:58-62, the loop that moves `b` up; returns `a` and `b`. -/
def scanB (M : Mem S K V) (cmp : Cmp S K) (v : K) (c : Int) : Nat → Int → Int → JM S (Int × Int)
  | 0, _, _ => JM.throw .diverge
  | f + 1, a, b => do
    if b ≤ c then
      let x ← rd M.pri b
      let r ← cmp x v
      if r ≤ 0 then
        let x ← rd M.pri b
        let r ← cmp x v
        if r = 0 then
          swap M a b
          scanB M cmp v c f (a + 1) (b + 1)
        else scanB M cmp v c f a (b + 1)
      else pure (a, b)
    else pure (a, b)

/-- KeyValueCompanionSort.ftl:63-67, the loop that moves `c` down; returns `c` and `d`. -/
def scanC (M : Mem S K V) (cmp : Cmp S K) (v : K) (b : Int) : Nat → Int → Int → JM S (Int × Int)
  | 0, _, _ => JM.throw .diverge
  | f + 1, c, d => do
    if c ≥ b then
      let x ← rd M.pri c
      let r ← cmp x v
      if r ≥ 0 then
        let x ← rd M.pri c
        let r ← cmp x v
        if r = 0 then
          swap M c d
          scanC M cmp v b f (c - 1) (d - 1)
        else scanC M cmp v b f (c - 1) d
      else pure (c, d)
    else pure (c, d)

/-- KeyValueCompanionSort.ftl:57-71, the partition loop; returns `a`, `b`, `c` and `d`. -/
def partition (M : Mem S K V) (cmp : Cmp S K) (v : K) :
    Nat → Int → Int → Int → Int → JM S (Int × Int × Int × Int)
  | 0, _, _, _, _ => JM.throw .diverge
  | f + 1, a, b, c, d => do
    let (a, b) ← scanB M cmp v c ((c - b).toNat + 2) a b
    let (c, d) ← scanC M cmp v b ((c - b).toNat + 2) c d
    if b > c then pure (a, b, c, d)
    else
      swap M b c
      partition M cmp v f a (b + 1) (c - 1) d

/-- KeyValueCompanionSort.ftl:20-84 `sort` on a stack that holds `f` nested calls; a deeper call ends in
StackOverflowError (`diverge`). -/
def sort (M : Mem S K V) (cmp : Cmp S K) : Nat → Int → Int → JM S Unit
  | 0, _, _ => JM.throw .diverge
  | f + 1, off, len => do
    let s ← get
    if i32 (off + len) > (M.pri s).len then JM.throw .illegalArgument
    else if i32 (off + len) > (M.sec s).len then JM.throw .illegalArgument
    else if off < 0 ∨ len < 0 then JM.throw .illegalArgument
    else if len < 7 then
      insertion M cmp off (i32 (len + off)) ((i32 (len + off) - off).toNat + 1) off
    else
      let m ← pivot M cmp off len
      let v ← rd M.pri m
      let c := i32 (i32 (off + len) - 1)
      let (a, b, c, d) ← partition M cmp v ((c - off).toNat + 2) off off c c
      let n := i32 (off + len)
      let s := min (a - off) (b - a)
      vecswap M off (b - s) s
      let s := min (d - c) (n - d - 1)
      vecswap M b (n - s) s
      JM.when (b - a > 1) (sort M cmp f off (b - a))
      JM.when (d - c > 1) (sort M cmp f (n - (d - c)) (d - c))

/-- Two different arrays, and a state `σ` the comparator works on. -/
structure Two (σ K V : Type) where
  arrs : CompanionSort.Arrs K V
  ext : σ

/-- One array, and a state `σ` the comparator works on. -/
structure One (σ K : Type) where
  arr : Arr K
  ext : σ

/-- `sort(pri, sec, ...)` with two different arrays. -/
def two {σ : Type} : Mem (Two σ K V) K V where
  pri s := s.arrs.pri
  setPri s a := { s with arrs := { s.arrs with pri := a } }
  sec s := s.arrs.sec
  setSec s a := { s with arrs := { s.arrs with sec := a } }

/-- `sort(a, a, ...)`: the same array twice. -/
def one {σ : Type} : Mem (One σ K) K K where
  pri s := s.arr
  setPri s a := { s with arr := a }
  sec s := s.arr
  setSec s a := { s with arr := a }

/-- A comparator that works on its own state `σ` only. -/
def onTwo {σ : Type} (cmp : K → K → JM σ Int) : Cmp (Two σ K V) K := fun x y => ⟨fun s =>
  match cmp x y s.ext with
  | .ok r e => .ok r { s with ext := e }
  | .err x e => .err x { s with ext := e }⟩

/-- A comparator that works on its own state `σ` only. -/
def onOne {σ : Type} (cmp : K → K → JM σ Int) : Cmp (One σ K) K := fun x y => ⟨fun s =>
  match cmp x y s.ext with
  | .ok r e => .ok r { s with ext := e }
  | .err x e => .err x { s with ext := e }⟩

end Verif.SortMem

import Verif.Gen.Prelude
import Verif.Model.SortMem
/-!
GENERATED by tools/j2l/translate.py from sort/KeyValueCompanionSort.ftl.  Do not edit: the translator is the only
reading of the Java text here.  Lean/Verif/Link proves that these definitions agree with the model.
-/
set_option linter.unusedVariables false
namespace Verif.Gen.KeyValueCompanionSort
open Verif

/-- KeyValueCompanionSort.ftl:90-99 `swap`. -/
def swap {S K V : Type} (M : SortMem.Mem S K V) (cmp : K → K → JM S Int) (a : Int) (b : Int) : JM S Unit := do
  let v1 ← rd M.pri a
  let oldPrimaryA := v1
  let v2 ← rd M.sec a
  let oldSecondaryA := v2
  let v3 ← rd M.sec b
  wr M.sec M.setSec a v3
  let v4 ← rd M.pri b
  wr M.pri M.setPri a v4
  wr M.pri M.setPri b oldPrimaryA
  wr M.sec M.setSec b oldSecondaryA
  pure ()

/-- KeyValueCompanionSort.ftl:113-117 `med3`. -/
def med3 {S K V : Type} (M : SortMem.Mem S K V) (cmp : K → K → JM S Int) (a : Int) (b : Int) (c : Int) : JM S Int := do
  let v1 ← rd M.pri a
  let v2 ← rd M.pri b
  let v3 ← cmp v1 v2
  let v18 ← (if (decide (v3 < 0)) = true then do
      let v4 ← rd M.pri b
      let v5 ← rd M.pri c
      let v6 ← cmp v4 v5
      let v10 ← (if (decide (v6 < 0)) = true then do
          pure b
        else do
          let v7 ← rd M.pri a
          let v8 ← rd M.pri c
          let v9 ← cmp v7 v8
          pure (if (decide (v9 < 0)) = true then c else a))
      pure v10
    else do
      let v11 ← rd M.pri b
      let v12 ← rd M.pri c
      let v13 ← cmp v11 v12
      let v17 ← (if (decide (v13 > 0)) = true then do
          pure b
        else do
          let v14 ← rd M.pri a
          let v15 ← rd M.pri c
          let v16 ← cmp v14 v15
          pure (if (decide (v16 > 0)) = true then c else a))
      pure v17)
  pure v18

/-- KeyValueCompanionSort.ftl:105, the loop. -/
def vecswap_loop1 {S K V : Type} (M : SortMem.Mem S K V) (cmp : K → K → JM S Int) (n_ : Int) :
    Nat → Int → Int → Int → JM S (Int × Int)
  | 0, _, _, _ => JM.throw .diverge
  | n + 1, a, b, i => do
    if (decide (i < n_)) = true then do
      swap M cmp a b
      let v1 := i32 (i + 1)
      let i := v1
      let v2 := i32 (a + 1)
      let a := v2
      let v3 := i32 (b + 1)
      let b := v3
      vecswap_loop1 M cmp n_ n a b i
    else do
      pure (a, b)

/-- KeyValueCompanionSort.ftl:104-108 `vecswap`. -/
def vecswap {S K V : Type} (M : SortMem.Mem S K V) (cmp : K → K → JM S Int) (fuel : Nat) (a : Int) (b : Int) (n_ : Int) : JM S Unit := do
  let i := 0
  let (a, b) ← vecswap_loop1 M cmp n_ fuel a b i
  pure ()

/-- KeyValueCompanionSort.ftl:32, the loop. -/
def sort_loop2 {S K V : Type} (M : SortMem.Mem S K V) (cmp : K → K → JM S Int) (off : Int) :
    Nat → Int → JM S Unit
  | 0, _ => JM.throw .diverge
  | n + 1, j => do
    let v6 ← (if (decide (j > off)) = true then do
        let v3 ← rd M.pri (i32 (j - 1))
        let v4 ← rd M.pri j
        let v5 ← cmp v3 v4
        pure (decide (v5 > 0))
      else pure false)
    if v6 = true then do
      swap M cmp j (i32 (j - 1))
      let v7 := i32 (j - 1)
      let j := v7
      sort_loop2 M cmp off n j
    else do
      pure ()

/-- KeyValueCompanionSort.ftl:31, the loop. -/
def sort_loop1 {S K V : Type} (M : SortMem.Mem S K V) (cmp : K → K → JM S Int) (fuel : Nat) (off : Int) (len : Int) :
    Nat → Int → JM S Unit
  | 0, _ => JM.throw .diverge
  | n + 1, i => do
    if (decide (i < (i32 (len + off)))) = true then do
      let j := i
      sort_loop2 M cmp off fuel j
      let v8 := i32 (i + 1)
      let i := v8
      sort_loop1 M cmp fuel off len n i
    else do
      pure ()

/-- KeyValueCompanionSort.ftl:58, the loop. -/
def sort_loop4 {S K V : Type} (M : SortMem.Mem S K V) (cmp : K → K → JM S Int) (v_ : K) (c : Int) :
    Nat → Int → Int → JM S (Int × Int)
  | 0, _, _ => JM.throw .diverge
  | n + 1, a, b => do
    let v16 ← (if (decide (b ≤ c)) = true then do
        let v14 ← rd M.pri b
        let v15 ← cmp v14 v_
        pure (decide (v15 ≤ 0))
      else pure false)
    if v16 = true then do
      let v17 ← rd M.pri b
      let v18 ← cmp v17 v_
      let a ← (if (decide (v18 = 0)) = true then do
          let v19 := a
          let a := (i32 (v19 + 1))
          swap M cmp v19 b
          pure a
        else pure a)
      let v20 := i32 (b + 1)
      let b := v20
      sort_loop4 M cmp v_ c n a b
    else do
      pure (a, b)

/-- KeyValueCompanionSort.ftl:63, the loop. -/
def sort_loop5 {S K V : Type} (M : SortMem.Mem S K V) (cmp : K → K → JM S Int) (v_ : K) (b : Int) :
    Nat → Int → Int → JM S (Int × Int)
  | 0, _, _ => JM.throw .diverge
  | n + 1, c, d => do
    let v23 ← (if (decide (c ≥ b)) = true then do
        let v21 ← rd M.pri c
        let v22 ← cmp v21 v_
        pure (decide (v22 ≥ 0))
      else pure false)
    if v23 = true then do
      let v24 ← rd M.pri c
      let v25 ← cmp v24 v_
      let d ← (if (decide (v25 = 0)) = true then do
          let v26 := c
          let v27 := d
          let d := (i32 (v27 - 1))
          swap M cmp v26 v27
          pure d
        else pure d)
      let v28 := i32 (c - 1)
      let c := v28
      sort_loop5 M cmp v_ b n c d
    else do
      pure (c, d)

/-- KeyValueCompanionSort.ftl:57, the loop. -/
def sort_loop3 {S K V : Type} (M : SortMem.Mem S K V) (cmp : K → K → JM S Int) (fuel : Nat) (v_ : K) :
    Nat → Int → Int → Int → Int → JM S (Int × Int × Int × Int)
  | 0, _, _, _, _ => JM.throw .diverge
  | n + 1, a, b, c, d => do
    let (a, b) ← sort_loop4 M cmp v_ c fuel a b
    let (c, d) ← sort_loop5 M cmp v_ b fuel c d
    if (decide (b > c)) = true then do
      pure (a, b, c, d)
    else do
      let v29 := b
      let b := (i32 (v29 + 1))
      let v30 := v29
      let v31 := c
      let c := (i32 (v31 - 1))
      swap M cmp v30 v31
      sort_loop3 M cmp fuel v_ n a b c d

/-- KeyValueCompanionSort.ftl:18-85 `sort`, which calls itself: at most `depth` nested calls. -/
def sort {S K V : Type} (M : SortMem.Mem S K V) (cmp : K → K → JM S Int) (fuel : Nat) :
    Nat → Int → Int → JM S Unit
  | 0, _, _ => JM.throw .diverge
  | depth + 1, off, len => do
    let s1 ← get
    (if (decide ((i32 (off + len)) > ((M.pri s1).len : Int))) = true then do
        JM.throw .illegalArgument
      else pure ())
    let s2 ← get
    (if (decide ((i32 (off + len)) > ((M.sec s2).len : Int))) = true then do
        JM.throw .illegalArgument
      else pure ())
    (if ((decide (off < 0)) || (decide (len < 0))) = true then do
        JM.throw .illegalArgument
      else pure ())
    if (decide (len < 7)) = true then do
      let i := off
      sort_loop1 M cmp fuel off len fuel i
      pure ()
    else do
      let m := (i32 (off + (shr32 len 1)))
      let m ← (if (decide (len > 7)) = true then do
          let l := off
          let n_ := (i32 ((i32 (off + len)) - 1))
          let (m, l, n_) ← (if (decide (len > 40)) = true then do
              let s_ := (i32 (Int.tdiv len 8))
              let v9 ← med3 M cmp l (i32 (l + s_)) (i32 (l + (i32 (2 * s_))))
              let l := v9
              let v10 ← med3 M cmp (i32 (m - s_)) m (i32 (m + s_))
              let m := v10
              let v11 ← med3 M cmp (i32 (n_ - (i32 (2 * s_)))) (i32 (n_ - s_)) n_
              let n_ := v11
              pure (m, l, n_)
            else pure (m, l, n_))
          let v12 ← med3 M cmp l m n_
          let m := v12
          pure m
        else pure m)
      let v13 ← rd M.pri m
      let v_ := v13
      let a := off
      let b := a
      let c := (i32 ((i32 (off + len)) - 1))
      let d := c
      let (a, b, c, d) ← sort_loop3 M cmp fuel v_ fuel a b c d
      let s_ := 0
      let n_ := (i32 (off + len))
      let s_ := (min (i32 (a - off)) (i32 (b - a)))
      vecswap M cmp fuel off (i32 (b - s_)) s_
      let s_ := (min (i32 (d - c)) (i32 ((i32 (n_ - d)) - 1)))
      vecswap M cmp fuel b (i32 (n_ - s_)) s_
      let s_ := (i32 (b - a))
      (if (decide (s_ > 1)) = true then do
          sort M cmp fuel depth off s_
          pure ()
        else pure ())
      let s_ := (i32 (d - c))
      (if (decide (s_ > 1)) = true then do
          sort M cmp fuel depth (i32 (n_ - s_)) s_
          pure ()
        else pure ())
      pure ()
end Verif.Gen.KeyValueCompanionSort

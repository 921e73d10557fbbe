import Verif.Model.Stores
/-!
What the generated modules in this directory (written by tools/j2l/translate.py) use beyond
`Verif.Java`: local arrays, nullable references, loops with `return`.  Nothing here models a method
of `/repo`.
-/
namespace Verif.Gen

/-- How a loop with a `return` in its body ends. -/
inductive Flow (ρ β : Type)
  | ret (v : ρ)
  | next (b : β)

/-- `a[i] = v` on a local array. -/
def wrA {σ α : Type} (a : Arr α) (i : Int) (v : α) : JM σ (Arr α) := ⟨fun s =>
  if 0 ≤ i ∧ i < a.len then .ok (a.set i v) s else .err .indexOutOfBounds s⟩

/-- Use of a reference that may be null. -/
def deref {σ α : Type} : Option α → JM σ α
  | some a => pure a
  | none => JM.throw .nullPointer

/-- `new T[n][m]`. -/
def newArr2 {σ α : Type} (n m : Int) (d : α) : JM σ (Arr (Arr α)) := ⟨fun s =>
  if n < 0 ∨ m < 0 then .err .negativeArraySize s
  else .ok (Arr.create n (Arr.create m d)) s⟩

/-- `Arrays.fill(a, from, to, v)` of the JDK, which checks the range first. -/
def arraysFill {σ α : Type} (a : Arr α) (start stop : Int) (v : α) : JM σ (Arr α) := ⟨fun s =>
  if start > stop then .err .illegalArgument s
  else if start < 0 ∨ stop > a.len then .err .indexOutOfBounds s
  else .ok (a.fillRange v start (stop - start)) s⟩

end Verif.Gen

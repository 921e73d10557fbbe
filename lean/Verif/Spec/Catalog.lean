import Verif.Model.InvertedIndex
import Verif.Model.School
/-!
What an inverted index and a school register should do: both are lists of distinct facts, most recent
first.  Nothing here knows about entries.
-/
namespace Verif.CatalogSpec
open Verif.Convert

/-- State a fact (again). -/
def record {α : Type} [DecidableEq α] (f : α) (l : List α) : List α := if f ∈ l then l else f :: l

/-! ### The inverted index -/

/-- The facts "order `o` was added with the term `t`" after the calls. -/
def facts (calls : List InvertedIndex.Call) : List (Option JString × BitVec 64) :=
  calls.foldl (fun l c => match c with
    | .add o symbol strategy => record (strategy, o) (record (symbol, o) l)
    | _ => l) []

/-- The orders of a term, most recent first. -/
def ordersOf (t : Option JString) (l : List (Option JString × BitVec 64)) : List (BitVec 64) :=
  (l.filter fun f => f.1 = t).map (·.2)

/-- Which result of a call is right, if `l` are the facts before the call. -/
def Right (l : List (Option JString × BitVec 64)) : InvertedIndex.Call → Except Err InvertedIndex.Result → Prop
  | .add _ _ _, r => r = .ok .unit
  | .count t, r => r = .ok (.int (ordersOf t l).length)
  | .iterate t, r => r = .ok (.orders (ordersOf t l))

/-- The one other thing that can happen: there are more than 128 facts, the term has exactly one order, and
iterating it throws. -/
def Wrong (l : List (Option JString × BitVec 64)) : InvertedIndex.Call → Except Err InvertedIndex.Result → Prop
  | .iterate t, r => r = .error .indexOutOfBounds ∧ 128 < l.length ∧ (ordersOf t l).length = 1
  | _, _ => False

/-- The number of `add` calls. -/
def adds (calls : List InvertedIndex.Call) : Nat :=
  calls.countP fun c => match c with | .add _ _ _ => true | _ => false

/-! ### The school -/

/-- What a school knows: the teacher of every class it offers, and who is enrolled in what. -/
structure Register where
  /-- the classes offered, oldest first -/
  classes : List (Option JString)
  teacher : Option JString → Option JString
  /-- (class, student), most recent first -/
  enrolled : List (Option JString × Option JString)

/-- The register after a call. -/
def Register.after (g : Register) : School.Call → Register
  | .updateClass c t =>
    { g with classes := if c ∈ g.classes then g.classes else g.classes ++ [c]
             teacher := fun c' => if c' = c then t else g.teacher c' }
  | .enroll c s => if c ∈ g.classes then { g with enrolled := record (c, s) g.enrolled } else g
  | _ => g

/-- The register after some calls. -/
def register (calls : List School.Call) : Register := calls.foldl Register.after ⟨[], fun _ => none, []⟩

/-- The students of a class, last enrolled first. -/
def Register.studentsOf (g : Register) (c : Option JString) : List (Option JString) :=
  (g.enrolled.filter fun f => f.1 = c).map (·.2)

/-- The classes of a student, last enrolled first. -/
def Register.classesOf (g : Register) (s : Option JString) : List (Option JString) :=
  (g.enrolled.filter fun f => f.2 = s).map (·.1)

/-- Which result of a call is right, if `g` is the register before the call. -/
def SchoolRight (g : Register) : School.Call → Except Err School.Result → Prop
  | .updateClass _ _, r => r = .ok .unit
  | .enroll c _, r => r = .ok (.enrolled (decide (c ∈ g.classes)))
  | .printStudentsInClass c, r =>
    if c ∈ g.classes then r = .ok (.classReport (some ⟨(g.studentsOf c).length, g.teacher c, g.studentsOf c⟩))
    else r = .ok (.classReport none)
  | .printClassesForStudent s, r =>
    if g.classesOf s ≠ [] then
      r = .ok (.studentReport (some ⟨(g.classesOf s).length, (g.classesOf s).map fun c => (c, g.teacher c)⟩))
    else r = .ok (.studentReport none)

/-- The other things that can happen: printing throws for a class without students if more than 16 classes
are offered, and for a class or student with exactly one enrolment if there are more than 16. -/
def SchoolWrong (g : Register) : School.Call → Except Err School.Result → Prop
  | .printStudentsInClass c, r => r = .error .indexOutOfBounds ∧ c ∈ g.classes ∧
      (((g.studentsOf c).length = 1 ∧ 16 < g.enrolled.length) ∨ (g.studentsOf c = [] ∧ 16 < g.classes.length))
  | .printClassesForStudent s, r => r = .error .indexOutOfBounds ∧ (g.classesOf s).length = 1 ∧ 16 < g.enrolled.length
  | _, _ => False

end Verif.CatalogSpec

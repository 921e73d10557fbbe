import Verif.Model.Bi
import Verif.Model.Strings
/-!
Models the class `School` of
`examples/src/main/java/com/bytefacets/collections/bi/ManyToManyExample.java`, the use the documentation makes
of `CompactManyToMany` together with an indexed set and an indexed map.  The printing methods return what
they print; if a walk throws, what was printed before is not recorded.
-/
namespace Verif
open Verif.Convert

/-- ManyToManyExample.java:68-70, the fields. -/
structure School where
  students : Index (Option JString) Unit
  classToTeacher : Index (Option JString) (Option JString)
  registrations : Bi

namespace School

/-- ManyToManyExample.java:68-70, the initialisers (default load factor 0.75; CompactManyToMany.java:16-18). -/
def new : Except Err School := do
  let students ← Index.new Strings.stringHash Strings.stringEq 16 3 4
  let classToTeacher ← Index.new Strings.stringHash Strings.stringEq 16 3 4
  let registrations ← Bi.new true 16 16 16 true
  pure ⟨students, classToTeacher, registrations⟩

/-- A call on `students`. -/
def onStudents {α : Type} (m : JM (Index (Option JString) Unit) α) : JM School α := ⟨fun s =>
  match m s.students with
  | .ok a t => .ok a { s with students := t }
  | .err e t => .err e { s with students := t }⟩

/-- A call on `classToTeacher`. -/
def onClasses {α : Type} (m : JM (Index (Option JString) (Option JString)) α) : JM School α := ⟨fun s =>
  match m s.classToTeacher with
  | .ok a t => .ok a { s with classToTeacher := t }
  | .err e t => .err e { s with classToTeacher := t }⟩

/-- A call on `registrations`. -/
def onRegs {α : Type} (m : JM Bi α) : JM School α := ⟨fun s =>
  match m s.registrations with
  | .ok a t => .ok a { s with registrations := t }
  | .err e t => .err e { s with registrations := t }⟩

/-- ManyToManyExample.java:72-75 `updateClass`. -/
def updateClass (className teacherName : Option JString) : JM School Unit := do
  let _ ← onClasses (Index.put className teacherName)
  pure ()

/-- ManyToManyExample.java:77-87 `enroll`; false if the class is not found. -/
def enroll (className studentName : Option JString) : JM School Bool := do
  let classEntry ← onClasses (Index.lookupEntry className)
  if classEntry ≠ -1 then do
    let studentEntry ← onStudents (Index.add studentName)
    let _ ← onRegs (Bi.put classEntry studentEntry)
    pure true
  else pure false

/-- ManyToManyExample.java:101-104, the consumer for each of the entries. -/
def studentsAt : List Int → JM School (List (Option JString))
  | [] => pure []
  | e :: es => do
    let name ← onStudents (Index.getKeyAt e)
    let rest ← studentsAt es
    pure (name :: rest)

/-- What ManyToManyExample.java:98-104 prints: the number of students, the teacher and the students. -/
structure ClassReport where
  count : Int
  teacher : Option JString
  students : List (Option JString)
  deriving DecidableEq

/-- ManyToManyExample.java:89-107 `printStudentsInClass`; `none` is "NOT FOUND". -/
def printStudentsInClass (className : Option JString) : JM School (Option ClassReport) := do
  let classEntry ← onClasses (Index.lookupEntry className)
  if classEntry = -1 then pure none
  else do
    onRegs (Bi.withKey .left classEntry)
    let teacher ← onClasses (Index.getValueAt classEntry)
    let n ← onRegs (Bi.count .left)
    let es ← onRegs (Bi.forEachOf .left .value)
    let names ← studentsAt es
    pure (some ⟨n, teacher, names⟩)

/-- ManyToManyExample.java:119-125, the consumer for each of the entries. -/
def classesAt : List Int → JM School (List (Option JString × Option JString))
  | [] => pure []
  | e :: es => do
    let className ← onClasses (Index.getKeyAt e)
    let teacher ← onClasses (Index.getValueAt e)
    let rest ← classesAt es
    pure ((className, teacher) :: rest)

/-- What ManyToManyExample.java:117-126 prints: the number of classes, and each with its teacher. -/
structure StudentReport where
  count : Int
  classes : List (Option JString × Option JString)
  deriving DecidableEq

/-- ManyToManyExample.java:109-128 `printClassesForStudent`; `none` is "NOT FOUND". -/
def printClassesForStudent (student : Option JString) : JM School (Option StudentReport) := do
  let studentEntry ← onStudents (Index.lookupEntry student)
  if studentEntry = -1 then pure none
  else do
    onRegs (Bi.withKey .right studentEntry)
    let n ← onRegs (Bi.count .right)
    let es ← onRegs (Bi.forEachOf .right .value)
    let classes ← classesAt es
    pure (some ⟨n, classes⟩)

/-- The calls. -/
inductive Call
  | updateClass (className teacherName : Option JString)
  | enroll (className studentName : Option JString)
  | printStudentsInClass (className : Option JString)
  | printClassesForStudent (student : Option JString)

/-- What they return or print. -/
inductive Result
  | unit
  | enrolled (b : Bool)
  | classReport (r : Option ClassReport)
  | studentReport (r : Option StudentReport)
  deriving DecidableEq

/-- Dispatch of one call to its model. -/
def step : Call → JM School Result
  | .updateClass c t => do updateClass c t; pure .unit
  | .enroll c s => do return .enrolled (← enroll c s)
  | .printStudentsInClass c => do return .classReport (← printStudentsInClass c)
  | .printClassesForStudent s => do return .studentReport (← printClassesForStudent s)

end School
end Verif

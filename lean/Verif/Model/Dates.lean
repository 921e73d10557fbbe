import Verif.Java
/-!
Models the date and time conversions of
`collections/src/main/java/com/bytefacets/collections/types/IntType.java:148-182`.
`java.time.LocalDate/LocalTime` are modelled by their fields; `LocalDate.of` and `LocalTime.of` by the
validation the JDK documents.
-/
namespace Verif.Dates
open Verif

/-- The fields of a `java.time.LocalDate`. -/
structure LDate where
  year : Int
  month : Int
  day : Int
  deriving DecidableEq

/-- The fields of a `java.time.LocalTime`. -/
structure LTime where
  hour : Int
  minute : Int
  second : Int
  nano : Int
  deriving DecidableEq

/-- JDK `IsoChronology.isLeapYear`. -/
def leap (y : Int) : Bool := y % 4 = 0 ∧ (y % 100 ≠ 0 ∨ y % 400 = 0)

/-- JDK `Month.length`. -/
def monthLength (y m : Int) : Int :=
  if m = 2 then (if leap y then 29 else 28)
  else if m = 4 ∨ m = 6 ∨ m = 9 ∨ m = 11 then 30 else 31

/-- The dates that exist (JDK `LocalDate.of` throws DateTimeException for all others). -/
def LDate.Valid (d : LDate) : Prop :=
  (-999999999 ≤ d.year ∧ d.year ≤ 999999999) ∧ (1 ≤ d.month ∧ d.month ≤ 12) ∧
  (1 ≤ d.day ∧ d.day ≤ monthLength d.year d.month)

instance (d : LDate) : Decidable d.Valid := by unfold LDate.Valid; infer_instance

/-- The times of day that exist. -/
def LTime.Valid (t : LTime) : Prop :=
  (0 ≤ t.hour ∧ t.hour < 24) ∧ (0 ≤ t.minute ∧ t.minute < 60) ∧ (0 ≤ t.second ∧ t.second < 60) ∧
  (0 ≤ t.nano ∧ t.nano < 1000000000)

instance (t : LTime) : Decidable t.Valid := by unfold LTime.Valid; infer_instance

/-- JDK `LocalDate.of`. -/
def dateOf (y m d : Int) : Except Err LDate :=
  if (LDate.mk y m d).Valid then .ok ⟨y, m, d⟩ else .error .dateTime

/-- JDK `LocalTime.of(hour, minute, second)`. -/
def timeOf (h m s : Int) : Except Err LTime :=
  if (LTime.mk h m s 0).Valid then .ok ⟨h, m, s, 0⟩ else .error .dateTime

/-- IntType.java:176-178 `toYYYMMDD` -/
def toYYYMMDD (year month day : Int) : Int := i32 (i32 (i32 (year * 10000) + i32 (month * 100)) + day)
/-- IntType.java:180-182 `toHHMMSS` -/
def toHHMMSS (hour minute second : Int) : Int :=
  i32 (i32 (i32 (hour * 10000) + i32 (minute * 100)) + second)
/-- IntType.java:148-150 -/
def fromLocalDate (d : LDate) : Int := toYYYMMDD d.year d.month d.day
/-- IntType.java:152-157 (Java `/` and `%` truncate towards zero) -/
def toLocalDate (x : Int) : Except Err LDate :=
  dateOf (x.tdiv 10000) ((x.tdiv 100).tmod 100) (x.tmod 100)
/-- IntType.java:159-161 -/
def fromLocalTime (t : LTime) : Int := toHHMMSS t.hour t.minute t.second
/-- The fields of a `java.sql.Date` as its deprecated getters give them: years since 1900, months from 0. -/
structure SqlDate where
  year : Int
  month : Int
  date : Int

/-- The `java.sql.Date` of a date, JDK `Date.valueOf(LocalDate)`. -/
def sqlDateOf (d : LDate) : SqlDate := ⟨d.year - 1900, d.month - 1, d.day⟩

/-- IntType.java:163-167 -/
def fromSqlDate (d : SqlDate) : Int := toYYYMMDD (i32 (d.year + 1900)) (i32 (d.month + 1)) d.date
/-- IntType.java:169-174 -/
def toLocalTime (x : Int) : Except Err LTime :=
  timeOf (x.tdiv 10000) ((x.tdiv 100).tmod 100) (x.tmod 100)

end Verif.Dates

import Verif.Model.Convert
import Verif.Model.Compare
import Verif.Model.KeyTypes
/-!
Models the string functions of `collections/src/main/java/com/bytefacets/collections/types/StringType.java`
on actual texts: a `String` is the list of its UTF-16 code units, `none` is null.  The JDK's
`String.compareTo`, `compareToIgnoreCase`, `equals` and `hashCode` are modelled from their
specifications.  That a reference compared with itself short-cuts (StringType.java:41) is in `Compare`;
here two strings are the same reference or not, whichever: `StringOrder` in the proofs shows it makes no
difference.
-/
namespace Verif.Strings
open Verif.Convert

/-- JDK `String.compareTo`: the difference of the first code units that differ, else of the lengths. -/
def compareTo : JString → JString → Int
  | [], [] => 0
  | [], _ :: bs => -((bs.length : Int) + 1)
  | _ :: as, [] => (as.length : Int) + 1
  | a :: as, b :: bs => if a = b then compareTo as bs else (a.toNat : Int) - b.toNat

/-- JDK `String.compareToIgnoreCase`, given `Character.toUpperCase` and `toLowerCase`: code units that differ
are compared again after both were converted to upper case, and again after that to lower case. -/
def compareToIgnoreCase (upper lower : BitVec 16 → BitVec 16) : JString → JString → Int
  | [], [] => 0
  | [], _ :: bs => -((bs.length : Int) + 1)
  | _ :: as, [] => (as.length : Int) + 1
  | a :: as, b :: bs =>
    if a = b then compareToIgnoreCase upper lower as bs
    else if upper a = upper b then compareToIgnoreCase upper lower as bs
    else if lower (upper a) = lower (upper b) then compareToIgnoreCase upper lower as bs
    else ((lower (upper a)).toNat : Int) - (lower (upper b)).toNat

/-- JDK `String.hashCode`: `s[0]*31^(n-1) + ... + s[n-1]` in `int` arithmetic. -/
def hashCode (s : JString) : BitVec 32 := s.foldl (fun h c => 31#32 * h + c.setWidth 32) 0

/-- StringType.java:18 `EqImpl`: `Objects::equals` of two strings, i.e. the same text or both null. -/
def stringEq (a b : Option JString) : Bool := KeyTypes.objectsEq (· == ·) (· == ·) a b

/-- StringType.java:83 `HashImpl`. -/
def stringHash (a : Option JString) : BitVec 32 := KeyTypes.objectsHash hashCode a

/-- StringType.java:46-54 `comparatorFor`, for references into a heap `h` of strings. -/
def comparatorFor (upper lower : BitVec 16 → BitVec 16) (h : Nat → JString) :
    Cmp.CompareMethod → Option Nat → Option Nat → Except Err Int
  | .ascending => Cmp.ascRef h compareTo
  | .descending => Cmp.descRef h compareTo
  | .ascendingAbsolute => Cmp.ascRef h (compareToIgnoreCase upper lower)
  | .descendingAbsolute => Cmp.descRef h (compareToIgnoreCase upper lower)

/-- StringType.java:70-80 `predicateFor`, for references into a heap `h` of strings. -/
def predicateFor (h : Nat → JString) : Cmp.PredicateMethod → Option Nat → Option Nat → Except Err Bool :=
  Cmp.stringPredicateFor h compareTo (· == ·)

end Verif.Strings

import Verif.Gen.Types
import Verif.Link.Types5
import Verif.Model.Strings
/-!
The tests `types/*TypeTest.java` and `PackTest.java` on the code generated from `types/*.java`, and checks of the
JDK functions of `Verif/Gen/Jdk.lean` against values documented for the JDK.
**These are tests, not proofs**; see `Conformance/Containers.lean`.  Written by a script: floating-point
literals appear as their IEEE bits.
-/
namespace Verif.Conformance
open Verif Verif.Gen Verif.Gen.Types

/-- `list.sort(cmp)`: a stable sort with a comparator. -/
def insertBy {α : Type} (cmp : α → α → BitVec 32) (x : α) : List α → List α
  | [] => [x]
  | y :: l => if (cmp x y).toInt ≤ 0 then x :: y :: l else y :: insertBy cmp x l
def sortBy {α : Type} (cmp : α → α → BitVec 32) (l : List α) : List α := l.foldr (insertBy cmp) []
def sortOk {α : Type} (cmp : Except Err (α → α → BitVec 32)) (l : List α) : Option (List α) :=
  match cmp with | .ok c => some (sortBy c l) | .error _ => none
def testOk {α : Type} (p : Except Err (α → α → Bool)) (a b : α) : Option Bool :=
  match p with | .ok q => some (q a b) | .error _ => none
/-- the bytes and the result after a write -/
def written (r : Res Codec.Bytes (BitVec 32)) : Except Err (BitVec 32) × List (BitVec 8) := (r.out, r.state.toList)
/-- write at 1, then read at 1 -/
def roundTrip {α : Type} (n : Nat) (w : JM Codec.Bytes (BitVec 32)) (r : JM Codec.Bytes α) : Except Err (BitVec 32) × Except Err α :=
  ((w (Arr.create n 0)).out, (r (w (Arr.create n 0)).state).out)

/-! ### ByteTypeTest.java -/
/-- `shouldUnboxNumbers` -/
example : ([.num (.byte 5#8), .num (.short 5#16), .num (.int 5#32), .num (.long 5#64), .num (.float 0x40A66666#32), .num (.double 0x4015333333333333#64)] : List Convert.JObj).map ByteType.unbox =
    List.replicate 6 (.ok 5#8) := by decide +kernel
/-- `shouldCompare` -/
example : sortOk (ByteType.comparatorFor .ascending) [3#8, 252#8, 1#8, 2#8] = some [252#8, 1#8, 2#8, 3#8] := by decide +kernel
example : sortOk (ByteType.comparatorFor .descending) [3#8, 252#8, 1#8, 2#8] = some [3#8, 2#8, 1#8, 252#8] := by decide +kernel
example : sortOk (ByteType.comparatorFor .ascendingAbsolute) [3#8, 252#8, 1#8, 2#8] = some [1#8, 2#8, 3#8, 252#8] := by decide +kernel
example : sortOk (ByteType.comparatorFor .descendingAbsolute) [3#8, 252#8, 1#8, 2#8] = some [252#8, 3#8, 2#8, 1#8] := by decide +kernel
/-- `shouldTestPredicate` -/
example : [testOk (ByteType.predicateFor .eq) 1#8 1#8, testOk (ByteType.predicateFor .eq) 1#8 0#8, testOk (ByteType.predicateFor .neq) 1#8 1#8, testOk (ByteType.predicateFor .neq) 1#8 0#8, testOk (ByteType.predicateFor .lt) 1#8 1#8, testOk (ByteType.predicateFor .lt) 1#8 0#8, testOk (ByteType.predicateFor .lt) 0#8 1#8, testOk (ByteType.predicateFor .lte) 1#8 1#8, testOk (ByteType.predicateFor .lte) 1#8 0#8, testOk (ByteType.predicateFor .lte) 0#8 1#8, testOk (ByteType.predicateFor .gt) 1#8 1#8, testOk (ByteType.predicateFor .gt) 1#8 0#8, testOk (ByteType.predicateFor .gt) 0#8 1#8, testOk (ByteType.predicateFor .gte) 1#8 1#8, testOk (ByteType.predicateFor .gte) 1#8 0#8, testOk (ByteType.predicateFor .gte) 0#8 1#8] =
    [some true, some false, some false, some true, some false, some false, some true, some true, some false, some true, some false, some true, some false, some true, some true, some false] := by decide +kernel
/-- `shouldEnableFlags`, `shouldDisableFlags` -/
example : ByteType.enableBits 0#8 17#8 = 17#8 ∧ ByteType.disableBits 0#8 17#8 = 0#8 := by decide +kernel
example : ByteType.enableBits 9#8 17#8 = 25#8 ∧ ByteType.disableBits 9#8 17#8 = 8#8 := by decide +kernel
example : ByteType.enableBits 127#8 0#8 = 127#8 ∧ ByteType.disableBits 127#8 0#8 = 127#8 := by decide +kernel
example : ByteType.enableBits 0#8 127#8 = 127#8 ∧ ByteType.disableBits 0#8 127#8 = 0#8 := by decide +kernel
/-- `ReadWriteArrayTests`: the bytes are those of `ByteBuffer.put` -/
example : written (ByteType.writeBE 1#32 128#8 (Arr.create 3 0)) = (.ok 2#32, [0#8, 128#8, 0#8]) ∧
    (roundTrip 3 (ByteType.writeBE 1#32 128#8) (ByteType.readBE 1#32)).2 = .ok 128#8 := by decide +kernel
example : written (ByteType.writeLE 1#32 128#8 (Arr.create 3 0)) = (.ok 2#32, [0#8, 128#8, 0#8]) ∧
    (roundTrip 3 (ByteType.writeLE 1#32 128#8) (ByteType.readLE 1#32)).2 = .ok 128#8 := by decide +kernel
example : written (ByteType.writeBE 1#32 127#8 (Arr.create 3 0)) = (.ok 2#32, [0#8, 127#8, 0#8]) ∧
    (roundTrip 3 (ByteType.writeBE 1#32 127#8) (ByteType.readBE 1#32)).2 = .ok 127#8 := by decide +kernel
example : written (ByteType.writeLE 1#32 127#8 (Arr.create 3 0)) = (.ok 2#32, [0#8, 127#8, 0#8]) ∧
    (roundTrip 3 (ByteType.writeLE 1#32 127#8) (ByteType.readLE 1#32)).2 = .ok 127#8 := by decide +kernel
example : written (ByteType.writeBE 1#32 0#8 (Arr.create 3 0)) = (.ok 2#32, [0#8, 0#8, 0#8]) ∧
    (roundTrip 3 (ByteType.writeBE 1#32 0#8) (ByteType.readBE 1#32)).2 = .ok 0#8 := by decide +kernel
example : written (ByteType.writeLE 1#32 0#8 (Arr.create 3 0)) = (.ok 2#32, [0#8, 0#8, 0#8]) ∧
    (roundTrip 3 (ByteType.writeLE 1#32 0#8) (ByteType.readLE 1#32)).2 = .ok 0#8 := by decide +kernel
example : written (ByteType.writeBE 1#32 255#8 (Arr.create 3 0)) = (.ok 2#32, [0#8, 255#8, 0#8]) ∧
    (roundTrip 3 (ByteType.writeBE 1#32 255#8) (ByteType.readBE 1#32)).2 = .ok 255#8 := by decide +kernel
example : written (ByteType.writeLE 1#32 255#8 (Arr.create 3 0)) = (.ok 2#32, [0#8, 255#8, 0#8]) ∧
    (roundTrip 3 (ByteType.writeLE 1#32 255#8) (ByteType.readLE 1#32)).2 = .ok 255#8 := by decide +kernel
example : written (ByteType.writeBE 1#32 87#8 (Arr.create 3 0)) = (.ok 2#32, [0#8, 87#8, 0#8]) ∧
    (roundTrip 3 (ByteType.writeBE 1#32 87#8) (ByteType.readBE 1#32)).2 = .ok 87#8 := by decide +kernel
example : written (ByteType.writeLE 1#32 87#8 (Arr.create 3 0)) = (.ok 2#32, [0#8, 87#8, 0#8]) ∧
    (roundTrip 3 (ByteType.writeLE 1#32 87#8) (ByteType.readLE 1#32)).2 = .ok 87#8 := by decide +kernel
/-- `ConvertTests` -/
example : ([.num (.byte 5#8), .num (.short 5#16), .num (.int 5#32), .num (.long 5#64), .num (.float 0x40A66666#32), .num (.double 0x4015333333333333#64), .bool true, .bool false, .string [49#16, 50#16, 51#16], .null] : List Convert.JObj).map ByteType.convert =
    List.replicate 6 (.ok 5#8) ++ [.ok 1#8, .ok 0#8, .ok 123#8, .ok 0#8] := by decide +kernel
/-! ### ShortTypeTest.java -/
/-- `shouldUnboxNumbers` -/
example : ([.num (.byte 5#8), .num (.short 5#16), .num (.int 5#32), .num (.long 5#64), .num (.float 0x40A66666#32), .num (.double 0x4015333333333333#64)] : List Convert.JObj).map ShortType.unbox =
    List.replicate 6 (.ok 5#16) := by decide +kernel
/-- `shouldCompare` -/
example : sortOk (ShortType.comparatorFor .ascending) [3#16, 65532#16, 1#16, 2#16] = some [65532#16, 1#16, 2#16, 3#16] := by decide +kernel
example : sortOk (ShortType.comparatorFor .descending) [3#16, 65532#16, 1#16, 2#16] = some [3#16, 2#16, 1#16, 65532#16] := by decide +kernel
example : sortOk (ShortType.comparatorFor .ascendingAbsolute) [3#16, 65532#16, 1#16, 2#16] = some [1#16, 2#16, 3#16, 65532#16] := by decide +kernel
example : sortOk (ShortType.comparatorFor .descendingAbsolute) [3#16, 65532#16, 1#16, 2#16] = some [65532#16, 3#16, 2#16, 1#16] := by decide +kernel
/-- `shouldTestPredicate` -/
example : [testOk (ShortType.predicateFor .eq) 1#16 1#16, testOk (ShortType.predicateFor .eq) 1#16 0#16, testOk (ShortType.predicateFor .neq) 1#16 1#16, testOk (ShortType.predicateFor .neq) 1#16 0#16, testOk (ShortType.predicateFor .lt) 1#16 1#16, testOk (ShortType.predicateFor .lt) 1#16 0#16, testOk (ShortType.predicateFor .lt) 0#16 1#16, testOk (ShortType.predicateFor .lte) 1#16 1#16, testOk (ShortType.predicateFor .lte) 1#16 0#16, testOk (ShortType.predicateFor .lte) 0#16 1#16, testOk (ShortType.predicateFor .gt) 1#16 1#16, testOk (ShortType.predicateFor .gt) 1#16 0#16, testOk (ShortType.predicateFor .gt) 0#16 1#16, testOk (ShortType.predicateFor .gte) 1#16 1#16, testOk (ShortType.predicateFor .gte) 1#16 0#16, testOk (ShortType.predicateFor .gte) 0#16 1#16] =
    [some true, some false, some false, some true, some false, some false, some true, some true, some false, some true, some false, some true, some false, some true, some true, some false] := by decide +kernel
/-- `shouldEnableFlags`, `shouldDisableFlags` -/
example : ShortType.enableBits 0#16 4497#16 = 4497#16 ∧ ShortType.disableBits 0#16 4497#16 = 0#16 := by decide +kernel
example : ShortType.enableBits 2441#16 4369#16 = 6553#16 ∧ ShortType.disableBits 2441#16 4369#16 = 2184#16 := by decide +kernel
example : ShortType.enableBits 32767#16 0#16 = 32767#16 ∧ ShortType.disableBits 32767#16 0#16 = 32767#16 := by decide +kernel
example : ShortType.enableBits 0#16 32767#16 = 32767#16 ∧ ShortType.disableBits 0#16 32767#16 = 0#16 := by decide +kernel
/-- `ReadWriteArrayTests`: the bytes are those of `ByteBuffer.put` -/
example : written (ShortType.writeBE 1#32 32768#16 (Arr.create 4 0)) = (.ok 3#32, [0#8, 128#8, 0#8, 0#8]) ∧
    (roundTrip 4 (ShortType.writeBE 1#32 32768#16) (ShortType.readBE 1#32)).2 = .ok 32768#16 := by decide +kernel
example : written (ShortType.writeLE 1#32 32768#16 (Arr.create 4 0)) = (.ok 3#32, [0#8, 0#8, 128#8, 0#8]) ∧
    (roundTrip 4 (ShortType.writeLE 1#32 32768#16) (ShortType.readLE 1#32)).2 = .ok 32768#16 := by decide +kernel
example : written (ShortType.writeBE 1#32 32767#16 (Arr.create 4 0)) = (.ok 3#32, [0#8, 127#8, 255#8, 0#8]) ∧
    (roundTrip 4 (ShortType.writeBE 1#32 32767#16) (ShortType.readBE 1#32)).2 = .ok 32767#16 := by decide +kernel
example : written (ShortType.writeLE 1#32 32767#16 (Arr.create 4 0)) = (.ok 3#32, [0#8, 255#8, 127#8, 0#8]) ∧
    (roundTrip 4 (ShortType.writeLE 1#32 32767#16) (ShortType.readLE 1#32)).2 = .ok 32767#16 := by decide +kernel
example : written (ShortType.writeBE 1#32 0#16 (Arr.create 4 0)) = (.ok 3#32, [0#8, 0#8, 0#8, 0#8]) ∧
    (roundTrip 4 (ShortType.writeBE 1#32 0#16) (ShortType.readBE 1#32)).2 = .ok 0#16 := by decide +kernel
example : written (ShortType.writeLE 1#32 0#16 (Arr.create 4 0)) = (.ok 3#32, [0#8, 0#8, 0#8, 0#8]) ∧
    (roundTrip 4 (ShortType.writeLE 1#32 0#16) (ShortType.readLE 1#32)).2 = .ok 0#16 := by decide +kernel
example : written (ShortType.writeBE 1#32 65535#16 (Arr.create 4 0)) = (.ok 3#32, [0#8, 255#8, 255#8, 0#8]) ∧
    (roundTrip 4 (ShortType.writeBE 1#32 65535#16) (ShortType.readBE 1#32)).2 = .ok 65535#16 := by decide +kernel
example : written (ShortType.writeLE 1#32 65535#16 (Arr.create 4 0)) = (.ok 3#32, [0#8, 255#8, 255#8, 0#8]) ∧
    (roundTrip 4 (ShortType.writeLE 1#32 65535#16) (ShortType.readLE 1#32)).2 = .ok 65535#16 := by decide +kernel
example : written (ShortType.writeBE 1#32 11742#16 (Arr.create 4 0)) = (.ok 3#32, [0#8, 45#8, 222#8, 0#8]) ∧
    (roundTrip 4 (ShortType.writeBE 1#32 11742#16) (ShortType.readBE 1#32)).2 = .ok 11742#16 := by decide +kernel
example : written (ShortType.writeLE 1#32 11742#16 (Arr.create 4 0)) = (.ok 3#32, [0#8, 222#8, 45#8, 0#8]) ∧
    (roundTrip 4 (ShortType.writeLE 1#32 11742#16) (ShortType.readLE 1#32)).2 = .ok 11742#16 := by decide +kernel
/-- `ConvertTests` -/
example : ([.num (.byte 5#8), .num (.short 5#16), .num (.int 5#32), .num (.long 5#64), .num (.float 0x40A66666#32), .num (.double 0x4015333333333333#64), .bool true, .bool false, .string [49#16, 50#16, 51#16], .null] : List Convert.JObj).map ShortType.convert =
    List.replicate 6 (.ok 5#16) ++ [.ok 1#16, .ok 0#16, .ok 123#16, .ok 0#16] := by decide +kernel
/-! ### IntTypeTest.java -/
/-- `shouldUnboxNumbers` -/
example : ([.num (.byte 5#8), .num (.short 5#16), .num (.int 5#32), .num (.long 5#64), .num (.float 0x40A66666#32), .num (.double 0x4015333333333333#64)] : List Convert.JObj).map IntType.unbox =
    List.replicate 6 (.ok 5#32) := by decide +kernel
/-- `shouldCompare` -/
example : sortOk (IntType.comparatorFor .ascending) [3#32, 4294967292#32, 1#32, 2#32] = some [4294967292#32, 1#32, 2#32, 3#32] := by decide +kernel
example : sortOk (IntType.comparatorFor .descending) [3#32, 4294967292#32, 1#32, 2#32] = some [3#32, 2#32, 1#32, 4294967292#32] := by decide +kernel
example : sortOk (IntType.comparatorFor .ascendingAbsolute) [3#32, 4294967292#32, 1#32, 2#32] = some [1#32, 2#32, 3#32, 4294967292#32] := by decide +kernel
example : sortOk (IntType.comparatorFor .descendingAbsolute) [3#32, 4294967292#32, 1#32, 2#32] = some [4294967292#32, 3#32, 2#32, 1#32] := by decide +kernel
/-- `shouldTestPredicate` -/
example : [testOk (IntType.predicateFor .eq) 1#32 1#32, testOk (IntType.predicateFor .eq) 1#32 0#32, testOk (IntType.predicateFor .neq) 1#32 1#32, testOk (IntType.predicateFor .neq) 1#32 0#32, testOk (IntType.predicateFor .lt) 1#32 1#32, testOk (IntType.predicateFor .lt) 1#32 0#32, testOk (IntType.predicateFor .lt) 0#32 1#32, testOk (IntType.predicateFor .lte) 1#32 1#32, testOk (IntType.predicateFor .lte) 1#32 0#32, testOk (IntType.predicateFor .lte) 0#32 1#32, testOk (IntType.predicateFor .gt) 1#32 1#32, testOk (IntType.predicateFor .gt) 1#32 0#32, testOk (IntType.predicateFor .gt) 0#32 1#32, testOk (IntType.predicateFor .gte) 1#32 1#32, testOk (IntType.predicateFor .gte) 1#32 0#32, testOk (IntType.predicateFor .gte) 0#32 1#32] =
    [some true, some false, some false, some true, some false, some false, some true, some true, some false, some true, some false, some true, some false, some true, some true, some false] := by decide +kernel
/-- `shouldEnableFlags`, `shouldDisableFlags` -/
example : IntType.enableBits 0#32 294752657#32 = 294752657#32 ∧ IntType.disableBits 0#32 294752657#32 = 0#32 := by decide +kernel
example : IntType.enableBits 160008585#32 286331153#32 = 429496729#32 ∧ IntType.disableBits 160008585#32 286331153#32 = 143165576#32 := by decide +kernel
example : IntType.enableBits 2147483647#32 0#32 = 2147483647#32 ∧ IntType.disableBits 2147483647#32 0#32 = 2147483647#32 := by decide +kernel
example : IntType.enableBits 0#32 2147483647#32 = 2147483647#32 ∧ IntType.disableBits 0#32 2147483647#32 = 0#32 := by decide +kernel
/-- `ReadWriteArrayTests`: the bytes are those of `ByteBuffer.put` -/
example : written (IntType.writeBE 1#32 2147483648#32 (Arr.create 6 0)) = (.ok 5#32, [0#8, 128#8, 0#8, 0#8, 0#8, 0#8]) ∧
    (roundTrip 6 (IntType.writeBE 1#32 2147483648#32) (IntType.readBE 1#32)).2 = .ok 2147483648#32 := by decide +kernel
example : written (IntType.writeLE 1#32 2147483648#32 (Arr.create 6 0)) = (.ok 5#32, [0#8, 0#8, 0#8, 0#8, 128#8, 0#8]) ∧
    (roundTrip 6 (IntType.writeLE 1#32 2147483648#32) (IntType.readLE 1#32)).2 = .ok 2147483648#32 := by decide +kernel
example : written (IntType.writeBE 1#32 2147483647#32 (Arr.create 6 0)) = (.ok 5#32, [0#8, 127#8, 255#8, 255#8, 255#8, 0#8]) ∧
    (roundTrip 6 (IntType.writeBE 1#32 2147483647#32) (IntType.readBE 1#32)).2 = .ok 2147483647#32 := by decide +kernel
example : written (IntType.writeLE 1#32 2147483647#32 (Arr.create 6 0)) = (.ok 5#32, [0#8, 255#8, 255#8, 255#8, 127#8, 0#8]) ∧
    (roundTrip 6 (IntType.writeLE 1#32 2147483647#32) (IntType.readLE 1#32)).2 = .ok 2147483647#32 := by decide +kernel
example : written (IntType.writeBE 1#32 0#32 (Arr.create 6 0)) = (.ok 5#32, [0#8, 0#8, 0#8, 0#8, 0#8, 0#8]) ∧
    (roundTrip 6 (IntType.writeBE 1#32 0#32) (IntType.readBE 1#32)).2 = .ok 0#32 := by decide +kernel
example : written (IntType.writeLE 1#32 0#32 (Arr.create 6 0)) = (.ok 5#32, [0#8, 0#8, 0#8, 0#8, 0#8, 0#8]) ∧
    (roundTrip 6 (IntType.writeLE 1#32 0#32) (IntType.readLE 1#32)).2 = .ok 0#32 := by decide +kernel
example : written (IntType.writeBE 1#32 4294967295#32 (Arr.create 6 0)) = (.ok 5#32, [0#8, 255#8, 255#8, 255#8, 255#8, 0#8]) ∧
    (roundTrip 6 (IntType.writeBE 1#32 4294967295#32) (IntType.readBE 1#32)).2 = .ok 4294967295#32 := by decide +kernel
example : written (IntType.writeLE 1#32 4294967295#32 (Arr.create 6 0)) = (.ok 5#32, [0#8, 255#8, 255#8, 255#8, 255#8, 0#8]) ∧
    (roundTrip 6 (IntType.writeLE 1#32 4294967295#32) (IntType.readLE 1#32)).2 = .ok 4294967295#32 := by decide +kernel
example : written (IntType.writeBE 1#32 1174259#32 (Arr.create 6 0)) = (.ok 5#32, [0#8, 0#8, 17#8, 234#8, 243#8, 0#8]) ∧
    (roundTrip 6 (IntType.writeBE 1#32 1174259#32) (IntType.readBE 1#32)).2 = .ok 1174259#32 := by decide +kernel
example : written (IntType.writeLE 1#32 1174259#32 (Arr.create 6 0)) = (.ok 5#32, [0#8, 243#8, 234#8, 17#8, 0#8, 0#8]) ∧
    (roundTrip 6 (IntType.writeLE 1#32 1174259#32) (IntType.readLE 1#32)).2 = .ok 1174259#32 := by decide +kernel
/-- `ConvertTests` -/
example : ([.num (.byte 5#8), .num (.short 5#16), .num (.int 5#32), .num (.long 5#64), .num (.float 0x40A66666#32), .num (.double 0x4015333333333333#64), .bool true, .bool false, .string [49#16, 50#16, 51#16], .null] : List Convert.JObj).map IntType.convert =
    List.replicate 6 (.ok 5#32) ++ [.ok 1#32, .ok 0#32, .ok 123#32, .ok 0#32] := by decide +kernel
example : IntType.convert (.localDate ⟨2015, 4, 12⟩) = .ok 20150412#32 ∧
    IntType.convert (.localTime ⟨20, 5, 13, 0⟩) = .ok 200513#32 ∧
    IntType.toLocalDate 20150412#32 = .ok ⟨2015, 4, 12⟩ ∧ IntType.toLocalTime 200513#32 = .ok ⟨20, 5, 13, 0⟩ := by decide +kernel
/-! ### LongTypeTest.java -/
/-- `shouldUnboxNumbers` -/
example : ([.num (.byte 5#8), .num (.short 5#16), .num (.int 5#32), .num (.long 5#64), .num (.float 0x40A66666#32), .num (.double 0x4015333333333333#64)] : List Convert.JObj).map LongType.unbox =
    List.replicate 6 (.ok 5#64) := by decide +kernel
/-- `shouldCompare` -/
example : sortOk (LongType.comparatorFor .ascending) [3#64, 18446744073709551612#64, 1#64, 2#64] = some [18446744073709551612#64, 1#64, 2#64, 3#64] := by decide +kernel
example : sortOk (LongType.comparatorFor .descending) [3#64, 18446744073709551612#64, 1#64, 2#64] = some [3#64, 2#64, 1#64, 18446744073709551612#64] := by decide +kernel
example : sortOk (LongType.comparatorFor .ascendingAbsolute) [3#64, 18446744073709551612#64, 1#64, 2#64] = some [1#64, 2#64, 3#64, 18446744073709551612#64] := by decide +kernel
example : sortOk (LongType.comparatorFor .descendingAbsolute) [3#64, 18446744073709551612#64, 1#64, 2#64] = some [18446744073709551612#64, 3#64, 2#64, 1#64] := by decide +kernel
/-- `shouldTestPredicate` -/
example : [testOk (LongType.predicateFor .eq) 1#64 1#64, testOk (LongType.predicateFor .eq) 1#64 0#64, testOk (LongType.predicateFor .neq) 1#64 1#64, testOk (LongType.predicateFor .neq) 1#64 0#64, testOk (LongType.predicateFor .lt) 1#64 1#64, testOk (LongType.predicateFor .lt) 1#64 0#64, testOk (LongType.predicateFor .lt) 0#64 1#64, testOk (LongType.predicateFor .lte) 1#64 1#64, testOk (LongType.predicateFor .lte) 1#64 0#64, testOk (LongType.predicateFor .lte) 0#64 1#64, testOk (LongType.predicateFor .gt) 1#64 1#64, testOk (LongType.predicateFor .gt) 1#64 0#64, testOk (LongType.predicateFor .gt) 0#64 1#64, testOk (LongType.predicateFor .gte) 1#64 1#64, testOk (LongType.predicateFor .gte) 1#64 0#64, testOk (LongType.predicateFor .gte) 0#64 1#64] =
    [some true, some false, some false, some true, some false, some false, some true, some true, some false, some true, some false, some true, some false, some true, some true, some false] := by decide +kernel
/-- `shouldEnableFlags`, `shouldDisableFlags` -/
example : LongType.enableBits 0#64 5877639043093729681#64 = 5877639043093729681#64 ∧ LongType.disableBits 0#64 5877639043093729681#64 = 0#64 := by decide +kernel
example : LongType.enableBits 2993074651175422345#64 5841468956674691345#64 = 8762203435012037017#64 ∧ LongType.disableBits 2993074651175422345#64 5841468956674691345#64 = 2920734478337345672#64 := by decide +kernel
example : LongType.enableBits 9223372036854775807#64 0#64 = 9223372036854775807#64 ∧ LongType.disableBits 9223372036854775807#64 0#64 = 9223372036854775807#64 := by decide +kernel
example : LongType.enableBits 0#64 9223372036854775807#64 = 9223372036854775807#64 ∧ LongType.disableBits 0#64 9223372036854775807#64 = 0#64 := by decide +kernel
/-- `ReadWriteArrayTests`: the bytes are those of `ByteBuffer.put` -/
example : written (LongType.writeBE 1#32 9223372036854775808#64 (Arr.create 10 0)) = (.ok 9#32, [0#8, 128#8, 0#8, 0#8, 0#8, 0#8, 0#8, 0#8, 0#8, 0#8]) ∧
    (roundTrip 10 (LongType.writeBE 1#32 9223372036854775808#64) (LongType.readBE 1#32)).2 = .ok 9223372036854775808#64 := by decide +kernel
example : written (LongType.writeLE 1#32 9223372036854775808#64 (Arr.create 10 0)) = (.ok 9#32, [0#8, 0#8, 0#8, 0#8, 0#8, 0#8, 0#8, 0#8, 128#8, 0#8]) ∧
    (roundTrip 10 (LongType.writeLE 1#32 9223372036854775808#64) (LongType.readLE 1#32)).2 = .ok 9223372036854775808#64 := by decide +kernel
example : written (LongType.writeBE 1#32 9223372036854775807#64 (Arr.create 10 0)) = (.ok 9#32, [0#8, 127#8, 255#8, 255#8, 255#8, 255#8, 255#8, 255#8, 255#8, 0#8]) ∧
    (roundTrip 10 (LongType.writeBE 1#32 9223372036854775807#64) (LongType.readBE 1#32)).2 = .ok 9223372036854775807#64 := by decide +kernel
example : written (LongType.writeLE 1#32 9223372036854775807#64 (Arr.create 10 0)) = (.ok 9#32, [0#8, 255#8, 255#8, 255#8, 255#8, 255#8, 255#8, 255#8, 127#8, 0#8]) ∧
    (roundTrip 10 (LongType.writeLE 1#32 9223372036854775807#64) (LongType.readLE 1#32)).2 = .ok 9223372036854775807#64 := by decide +kernel
example : written (LongType.writeBE 1#32 0#64 (Arr.create 10 0)) = (.ok 9#32, [0#8, 0#8, 0#8, 0#8, 0#8, 0#8, 0#8, 0#8, 0#8, 0#8]) ∧
    (roundTrip 10 (LongType.writeBE 1#32 0#64) (LongType.readBE 1#32)).2 = .ok 0#64 := by decide +kernel
example : written (LongType.writeLE 1#32 0#64 (Arr.create 10 0)) = (.ok 9#32, [0#8, 0#8, 0#8, 0#8, 0#8, 0#8, 0#8, 0#8, 0#8, 0#8]) ∧
    (roundTrip 10 (LongType.writeLE 1#32 0#64) (LongType.readLE 1#32)).2 = .ok 0#64 := by decide +kernel
example : written (LongType.writeBE 1#32 18446744073709551615#64 (Arr.create 10 0)) = (.ok 9#32, [0#8, 255#8, 255#8, 255#8, 255#8, 255#8, 255#8, 255#8, 255#8, 0#8]) ∧
    (roundTrip 10 (LongType.writeBE 1#32 18446744073709551615#64) (LongType.readBE 1#32)).2 = .ok 18446744073709551615#64 := by decide +kernel
example : written (LongType.writeLE 1#32 18446744073709551615#64 (Arr.create 10 0)) = (.ok 9#32, [0#8, 255#8, 255#8, 255#8, 255#8, 255#8, 255#8, 255#8, 255#8, 0#8]) ∧
    (roundTrip 10 (LongType.writeLE 1#32 18446744073709551615#64) (LongType.readLE 1#32)).2 = .ok 18446744073709551615#64 := by decide +kernel
example : written (LongType.writeBE 1#32 1174259259#64 (Arr.create 10 0)) = (.ok 9#32, [0#8, 0#8, 0#8, 0#8, 0#8, 69#8, 253#8, 198#8, 59#8, 0#8]) ∧
    (roundTrip 10 (LongType.writeBE 1#32 1174259259#64) (LongType.readBE 1#32)).2 = .ok 1174259259#64 := by decide +kernel
example : written (LongType.writeLE 1#32 1174259259#64 (Arr.create 10 0)) = (.ok 9#32, [0#8, 59#8, 198#8, 253#8, 69#8, 0#8, 0#8, 0#8, 0#8, 0#8]) ∧
    (roundTrip 10 (LongType.writeLE 1#32 1174259259#64) (LongType.readLE 1#32)).2 = .ok 1174259259#64 := by decide +kernel
/-- `ConvertTests` -/
example : ([.num (.byte 5#8), .num (.short 5#16), .num (.int 5#32), .num (.long 5#64), .num (.float 0x40A66666#32), .num (.double 0x4015333333333333#64), .bool true, .bool false, .string [49#16, 50#16, 51#16], .null] : List Convert.JObj).map LongType.convert =
    List.replicate 6 (.ok 5#64) ++ [.ok 1#64, .ok 0#64, .ok 123#64, .ok 0#64] := by decide +kernel
/-! ### FloatTypeTest.java -/
/-- `shouldUnboxNumbers` -/
example : ([.num (.byte 5#8), .num (.short 5#16), .num (.int 5#32), .num (.long 5#64)] : List Convert.JObj).map FloatType.unbox =
    List.replicate 4 (.ok 0x40A00000#32) := by decide +kernel
example : FloatType.unbox (.num (.double 0x4014CCCCCCCCCCCD#64)) = .ok 0x40A66666#32 := by decide +kernel
/-- `shouldCompare` -/
example : sortOk (FloatType.comparatorFor .ascending) [0x40400000#32, 0xC0800000#32, 0x3F800000#32, 0x40000000#32] = some [0xC0800000#32, 0x3F800000#32, 0x40000000#32, 0x40400000#32] := by decide +kernel
example : sortOk (FloatType.comparatorFor .descending) [0x40400000#32, 0xC0800000#32, 0x3F800000#32, 0x40000000#32] = some [0x40400000#32, 0x40000000#32, 0x3F800000#32, 0xC0800000#32] := by decide +kernel
example : sortOk (FloatType.comparatorFor .ascendingAbsolute) [0x40400000#32, 0xC0800000#32, 0x3F800000#32, 0x40000000#32] = some [0x3F800000#32, 0x40000000#32, 0x40400000#32, 0xC0800000#32] := by decide +kernel
example : sortOk (FloatType.comparatorFor .descendingAbsolute) [0x40400000#32, 0xC0800000#32, 0x3F800000#32, 0x40000000#32] = some [0xC0800000#32, 0x40400000#32, 0x40000000#32, 0x3F800000#32] := by decide +kernel
/-- `shouldTestPredicate` -/
example : [testOk (FloatType.predicateFor .eq) 0x3F800000#32 0x3F800000#32, testOk (FloatType.predicateFor .eq) 0x3F800000#32 0x00000000#32, testOk (FloatType.predicateFor .neq) 0x3F800000#32 0x3F800000#32, testOk (FloatType.predicateFor .neq) 0x3F800000#32 0x00000000#32, testOk (FloatType.predicateFor .lt) 0x3F800000#32 0x3F800000#32, testOk (FloatType.predicateFor .lt) 0x3F800000#32 0x00000000#32, testOk (FloatType.predicateFor .lt) 0x00000000#32 0x3F800000#32, testOk (FloatType.predicateFor .lte) 0x3F800000#32 0x3F800000#32, testOk (FloatType.predicateFor .lte) 0x3F800000#32 0x00000000#32, testOk (FloatType.predicateFor .lte) 0x00000000#32 0x3F800000#32, testOk (FloatType.predicateFor .gt) 0x3F800000#32 0x3F800000#32, testOk (FloatType.predicateFor .gt) 0x3F800000#32 0x00000000#32, testOk (FloatType.predicateFor .gt) 0x00000000#32 0x3F800000#32, testOk (FloatType.predicateFor .gte) 0x3F800000#32 0x3F800000#32, testOk (FloatType.predicateFor .gte) 0x3F800000#32 0x00000000#32, testOk (FloatType.predicateFor .gte) 0x00000000#32 0x3F800000#32] =
    [some true, some false, some false, some true, some false, some false, some true, some true, some false, some true, some false, some true, some false, some true, some true, some false] := by decide +kernel
/-- `ReadWriteArrayTests`: the bytes are those of `ByteBuffer.put` -/
example : written (FloatType.writeBE 1#32 0x00000001#32 (Arr.create 6 0)) = (.ok 5#32, [0#8, 0#8, 0#8, 0#8, 1#8, 0#8]) ∧
    (roundTrip 6 (FloatType.writeBE 1#32 0x00000001#32) (FloatType.readBE 1#32)).2 = .ok 0x00000001#32 := by decide +kernel
example : written (FloatType.writeLE 1#32 0x00000001#32 (Arr.create 6 0)) = (.ok 5#32, [0#8, 1#8, 0#8, 0#8, 0#8, 0#8]) ∧
    (roundTrip 6 (FloatType.writeLE 1#32 0x00000001#32) (FloatType.readLE 1#32)).2 = .ok 0x00000001#32 := by decide +kernel
example : written (FloatType.writeBE 1#32 0x7F7FFFFF#32 (Arr.create 6 0)) = (.ok 5#32, [0#8, 127#8, 127#8, 255#8, 255#8, 0#8]) ∧
    (roundTrip 6 (FloatType.writeBE 1#32 0x7F7FFFFF#32) (FloatType.readBE 1#32)).2 = .ok 0x7F7FFFFF#32 := by decide +kernel
example : written (FloatType.writeLE 1#32 0x7F7FFFFF#32 (Arr.create 6 0)) = (.ok 5#32, [0#8, 255#8, 255#8, 127#8, 127#8, 0#8]) ∧
    (roundTrip 6 (FloatType.writeLE 1#32 0x7F7FFFFF#32) (FloatType.readLE 1#32)).2 = .ok 0x7F7FFFFF#32 := by decide +kernel
example : written (FloatType.writeBE 1#32 0x00000000#32 (Arr.create 6 0)) = (.ok 5#32, [0#8, 0#8, 0#8, 0#8, 0#8, 0#8]) ∧
    (roundTrip 6 (FloatType.writeBE 1#32 0x00000000#32) (FloatType.readBE 1#32)).2 = .ok 0x00000000#32 := by decide +kernel
example : written (FloatType.writeLE 1#32 0x00000000#32 (Arr.create 6 0)) = (.ok 5#32, [0#8, 0#8, 0#8, 0#8, 0#8, 0#8]) ∧
    (roundTrip 6 (FloatType.writeLE 1#32 0x00000000#32) (FloatType.readLE 1#32)).2 = .ok 0x00000000#32 := by decide +kernel
example : written (FloatType.writeBE 1#32 0xBF800000#32 (Arr.create 6 0)) = (.ok 5#32, [0#8, 191#8, 128#8, 0#8, 0#8, 0#8]) ∧
    (roundTrip 6 (FloatType.writeBE 1#32 0xBF800000#32) (FloatType.readBE 1#32)).2 = .ok 0xBF800000#32 := by decide +kernel
example : written (FloatType.writeLE 1#32 0xBF800000#32 (Arr.create 6 0)) = (.ok 5#32, [0#8, 0#8, 0#8, 128#8, 191#8, 0#8]) ∧
    (roundTrip 6 (FloatType.writeLE 1#32 0xBF800000#32) (FloatType.readLE 1#32)).2 = .ok 0xBF800000#32 := by decide +kernel
example : written (FloatType.writeBE 1#32 0x498F579A#32 (Arr.create 6 0)) = (.ok 5#32, [0#8, 73#8, 143#8, 87#8, 154#8, 0#8]) ∧
    (roundTrip 6 (FloatType.writeBE 1#32 0x498F579A#32) (FloatType.readBE 1#32)).2 = .ok 0x498F579A#32 := by decide +kernel
example : written (FloatType.writeLE 1#32 0x498F579A#32 (Arr.create 6 0)) = (.ok 5#32, [0#8, 154#8, 87#8, 143#8, 73#8, 0#8]) ∧
    (roundTrip 6 (FloatType.writeLE 1#32 0x498F579A#32) (FloatType.readLE 1#32)).2 = .ok 0x498F579A#32 := by decide +kernel
/-- `ConvertTests` -/
example : let env : Jdk.Env := ⟨fun _ => .ok 0, fun _ => .ok 0, fun _ => []⟩
    FloatType.convert env (.bool true) = .ok 0x3F800000#32 ∧ FloatType.convert env (.bool false) = .ok 0x00000000#32 ∧
    FloatType.convert env .null = .ok 0x00000000#32 := by decide +kernel
/-! ### DoubleTypeTest.java -/
/-- `shouldUnboxNumbers` -/
example : ([.num (.byte 5#8), .num (.short 5#16), .num (.int 5#32), .num (.long 5#64)] : List Convert.JObj).map DoubleType.unbox =
    List.replicate 4 (.ok 0x4014000000000000#64) := by decide +kernel
example : DoubleType.unbox (.num (.float 0x40A66666#32)) = .ok 0x4014CCCCC0000000#64 := by decide +kernel
/-- `shouldCompare` -/
example : sortOk (DoubleType.comparatorFor .ascending) [0x4008000000000000#64, 0xC010000000000000#64, 0x3FF0000000000000#64, 0x4000000000000000#64] = some [0xC010000000000000#64, 0x3FF0000000000000#64, 0x4000000000000000#64, 0x4008000000000000#64] := by decide +kernel
example : sortOk (DoubleType.comparatorFor .descending) [0x4008000000000000#64, 0xC010000000000000#64, 0x3FF0000000000000#64, 0x4000000000000000#64] = some [0x4008000000000000#64, 0x4000000000000000#64, 0x3FF0000000000000#64, 0xC010000000000000#64] := by decide +kernel
example : sortOk (DoubleType.comparatorFor .ascendingAbsolute) [0x4008000000000000#64, 0xC010000000000000#64, 0x3FF0000000000000#64, 0x4000000000000000#64] = some [0x3FF0000000000000#64, 0x4000000000000000#64, 0x4008000000000000#64, 0xC010000000000000#64] := by decide +kernel
example : sortOk (DoubleType.comparatorFor .descendingAbsolute) [0x4008000000000000#64, 0xC010000000000000#64, 0x3FF0000000000000#64, 0x4000000000000000#64] = some [0xC010000000000000#64, 0x4008000000000000#64, 0x4000000000000000#64, 0x3FF0000000000000#64] := by decide +kernel
/-- `shouldTestPredicate` -/
example : [testOk (DoubleType.predicateFor .eq) 0x3FF0000000000000#64 0x3FF0000000000000#64, testOk (DoubleType.predicateFor .eq) 0x3FF0000000000000#64 0x0000000000000000#64, testOk (DoubleType.predicateFor .neq) 0x3FF0000000000000#64 0x3FF0000000000000#64, testOk (DoubleType.predicateFor .neq) 0x3FF0000000000000#64 0x0000000000000000#64, testOk (DoubleType.predicateFor .lt) 0x3FF0000000000000#64 0x3FF0000000000000#64, testOk (DoubleType.predicateFor .lt) 0x3FF0000000000000#64 0x0000000000000000#64, testOk (DoubleType.predicateFor .lt) 0x0000000000000000#64 0x3FF0000000000000#64, testOk (DoubleType.predicateFor .lte) 0x3FF0000000000000#64 0x3FF0000000000000#64, testOk (DoubleType.predicateFor .lte) 0x3FF0000000000000#64 0x0000000000000000#64, testOk (DoubleType.predicateFor .lte) 0x0000000000000000#64 0x3FF0000000000000#64, testOk (DoubleType.predicateFor .gt) 0x3FF0000000000000#64 0x3FF0000000000000#64, testOk (DoubleType.predicateFor .gt) 0x3FF0000000000000#64 0x0000000000000000#64, testOk (DoubleType.predicateFor .gt) 0x0000000000000000#64 0x3FF0000000000000#64, testOk (DoubleType.predicateFor .gte) 0x3FF0000000000000#64 0x3FF0000000000000#64, testOk (DoubleType.predicateFor .gte) 0x3FF0000000000000#64 0x0000000000000000#64, testOk (DoubleType.predicateFor .gte) 0x0000000000000000#64 0x3FF0000000000000#64] =
    [some true, some false, some false, some true, some false, some false, some true, some true, some false, some true, some false, some true, some false, some true, some true, some false] := by decide +kernel
/-- `ReadWriteArrayTests`: the bytes are those of `ByteBuffer.put` -/
example : written (DoubleType.writeBE 1#32 0x0000000000000001#64 (Arr.create 10 0)) = (.ok 9#32, [0#8, 0#8, 0#8, 0#8, 0#8, 0#8, 0#8, 0#8, 1#8, 0#8]) ∧
    (roundTrip 10 (DoubleType.writeBE 1#32 0x0000000000000001#64) (DoubleType.readBE 1#32)).2 = .ok 0x0000000000000001#64 := by decide +kernel
example : written (DoubleType.writeLE 1#32 0x0000000000000001#64 (Arr.create 10 0)) = (.ok 9#32, [0#8, 1#8, 0#8, 0#8, 0#8, 0#8, 0#8, 0#8, 0#8, 0#8]) ∧
    (roundTrip 10 (DoubleType.writeLE 1#32 0x0000000000000001#64) (DoubleType.readLE 1#32)).2 = .ok 0x0000000000000001#64 := by decide +kernel
example : written (DoubleType.writeBE 1#32 0x7FEFFFFFFFFFFFFF#64 (Arr.create 10 0)) = (.ok 9#32, [0#8, 127#8, 239#8, 255#8, 255#8, 255#8, 255#8, 255#8, 255#8, 0#8]) ∧
    (roundTrip 10 (DoubleType.writeBE 1#32 0x7FEFFFFFFFFFFFFF#64) (DoubleType.readBE 1#32)).2 = .ok 0x7FEFFFFFFFFFFFFF#64 := by decide +kernel
example : written (DoubleType.writeLE 1#32 0x7FEFFFFFFFFFFFFF#64 (Arr.create 10 0)) = (.ok 9#32, [0#8, 255#8, 255#8, 255#8, 255#8, 255#8, 255#8, 239#8, 127#8, 0#8]) ∧
    (roundTrip 10 (DoubleType.writeLE 1#32 0x7FEFFFFFFFFFFFFF#64) (DoubleType.readLE 1#32)).2 = .ok 0x7FEFFFFFFFFFFFFF#64 := by decide +kernel
example : written (DoubleType.writeBE 1#32 0x0000000000000000#64 (Arr.create 10 0)) = (.ok 9#32, [0#8, 0#8, 0#8, 0#8, 0#8, 0#8, 0#8, 0#8, 0#8, 0#8]) ∧
    (roundTrip 10 (DoubleType.writeBE 1#32 0x0000000000000000#64) (DoubleType.readBE 1#32)).2 = .ok 0x0000000000000000#64 := by decide +kernel
example : written (DoubleType.writeLE 1#32 0x0000000000000000#64 (Arr.create 10 0)) = (.ok 9#32, [0#8, 0#8, 0#8, 0#8, 0#8, 0#8, 0#8, 0#8, 0#8, 0#8]) ∧
    (roundTrip 10 (DoubleType.writeLE 1#32 0x0000000000000000#64) (DoubleType.readLE 1#32)).2 = .ok 0x0000000000000000#64 := by decide +kernel
example : written (DoubleType.writeBE 1#32 0xBFF0000000000000#64 (Arr.create 10 0)) = (.ok 9#32, [0#8, 191#8, 240#8, 0#8, 0#8, 0#8, 0#8, 0#8, 0#8, 0#8]) ∧
    (roundTrip 10 (DoubleType.writeBE 1#32 0xBFF0000000000000#64) (DoubleType.readBE 1#32)).2 = .ok 0xBFF0000000000000#64 := by decide +kernel
example : written (DoubleType.writeLE 1#32 0xBFF0000000000000#64 (Arr.create 10 0)) = (.ok 9#32, [0#8, 0#8, 0#8, 0#8, 0#8, 0#8, 0#8, 240#8, 191#8, 0#8]) ∧
    (roundTrip 10 (DoubleType.writeLE 1#32 0xBFF0000000000000#64) (DoubleType.readLE 1#32)).2 = .ok 0xBFF0000000000000#64 := by decide +kernel
example : written (DoubleType.writeBE 1#32 0x4131EAF341CAC083#64 (Arr.create 10 0)) = (.ok 9#32, [0#8, 65#8, 49#8, 234#8, 243#8, 65#8, 202#8, 192#8, 131#8, 0#8]) ∧
    (roundTrip 10 (DoubleType.writeBE 1#32 0x4131EAF341CAC083#64) (DoubleType.readBE 1#32)).2 = .ok 0x4131EAF341CAC083#64 := by decide +kernel
example : written (DoubleType.writeLE 1#32 0x4131EAF341CAC083#64 (Arr.create 10 0)) = (.ok 9#32, [0#8, 131#8, 192#8, 202#8, 65#8, 243#8, 234#8, 49#8, 65#8, 0#8]) ∧
    (roundTrip 10 (DoubleType.writeLE 1#32 0x4131EAF341CAC083#64) (DoubleType.readLE 1#32)).2 = .ok 0x4131EAF341CAC083#64 := by decide +kernel
/-- `ConvertTests` -/
example : let env : Jdk.Env := ⟨fun _ => .ok 0, fun _ => .ok 0, fun _ => []⟩
    DoubleType.convert env (.bool true) = .ok 0x3FF0000000000000#64 ∧ DoubleType.convert env (.bool false) = .ok 0x0000000000000000#64 ∧
    DoubleType.convert env .null = .ok 0x0000000000000000#64 := by decide +kernel
/-! ### CharTypeTest.java -/
example : written (CharType.writeBE 1#32 0#16 (Arr.create 4 0)) = (.ok 3#32, [0#8, 0#8, 0#8, 0#8]) ∧
    (roundTrip 4 (CharType.writeBE 1#32 0#16) (CharType.readBE 1#32)).2 = .ok 0#16 := by decide +kernel
example : written (CharType.writeLE 1#32 0#16 (Arr.create 4 0)) = (.ok 3#32, [0#8, 0#8, 0#8, 0#8]) ∧
    (roundTrip 4 (CharType.writeLE 1#32 0#16) (CharType.readLE 1#32)).2 = .ok 0#16 := by decide +kernel
example : written (CharType.writeBE 1#32 65535#16 (Arr.create 4 0)) = (.ok 3#32, [0#8, 255#8, 255#8, 0#8]) ∧
    (roundTrip 4 (CharType.writeBE 1#32 65535#16) (CharType.readBE 1#32)).2 = .ok 65535#16 := by decide +kernel
example : written (CharType.writeLE 1#32 65535#16 (Arr.create 4 0)) = (.ok 3#32, [0#8, 255#8, 255#8, 0#8]) ∧
    (roundTrip 4 (CharType.writeLE 1#32 65535#16) (CharType.readLE 1#32)).2 = .ok 65535#16 := by decide +kernel
example : written (CharType.writeBE 1#32 65#16 (Arr.create 4 0)) = (.ok 3#32, [0#8, 0#8, 65#8, 0#8]) ∧
    (roundTrip 4 (CharType.writeBE 1#32 65#16) (CharType.readBE 1#32)).2 = .ok 65#16 := by decide +kernel
example : written (CharType.writeLE 1#32 65#16 (Arr.create 4 0)) = (.ok 3#32, [0#8, 65#8, 0#8, 0#8]) ∧
    (roundTrip 4 (CharType.writeLE 1#32 65#16) (CharType.readLE 1#32)).2 = .ok 65#16 := by decide +kernel
example : written (CharType.writeBE 1#32 60259#16 (Arr.create 4 0)) = (.ok 3#32, [0#8, 235#8, 99#8, 0#8]) ∧
    (roundTrip 4 (CharType.writeBE 1#32 60259#16) (CharType.readBE 1#32)).2 = .ok 60259#16 := by decide +kernel
example : written (CharType.writeLE 1#32 60259#16 (Arr.create 4 0)) = (.ok 3#32, [0#8, 99#8, 235#8, 0#8]) ∧
    (roundTrip 4 (CharType.writeLE 1#32 60259#16) (CharType.readLE 1#32)).2 = .ok 60259#16 := by decide +kernel
/-! ### BoolTypeTest.java -/
example : BoolType.unbox (.bool true) = .ok true ∧ BoolType.unbox (.bool false) = .ok false := by decide +kernel
/-- `shouldCompare`: ascending puts `true` first -/
example : sortOk (BoolType.comparatorFor .ascending) [true, false, true] = some [true, true, false] ∧
    sortOk (BoolType.comparatorFor .descending) [true, false, true] = some [false, true, true] := by decide +kernel
example : [testOk (BoolType.predicateFor .eq) false false, testOk (BoolType.predicateFor .eq) true true,
      testOk (BoolType.predicateFor .eq) true false, testOk (BoolType.predicateFor .neq) false false,
      testOk (BoolType.predicateFor .neq) true true, testOk (BoolType.predicateFor .neq) true false] =
    [some true, some true, some false, some false, some false, some true] := by decide +kernel
example : ([true, false] : List Bool).map (fun b => (roundTrip 3 (BoolType.writeBE 1#32 b) (BoolType.readBE 1#32),
      roundTrip 3 (BoolType.writeLE 1#32 b) (BoolType.readLE 1#32))) =
    ([true, false] : List Bool).map (fun b => ((.ok 2#32, .ok b), (.ok 2#32, .ok b))) := by decide +kernel
example : ([.num (.byte 5#8), .num (.short 5#16), .num (.int 5#32), .num (.long 5#64), .num (.float 0x40A66666#32), .num (.double 0x4015333333333333#64), .num (.int 0#32), .string [116#16, 114#16, 117#16, 101#16],
      .string [102#16, 97#16, 108#16, 115#16, 101#16], .null, .bool true, .bool false] : List Convert.JObj).map BoolType.convert =
    List.replicate 6 (.ok true) ++ [.ok false, .ok true, .ok false, .ok false, .ok true, .ok false] := by decide +kernel

/-! ### PackTest.java -/
example : ([2147483648#32, 2147483647#32, 0#32, 4294967295#32, 1#32, 87367635#32] : List (BitVec 32)).all (fun hi => ([2147483648#32, 2147483647#32, 0#32, 4294967295#32, 1#32, 87367635#32] : List (BitVec 32)).all fun lo =>
    Pack.unpackHiInt (Pack.packToLong hi lo) == hi && Pack.unpackLoInt (Pack.packToLong hi lo) == lo) = true := by decide +kernel
example : ([32768#16, 32767#16, 0#16, 65535#16, 1#16, 8736#16] : List (BitVec 16)).all (fun hi => ([32768#16, 32767#16, 0#16, 65535#16, 1#16, 8736#16] : List (BitVec 16)).all fun lo =>
    Pack.unpackHiShort (Pack.packToInt2 hi lo) == hi && Pack.unpackLoShort (Pack.packToInt2 hi lo) == lo) = true := by decide +kernel
example : ([128#8, 127#8, 0#8, 255#8, 1#8, 87#8] : List (BitVec 8)).all (fun hi => ([128#8, 127#8, 0#8, 255#8, 1#8, 87#8] : List (BitVec 8)).all fun lo =>
    Pack.unpackHiByte (Pack.packToShort hi lo) == hi && Pack.unpackLoByte (Pack.packToShort hi lo) == lo) = true := by decide +kernel
example : ([128#8, 127#8, 0#8, 255#8, 1#8, 87#8] : List (BitVec 8)).all (fun a => ([128#8, 127#8, 0#8, 255#8, 1#8, 87#8] : List (BitVec 8)).all fun b =>
    ([128#8, 127#8, 0#8, 255#8, 1#8, 87#8] : List (BitVec 8)).all fun c => ([128#8, 127#8, 0#8, 255#8, 1#8, 87#8] : List (BitVec 8)).all fun d =>
      let p := Pack.packToInt4 a b c d
      Pack.unpackHiByte (Pack.unpackHiShort p) == a && Pack.unpackLoByte (Pack.unpackHiShort p) == b &&
      Pack.unpackHiByte (Pack.unpackLoShort p) == c && Pack.unpackLoByte (Pack.unpackLoShort p) == d) = true := by decide +kernel

/-! ### the JDK conversions, checked against IEEE arithmetic computed elsewhere (the platform's C library) -/
example : ([0x3FB999999999999A#64, 0x3FD5555555555555#64, 0x3696D601AD376AB9#64, 0x368FF868BF4D956A#64, 0x380FFFFFE8C9D9FB#64, 0x37A16C262777579C#64, 0x47EFFFFFF0000000#64, 0x47EFFFFFE54DAFF8#64, 0x7E37E43C8800759C#64, 0xFE37E43C8800759C#64, 0x4170000010000000#64, 0x4170000030000000#64, 0x8000000000000000#64, 0x000012688B70E62B#64, 0x36A0000000000000#64, 0x3690000000000000#64, 0x36A8000000000000#64, 0x3FF0000010000000#64, 0x3FF0000030000000#64, 0xBAA5CEF668B183A4#64, 0xB7E6E7C9387736B9#64, 0xC4E6A2919F3A8EA7#64, 0xC6247DBF0AC71E8E#64, 0xC4132B329CE05373#64, 0xB907B3B2DA5DC759#64, 0xB8469446B393654E#64, 0xC54573ACB17EC7BB#64, 0xC59382E6AC735B85#64, 0xBC95AFB401F6B2BA#64, 0x460A6133998F67FF#64, 0x45F21533B4087DE1#64, 0x37E2A117FB1F10CD#64, 0x37D4BE6C004E3D98#64, 0x3A21F533E2DD7818#64, 0xBA74D609CD538DA5#64, 0x45BA4AEA46D59ECA#64, 0xBB7CF10025437B18#64, 0xC5F0084EC7D3E628#64, 0x40715D3B232F7BEE#64] : List (BitVec 64)).map Convert.doubleToFloat =
    [0x3DCCCCCD#32, 0x3EAAAAAB#32, 0x00000001#32, 0x00000000#32, 0x00800000#32, 0x000116C2#32, 0x7F800000#32, 0x7F7FFFFF#32, 0x7F800000#32, 0xFF800000#32, 0x4B800000#32, 0x4B800002#32, 0x80000000#32, 0x00000000#32, 0x00000001#32, 0x00000000#32, 0x00000002#32, 0x3F800000#32, 0x3F800002#32, 0x952E77B3#32, 0x8016E7C9#32, 0xE735148D#32, 0xF123EDF8#32, 0xE0995995#32, 0x883D9D97#32, 0x8234A236#32, 0xEA2B9D66#32, 0xEC9C1735#32, 0xA4AD7DA0#32, 0x7053099D#32, 0x6F90A99E#32, 0x0012A118#32, 0x000A5F36#32, 0x110FA99F#32, 0x93A6B04E#32, 0x6DD25752#32, 0x9BE78801#32, 0xEF804276#32, 0x438AE9D9#32] := by decide +kernel
example : ([0#64, 1#64, 18446744073709551615#64, 9007199254740993#64, 9007199254740995#64, 9223372036854775807#64, 9223372036854775808#64, 18437736874454810623#64, 4611686018427388160#64, 4611686018427388416#64, 4611686018427388417#64, 123456789012345678#64, 1187385434856157239#64, 13022639769559460273#64, 585135223364038996#64, 15018364494046328600#64, 7811114804498096593#64, 14753097132987689304#64, 13726158007495223840#64, 6920065358279733766#64, 17502901554435124512#64, 8857662617962200316#64, 220121936330067728#64, 4743413005406631124#64] : List (BitVec 64)).map (fun x => Convert.intToDouble x.toInt) =
    [0x0000000000000000#64, 0x3FF0000000000000#64, 0xBFF0000000000000#64, 0x4340000000000000#64, 0x4340000000000002#64, 0x43E0000000000000#64, 0xC3E0000000000000#64, 0xC340000000000000#64, 0x43D0000000000000#64, 0x43D0000000000000#64, 0x43D0000000000001#64, 0x437B69B4BA630F35#64, 0x43B07A70C31012F0#64, 0xC3D2D19288186226#64, 0x43A03DA2C55C5D63#64, 0xC3C7CA06881C83C4#64, 0x43DB19A9E1E579D8#64, 0xC3C9A13C2951B7AB#64, 0xC3D060B9010E1745#64, 0x43D80240B1DFAFFD#64, 0xC3AA32678A8A8626#64, 0x43DEBB2F4E26F92F#64, 0x4388703DE0F1CC78#64, 0x43D074FF3FCA8EBD#64] := by decide +kernel
example : ([0#64, 1#64, 18446744073709551615#64, 9007199254740993#64, 9007199254740995#64, 9223372036854775807#64, 9223372036854775808#64, 18437736874454810623#64, 4611686018427388160#64, 4611686018427388416#64, 4611686018427388417#64, 123456789012345678#64, 1187385434856157239#64, 13022639769559460273#64, 585135223364038996#64, 15018364494046328600#64, 7811114804498096593#64, 14753097132987689304#64, 13726158007495223840#64, 6920065358279733766#64, 17502901554435124512#64, 8857662617962200316#64, 220121936330067728#64, 4743413005406631124#64, 1152921573326323712#64, 1152921573326323713#64, 1152921710765277184#64, 16777217#64, 16777219#64] : List (BitVec 64)).map (fun x => Convert.intToFloat x.toInt) =
    [0x00000000#32, 0x3F800000#32, 0xBF800000#32, 0x5A000000#32, 0x5A000000#32, 0x5F000000#32, 0xDF000000#32, 0xDA000000#32, 0x5E800000#32, 0x5E800000#32, 0x5E800000#32, 0x5BDB4DA6#32, 0x5D83D386#32, 0xDE968C94#32, 0x5D01ED16#32, 0xDE3E5034#32, 0x5ED8CD4F#32, 0xDE4D09E1#32, 0xDE8305C8#32, 0x5EC01206#32, 0xDD51933C#32, 0x5EF5D97A#32, 0x5C4381EF#32, 0x5E83A7FA#32, 0x5D800000#32, 0x5D800001#32, 0x5D800002#32, 0x4B800000#32, 0x4B800002#32] := by decide +kernel
example : ([0#32, 1#32, 4294967295#32, 16777217#32, 16777219#32, 2147483647#32, 2147483648#32, 33554435#32, 4247564162#32, 722481616#32, 3495018956#32, 838787215#32, 405315533#32, 4106870634#32, 1460150526#32, 1909890774#32] : List (BitVec 32)).map (fun x => Convert.intToFloat x.toInt) =
    [0x00000000#32, 0x3F800000#32, 0xBF800000#32, 0x4B800000#32, 0x4B800002#32, 0x4F000000#32, 0xCF000000#32, 0x4C000001#32, 0xCC34D420#32, 0x4E2C40C7#32, 0xCE3EB8F9#32, 0x4E47FB82#32, 0x4DC144FE#32, 0xCD336209#32, 0x4EAE1042#32, 0x4EE3AD3E#32] := by decide +kernel
/-- `(int) f` truncates and saturates; NaN gives 0. -/
example : ([0x40BCCCCD#32, 0xC0BCCCCD#32, 0x3F7D70A4#32, 0xBF7D70A4#32, 0x501502F9#32, 0xD01502F9#32, 0x4F000000#32, 0xCF000000#32, 0x4EFFFFFF#32, 0x7FC00000#32, 0x7F800000#32, 0xFF800000#32] : List (BitVec 32)).map Convert.floatToInt =
    [5#32, 4294967291#32, 0#32, 0#32, 2147483647#32, 2147483648#32, 2147483647#32, 2147483648#32, 2147483520#32, 0#32, 0x7FFFFFFF#32, 0x80000000#32] := by decide +kernel
/-- leap years and the lengths of months, from the ISO calendar -/
example : ([1900, 2000, 2023, 2024, 0, -4, 2100, 2400] : List Int).map Dates.leap =
    [false, true, false, true, true, true, false, true] ∧
    ([1, 2, 3, 4, 5, 6, 7, 8, 9, 10, 11, 12] : List Int).map (Dates.monthLength 2023) =
      [31, 28, 31, 30, 31, 30, 31, 31, 30, 31, 30, 31] ∧ Dates.monthLength 2024 2 = 29 := by decide +kernel
/-- `"hello".hashCode()` is 99162322, `"".hashCode()` is 0, `"polygenelubricants".hashCode()` is MIN_VALUE -/
example : (Strings.hashCode [104#16, 101#16, 108#16, 108#16, 111#16]).toInt = 99162322 ∧ Strings.hashCode [] = 0 ∧
    (Strings.hashCode [112#16, 111#16, 108#16, 121#16, 103#16, 101#16, 110#16, 101#16, 108#16, 117#16, 98#16, 114#16, 105#16, 99#16, 97#16, 110#16, 116#16, 115#16]).toInt = -2147483648 := by decide +kernel

end Verif.Conformance

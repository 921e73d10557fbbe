import Verif.Java
/-!
Models `collections/src/main/java/com/bytefacets/collections/NumUtils.java` and
`CapacityCalculator.java`.
-/
namespace Verif

/-- JDK `Integer.numberOfLeadingZeros` on the value of an `int`. -/
def numberOfLeadingZeros (x : Int) : Int :=
  if x < 0 then 0 else if x = 0 then 32 else 31 - (Nat.log2 x.toNat : Int)

/-- Java `x << n` on `int`: only the low five bits of `n` count, the result wraps. -/
def shl32 (x n : Int) : Int := i32 (x * (2 ^ (n % 32).toNat : Nat))

/-- NumUtils.java:8-10  `1 << 32 - Integer.numberOfLeadingZeros(v - 1)`
(`-` binds tighter than `<<` in Java). -/
def nextPowerOf2 (v : Int) : Int := shl32 1 (32 - numberOfLeadingZeros (i32 (v - 1)))

/-- CapacityCalculator.java:8 (and BaseHash.java:16, BaseHeap.java:11)
`Integer.MAX_VALUE / 4 + 1`. -/
def MAX_CAPACITY : Int := MAX_INT / 4 + 1

/-- CapacityCalculator.java:12-30 `calculateNewCapacity(owner, capacity, capacityThreshold)`.
The owner is used only in the exception message and is omitted. -/
def calculateNewCapacity {σ : Type} (capacity capacityThreshold : Int) : JM σ Int := do
  if capacity = MAX_CAPACITY then
    if capacityThreshold = MAX_CAPACITY then
      JM.throw .resize
    else
      pure capacity
  else
    let newCapacity := shl32 capacity 1
    if newCapacity ≤ capacity then
      JM.throw .resize
    else
      pure (min newCapacity MAX_CAPACITY)

end Verif

import Verif.Model.Codec
/-!
Specification of the binary layouts: a value of `n` bytes is an `8n`-bit number; its byte number `j`
(0 = least significant) is bits `8j .. 8j+7`.
-/
namespace Verif.Codec

/-- Encoded width in bytes. -/
def Ty.width : Ty → Nat
  | .byte => 1 | .bool => 1 | .short => 2 | .char => 2
  | .int => 4 | .long => 8 | .float => 4 | .double => 8

/-- The bit pattern of a value as an unsigned number (`true` is 1, `false` is 0). -/
def Val.bits : Val → Nat
  | .byte v => v.toNat
  | .bool v => if v then 1 else 0
  | .short v => v.toNat | .char v => v.toNat | .int v => v.toNat | .long v => v.toNat
  | .float v => v.toNat | .double v => v.toNat

/-- Byte number `j` of a number, 0 being the least significant. -/
def byteOf (x : Nat) (j : Nat) : BitVec 8 := BitVec.ofNat 8 (x / 2 ^ (8 * j))

/-- The byte stored `j` places after `pos`: least significant first for little endian, most
significant first for big endian. -/
def layout (big : Bool) (v : Val) (j : Nat) : BitVec 8 :=
  if big then byteOf v.bits (v.ty.width - 1 - j) else byteOf v.bits j

/-- `a'` is `a` with exactly the bytes of `v` stored at `pos, pos+1, ..`. -/
structure Stored (big : Bool) (v : Val) (pos : Int) (a a' : Bytes) : Prop where
  len : a'.len = a.len
  bytes : ∀ j : Nat, j < v.ty.width → a'.get (pos + j) = layout big v j
  frame : ∀ i : Int, i < pos ∨ pos + v.ty.width ≤ i → a'.get i = a.get i

end Verif.Codec

import Verif.Proofs.Codec
/-! # Properties C15 - C17, C66: binary encodings -/
namespace Verif
open Codec

/-- C15: for every encodable value, both byte orders, every array and every position where the
value fits, writing succeeds and reading it back (same order, same position) returns the value
and leaves the array alone. -/
theorem C15_round_trip (big : Bool) (v : Val) (pos : Int) (a : Bytes) (h0 : 0 ≤ pos)
    (h1 : pos + v.ty.width ≤ a.len) (hl : (a.len : Int) ≤ MAX_INT) :
    ∃ next a', write big pos v a = .ok next a' ∧ read big pos v.ty a' = .ok v a' := by
  obtain ⟨a', hw, hs⟩ := write_spec big v h0 h1 hl
  exact ⟨_, a', hw, read_spec big v h0 (by rw [hs.len]; exact h1) (by rw [hs.len]; exact hl) hs.bytes⟩

/-- C16: a write changes exactly the bytes `pos .. pos+width-1`, keeps the length and returns
`pos + width`. -/
theorem C16_frame (big : Bool) (v : Val) (pos : Int) (a : Bytes) (h0 : 0 ≤ pos)
    (h1 : pos + v.ty.width ≤ a.len) (hl : (a.len : Int) ≤ MAX_INT) :
    ∃ a', write big pos v a = .ok (pos + v.ty.width) a' ∧ a'.len = a.len ∧
      ∀ i : Int, i < pos ∨ pos + v.ty.width ≤ i → a'.get i = a.get i := by
  obtain ⟨a', hw, hs⟩ := write_spec big v h0 h1 hl
  exact ⟨a', hw, hs.len, hs.frame⟩

/-- Write a list of values back to back, each at the position returned by the previous write. -/
def writeAll (pos : Int) : List (Bool × Val) → JM Bytes Int
  | [] => pure pos
  | (big, v) :: vs => do
    let next ← write big pos v
    writeAll next vs

/-- Read a list of types back to back. -/
def readAll (pos : Int) : List (Bool × Ty) → JM Bytes (List Val)
  | [] => pure []
  | (big, t) :: ts => do
    let v ← read big pos t
    let vs ← readAll (pos + t.width) ts
    return v :: vs

/-- Total encoded width. -/
def totalWidth : List (Bool × Val) → Nat
  | [] => 0
  | (_, v) :: vs => v.ty.width + totalWidth vs

/-- C16: any list of values of mixed types and byte orders written back to back reads back as that
list, and everything before and after is untouched. -/
theorem C16_sequence (vs : List (Bool × Val)) (pos : Int) (a : Bytes) (h0 : 0 ≤ pos)
    (h1 : pos + totalWidth vs ≤ a.len) (hl : (a.len : Int) ≤ MAX_INT) :
    ∃ a', writeAll pos vs a = .ok (pos + totalWidth vs) a' ∧ a'.len = a.len ∧
      readAll pos (vs.map fun p => (p.1, p.2.ty)) a' = .ok (vs.map (·.2)) a' ∧
      ∀ i : Int, i < pos ∨ pos + totalWidth vs ≤ i → a'.get i = a.get i := by
  induction vs generalizing pos a with
  | nil => exact ⟨a, by simp [writeAll, totalWidth], rfl, by simp [readAll], fun _ _ => rfl⟩
  | cons p vs ih =>
    obtain ⟨big, v⟩ := p
    simp only [totalWidth] at h1 ⊢
    obtain ⟨a1, hw, hs⟩ := write_spec big v h0 (by omega) hl
    obtain ⟨a2, hw2, hlen2, hr2, hf2⟩ :=
      ih (pos + v.ty.width) a1 (by omega) (by rw [hs.len]; omega) (by rw [hs.len]; exact hl)
    refine ⟨a2, ?_, hlen2.trans hs.len, ?_, ?_⟩
    · rw [writeAll, JM.bind_ok hw, hw2]; congr 1; omega
    · have hread : read big pos v.ty a2 = .ok v a2 := by
        apply read_spec big v h0 (by rw [hlen2, hs.len]; omega) (by rw [hlen2, hs.len]; exact hl)
        intro j hj
        rw [hf2 _ (by omega)]
        exact hs.bytes j hj
      simp only [List.map_cons, readAll]
      rw [JM.bind_ok hread, JM.bind_ok hr2]; rfl
    · intro i hi
      rw [hf2 i (by omega)]
      exact hs.frame i (by omega)

/-- C17: little endian stores byte `j` (0 = least significant) at `pos + j`, big endian at
`pos + width - 1 - j`. -/
theorem C17_layout (v : Val) (pos : Int) (a : Bytes) (h0 : 0 ≤ pos)
    (h1 : pos + v.ty.width ≤ a.len) (hl : (a.len : Int) ≤ MAX_INT) :
    ∃ le be : Bytes, write false pos v a = .ok (pos + v.ty.width) le ∧
      write true pos v a = .ok (pos + v.ty.width) be ∧
      (∀ j : Nat, j < v.ty.width → le.get (pos + j) = byteOf v.bits j) ∧
      (∀ j : Nat, j < v.ty.width → be.get (pos + v.ty.width - 1 - j) = byteOf v.bits j) ∧
      (∀ j : Nat, j < v.ty.width → be.get (pos + v.ty.width - 1 - j) = le.get (pos + j)) := by
  obtain ⟨le, hw1, hs1⟩ := write_spec false v h0 h1 hl
  obtain ⟨be, hw2, hs2⟩ := write_spec true v h0 h1 hl
  have L : ∀ j : Nat, j < v.ty.width → le.get (pos + j) = byteOf v.bits j := by
    intro j hj; rw [hs1.bytes j hj]; simp [layout]
  have B : ∀ j : Nat, j < v.ty.width → be.get (pos + v.ty.width - 1 - j) = byteOf v.bits j := by
    intro j hj
    have e : pos + v.ty.width - 1 - j = pos + ((v.ty.width - 1 - j : Nat) : Int) := by omega
    rw [e, hs2.bytes _ (by omega)]
    simp only [layout, if_true]
    congr 1; omega
  exact ⟨le, be, hw1, hw2, L, B, fun j hj => (B j hj).trans (L j hj).symm⟩

/-- The layout determines the value: two values of one type with equal bytes are equal. -/
theorem C17_layout_injective (big : Bool) (v w : Val) (ht : v.ty = w.ty)
    (h : ∀ j, j < v.ty.width → layout big v j = layout big w j) : v = w := by
  have hw : v.ty.width ≤ 8 := by cases v <;> simp [Val.ty, Ty.width]
  have hw' : w.ty.width ≤ 8 := ht ▸ hw
  have h1 := read_spec (a := ⟨8, fun i => layout big v i.toNat⟩) (pos := 0) big v (by omega)
    (by simp only; omega) (by simp [MAX_INT]) (by intro j _; simp)
  have h2 := read_spec (a := ⟨8, fun i => layout big v i.toNat⟩) (pos := 0) big w (by omega)
    (by simp only; omega) (by simp [MAX_INT]) (by intro j hj; simp [h j (by rw [ht]; exact hj)])
  rw [ht, h2] at h1
  simp at h1; exact h1.symm

example : ∃ a', write true 1 (.int 0x0A0B0C0D#32) (Arr.create 6 0) = .ok 5 a' ∧
    a'.toList = [0, 0x0A, 0x0B, 0x0C, 0x0D, 0] ∧
    read true 1 .int a' = .ok (.int 0x0A0B0C0D#32) a' ∧
    read false 1 .int a' = .ok (.int 0x0D0C0B0A#32) a' := ⟨_, rfl, rfl, rfl, rfl⟩

example : (0:Int) + totalWidth [(true, .short 5#16), (false, .bool true)] ≤
    (Arr.create 3 (0 : BitVec 8)).len := by decide

theorem wrB_bad {i : Int} {v : BitVec 8} {a : Bytes} (h : i32 i < 0 ∨ a.len ≤ i32 i) :
    wrB i v a = .err .indexOutOfBounds a := by
  unfold wrB wr
  have : ¬ (0 ≤ i32 i ∧ i32 i < (id a : Bytes).len) := by simp only [id]; omega
  simp only [this, if_false]

/-- C66 (partial: little endian at a non-negative position; `C66_exactly_partial` has the other cases): a
little-endian write at a non-negative position where the value does not fit throws
ArrayIndexOutOfBounds and changes no byte. -/
theorem C66_little_endian_partial (v : Val) (pos : Int) (a : Bytes) (h0 : 0 ≤ pos)
    (hpos : pos ≤ MAX_INT) (h1 : a.len < pos + v.ty.width) (hl : (a.len : Int) ≤ MAX_INT) :
    write false pos v a = .err .indexOutOfBounds a := by
  have hm : (a.len : Int) ≤ 2147483647 := hl
  have hp : pos ≤ 2147483647 := hpos
  have key : i32 (pos + (v.ty.width - 1)) < 0 ∨ a.len ≤ i32 (pos + (v.ty.width - 1)) := by
    have hw : 1 ≤ v.ty.width ∧ v.ty.width ≤ 8 := by cases v <;> simp [Val.ty, Ty.width]
    unfold i32; omega
  cases v <;> simp only [Val.ty, Ty.width] at key <;>
    simp only [write, byteWriteLE, boolWriteLE, shortWriteLE, charWriteLE, intWriteLE, longWriteLE,
      floatWriteLE, doubleWriteLE, Bool.false_eq_true, if_false] <;>
    exact JM.bind_err (wrB_bad (by simpa using key))

/-- C66 refuted for big endian: whenever an int starts inside the array but does not fit, the
bytes that do fit have been overwritten when the exception is thrown. -/
theorem C66_big_endian_refuted (pos : Int) (a : Bytes) (h0 : 0 ≤ pos) (h1 : pos + 1 = a.len)
    (hl : (a.len : Int) ≤ MAX_INT) (v : BitVec 32) :
    write true pos (.int v) a =
      .err .indexOutOfBounds (a.set pos (byteOf v.toNat 3)) := by
  have hm : (a.len : Int) ≤ 2147483647 := hl
  simp only [write, intWriteBE, if_true]
  rw [JM.bind_ok (wrB_ok h0 (by omega) hl), byte_sshift _ 24 3 (by omega) (by omega)]
  refine JM.bind_err (wrB_bad ?_)
  simp only [Arr.len_set]; unfold i32; omega

example : (write true 2 (.int 0x0A0B0C0D#32) (Arr.create 3 0)).state.toList = [0, 0, 0x0A] := rfl

namespace Codec

/-- The bytes `g j, g (j+1), ..` written upwards from `pos + j`, `n` of them; then `r` is returned. -/
def upFrom (g : Nat → BitVec 8) (pos r : Int) : Nat → Nat → JM Bytes Int
  | 0, _ => pure r
  | n + 1, j => do
    wrB (pos + j) (g j)
    upFrom g pos r n (j + 1)

/-- The bytes `g (n-1), .., g 0` written downwards; then `r` is returned. -/
def downFrom (g : Nat → BitVec 8) (pos r : Int) : Nat → JM Bytes Int
  | 0 => pure r
  | n + 1 => do
    wrB (pos + n) (g n)
    downFrom g pos r n

theorem write_unfold (big : Bool) (pos : Int) (v : Val) :
    write big pos v = if big then upFrom (layout true v) pos (i32 (pos + v.ty.width)) v.ty.width 0
      else downFrom (layout false v) pos (i32 (pos + v.ty.width)) v.ty.width := by
  cases v with
  | byte v =>
    cases big <;> simp [write, byteWriteBE, byteWriteLE, upFrom, downFrom, Val.ty, Ty.width, layout, Val.bits, byteOf_full]
  | bool v =>
    have := bool_byte v
    cases big <;> simp [write, boolWriteBE, boolWriteLE, upFrom, downFrom, Val.ty, Ty.width, layout, Val.bits, this]
  | short v =>
    have e1 : ((v.signExtend 32).sshiftRight 8).setWidth 8 = byteOf v.toNat 1 := by
      rw [byte_sshift _ 8 1 (by omega) (by omega), signExtend_byte _ _ (by omega)]
    have e0 : (v.signExtend 32 &&& 0xff#32).setWidth 8 = byteOf v.toNat 0 := by
      rw [byte_low _ (by omega), signExtend_byte _ _ (by omega)]
    cases big <;> simp [write, shortWriteBE, shortWriteLE, upFrom, downFrom, Val.ty, Ty.width, layout, Val.bits, e0, e1]
  | char v =>
    have e1 : ((v.setWidth 32).sshiftRight 8).setWidth 8 = byteOf v.toNat 1 := by
      rw [byte_sshift _ 8 1 (by omega) (by omega), setWidth_byte]
    have e0 : (v.setWidth 32 &&& 0xff#32).setWidth 8 = byteOf v.toNat 0 := by
      rw [byte_low _ (by omega), setWidth_byte]
    cases big <;> simp [write, charWriteBE, charWriteLE, upFrom, downFrom, Val.ty, Ty.width, layout, Val.bits, e0, e1]
  | int v | float v =>
    have e3 : (v.sshiftRight 24).setWidth 8 = byteOf v.toNat 3 := byte_sshift _ 24 3 (by omega) (by omega)
    have e2 : (v.sshiftRight 16).setWidth 8 = byteOf v.toNat 2 := byte_sshift _ 16 2 (by omega) (by omega)
    have e1 : (v.sshiftRight 8).setWidth 8 = byteOf v.toNat 1 := byte_sshift _ 8 1 (by omega) (by omega)
    have e0 : (v &&& 0xff#32).setWidth 8 = byteOf v.toNat 0 := byte_low _ (by omega)
    cases big <;> simp [write, intWriteBE, intWriteLE, floatWriteBE, floatWriteLE, upFrom, downFrom, Val.ty, Ty.width,
      layout, Val.bits, e0, e1, e2, e3]
  | long v | double v =>
    have e7 : (v.sshiftRight 56).setWidth 8 = byteOf v.toNat 7 := byte_sshift _ 56 7 (by omega) (by omega)
    have e6 : (v.sshiftRight 48).setWidth 8 = byteOf v.toNat 6 := byte_sshift _ 48 6 (by omega) (by omega)
    have e5 : (v.sshiftRight 40).setWidth 8 = byteOf v.toNat 5 := byte_sshift _ 40 5 (by omega) (by omega)
    have e4 : (v.sshiftRight 32).setWidth 8 = byteOf v.toNat 4 := byte_sshift _ 32 4 (by omega) (by omega)
    have e3 : (v.sshiftRight 24).setWidth 8 = byteOf v.toNat 3 := byte_sshift _ 24 3 (by omega) (by omega)
    have e2 : (v.sshiftRight 16).setWidth 8 = byteOf v.toNat 2 := byte_sshift _ 16 2 (by omega) (by omega)
    have e1 : (v.sshiftRight 8).setWidth 8 = byteOf v.toNat 1 := byte_sshift _ 8 1 (by omega) (by omega)
    have e0 : (v &&& 0xff#64).setWidth 8 = byteOf v.toNat 0 := byte_low _ (by omega)
    cases big <;> simp [write, longWriteBE, longWriteLE, doubleWriteBE, doubleWriteLE, upFrom, downFrom, Val.ty, Ty.width,
      layout, Val.bits, e0, e1, e2, e3, e4, e5, e6, e7]

theorem upFrom_bad {g : Nat → BitVec 8} {pos r : Int} (hp : -2147483648 ≤ pos ∧ pos ≤ 2147483647) :
    ∀ (n j : Nat) (a : Bytes), 0 < n → j + n ≤ 8 → (a.len : Int) ≤ MAX_INT → 0 ≤ pos → a.len < pos + j + n →
    ∃ a', upFrom g pos r n j a = .err .indexOutOfBounds a' ∧ a'.len = a.len ∧
      ∀ i : Int, a'.get i = if pos + j ≤ i ∧ i < a.len then g (i - pos).toNat else a.get i
  | 0, j, a, hn, _, _, _, _ => by omega
  | n + 1, j, a, _, hj, hl, h0, h1 => by
    have hm : (a.len : Int) ≤ 2147483647 := hl
    unfold upFrom
    by_cases hin : pos + j < a.len
    · rw [JM.bind_ok (wrB_ok (by omega) hin hl)]
      obtain ⟨a', q1, q2, q3⟩ := upFrom_bad hp n (j + 1) (a.set (pos + j) (g j)) (by omega) (by omega) hl h0
        (by simp only [Arr.len_set]; omega)
      refine ⟨a', q1, q2, fun i => ?_⟩
      have q4 : a'.get i = if pos + ((j + 1 : Nat) : Int) ≤ i ∧ i < a.len then g (i - pos).toNat
          else if i = pos + j then g j else a.get i := by rw [q3 i, Arr.get_set]; rfl
      rw [q4]
      by_cases hi : i = pos + j
      · rw [if_neg (by omega), if_pos hi, if_pos (by omega)]
        congr 1; omega
      · rw [if_neg hi]
        by_cases hc : pos + j ≤ i ∧ i < a.len
        · rw [if_pos hc, if_pos (by omega)]
        · rw [if_neg hc, if_neg (by omega)]
    · rw [JM.bind_err (wrB_bad (by unfold i32; omega))]
      exact ⟨a, rfl, rfl, fun i => by rw [if_neg (by omega)]⟩

theorem upFrom_negative {g : Nat → BitVec 8} {pos r : Int} (hp : -2147483648 ≤ pos) (hn : pos < 0) (n : Nat) (a : Bytes) :
    upFrom g pos r (n + 1) 0 a = .err .indexOutOfBounds a := by
  unfold upFrom
  rw [JM.bind_err (wrB_bad (by unfold i32; omega))]

theorem downFrom_beyond {g : Nat → BitVec 8} {pos r : Int} {a : Bytes} (hp : -2147483648 ≤ pos ∧ pos ≤ 2147483647)
    (hl : (a.len : Int) ≤ MAX_INT) (n : Nat) (hn : n < 8) (h : a.len < pos + (n + 1)) :
    downFrom g pos r (n + 1) a = .err .indexOutOfBounds a := by
  have hm : (a.len : Int) ≤ 2147483647 := hl
  unfold downFrom
  rw [JM.bind_err (wrB_bad (by unfold i32; omega))]

theorem downFrom_negative {g : Nat → BitVec 8} {pos r : Int} (hp : -2147483648 ≤ pos ∧ pos < 0) :
    ∀ (n : Nat) (a : Bytes), 0 < n → n ≤ 8 → (a.len : Int) ≤ MAX_INT → pos + n ≤ a.len →
    ∃ a', downFrom g pos r n a = .err .indexOutOfBounds a' ∧ a'.len = a.len ∧
      ∀ i : Int, a'.get i = if 0 ≤ i ∧ i < pos + n then g (i - pos).toNat else a.get i
  | 0, a, hn, _, _, _ => by omega
  | n + 1, a, _, hj, hl, h1 => by
    have hm : (a.len : Int) ≤ 2147483647 := hl
    unfold downFrom
    by_cases hin : 0 ≤ pos + n
    · rw [JM.bind_ok (wrB_ok hin (by omega) hl)]
      obtain ⟨a', q1, q2, q3⟩ := downFrom_negative hp n (a.set (pos + n) (g n)) (by omega) (by omega) hl
        (by simp only [Arr.len_set]; omega)
      refine ⟨a', q1, q2, fun i => ?_⟩
      rw [q3 i]
      simp only [Arr.get_set]
      by_cases hi : i = pos + n
      · rw [if_neg (by omega), if_pos hi, if_pos (by omega)]
        congr 1; omega
      · rw [if_neg hi]
        by_cases hc : 0 ≤ i ∧ i < pos + n
        · rw [if_pos hc, if_pos (by omega)]
        · rw [if_neg hc, if_neg (by omega)]
    · rw [JM.bind_err (wrB_bad (by unfold i32; omega))]
      exact ⟨a, rfl, rfl, fun i => by rw [if_neg (by omega)]⟩

end Codec

/-- C66, exactly: a write that does not fit (at any `int` position) throws ArrayIndexOutOfBounds.  Big endian, it has
stored the bytes below the end of the array if the position is not negative; little endian, the bytes from index 0 on if
the value ends inside the array.  All other bytes are unchanged. -/
theorem C66_exactly_partial (big : Bool) (v : Val) (pos : Int) (a : Bytes) (hp : -2147483648 ≤ pos ∧ pos ≤ 2147483647)
    (hl : (a.len : Int) ≤ MAX_INT) (hbad : ¬ (0 ≤ pos ∧ pos + v.ty.width ≤ a.len)) :
    ∃ a', write big pos v a = .err .indexOutOfBounds a' ∧ a'.len = a.len ∧
      ∀ i : Int, a'.get i =
        if (if big then 0 ≤ pos else pos + v.ty.width ≤ a.len) ∧ 0 ≤ i ∧ i < a.len ∧ pos ≤ i ∧ i < pos + v.ty.width
        then layout big v (i - pos).toNat else a.get i := by
  have hw : 1 ≤ v.ty.width ∧ v.ty.width ≤ 8 := by cases v <;> simp [Val.ty, Ty.width]
  rw [write_unfold]
  generalize v.ty.width = w at *
  obtain ⟨w, rfl⟩ : ∃ w', w = w' + 1 := ⟨w - 1, by omega⟩
  cases big with
  | true =>
    by_cases h0 : 0 ≤ pos
    · obtain ⟨a', q1, q2, q3⟩ := upFrom_bad (g := layout true v) (r := i32 (pos + (w + 1 : Nat))) hp (w + 1) 0 a (by omega) (by omega) hl h0 (by omega)
      refine ⟨a', q1, q2, fun i => ?_⟩
      rw [q3 i]
      by_cases hc : pos + (0 : Nat) ≤ i ∧ i < a.len
      · rw [if_pos hc, if_pos (by simp only [if_true]; omega)]
      · rw [if_neg hc, if_neg (by simp only [if_true]; omega)]
    · exact ⟨a, upFrom_negative hp.1 (by omega) _ _, rfl, fun i => by rw [if_neg (by simp only [if_true]; omega)]⟩
  | false =>
    by_cases h1 : pos + (w + 1 : Nat) ≤ a.len
    · obtain ⟨a', q1, q2, q3⟩ := downFrom_negative (g := layout false v) (r := i32 (pos + (w + 1 : Nat))) ⟨hp.1, by omega⟩ (w + 1) a (by omega) (by omega) hl h1
      refine ⟨a', q1, q2, fun i => ?_⟩
      rw [q3 i]
      simp only [Bool.false_eq_true, if_false]
      by_cases hc : 0 ≤ i ∧ i < pos + (w + 1 : Nat)
      · rw [if_pos hc, if_pos (by omega)]
      · rw [if_neg hc, if_neg (by omega)]
    · exact ⟨a, downFrom_beyond hp hl _ (by omega) (by omega), rfl,
        fun i => by rw [if_neg (by simp only [Bool.false_eq_true, if_false]; omega)]⟩

/- Non-vacuity of `C66_exactly_partial`, and little endian at a negative position, which stores a part, too. -/
example : (write false (-2) (.int 0x0A0B0C0D#32) (Arr.create 3 0)).state.toList = [0x0B, 0x0A, 0] ∧
    (write false (-2) (.int 0x0A0B0C0D#32) (Arr.create 3 0)).out = .error .indexOutOfBounds := ⟨rfl, rfl⟩

end Verif

import Verif.Gen.Types
import Verif.Props.Pack
import Verif.Props.Codec
/-!
The methods of `Pack.java`, the bit-flag helpers and the codecs of `types/*.java`, as translated mechanically from
the Java text (Gen/Types), agree with the model, so that the theorems about the model hold for the translated text.
-/
namespace Verif.Link.Types
open Verif Gen.Types

theorem map_bind' {σ α β γ : Type} (f : β → γ) (m : JM σ α) (g : α → JM σ β) : (f <$> (m >>= g)) = (m >>= fun a => f <$> g a) := by
  show JM.mk _ = JM.mk _
  congr 1
  funext s
  show (f <$> (m >>= g)) s = (m >>= fun a => f <$> g a) s
  simp only [JM.map_apply, JM.bind_apply]
  cases m s <;> rfl
theorem map_pure' {σ α β : Type} (f : α → β) (a : α) : (f <$> (pure a : JM σ α)) = pure (f a) := rfl
theorem bind_pure' {σ α : Type} (m : JM σ α) : (m >>= fun a => pure a) = m := by
  show JM.mk _ = m
  cases m with | mk f =>
  congr 1
  funext s
  show (match f s with | .ok a s' => .ok a s' | .err e s' => .err e s') = f s
  cases f s <;> rfl

/-! ### Pack.java -/

/-- C13 for the translated Java text. -/
theorem _root_.Verif.C13_generated (hi lo hi' lo' : BitVec 32) (v : BitVec 64) :
    Gen.Types.Pack.unpackHiInt (Gen.Types.Pack.packToLong hi lo) = hi ∧ Gen.Types.Pack.unpackLoInt (Gen.Types.Pack.packToLong hi lo) = lo ∧
    Gen.Types.Pack.packToLong (Gen.Types.Pack.unpackHiInt v) (Gen.Types.Pack.unpackLoInt v) = v ∧
    (Gen.Types.Pack.packToLong hi lo = Gen.Types.Pack.packToLong hi' lo' → hi = hi' ∧ lo = lo') ∧
    (Gen.Types.Pack.packToLong hi lo).toInt = hi.toInt * 2 ^ 32 + lo.toNat :=
  ⟨(Verif.C13_unpack_pack hi lo).1, (Verif.C13_unpack_pack hi lo).2, Verif.C13_pack_unpack v,
    Verif.C13_injective hi lo hi' lo', Verif.C13_value hi lo⟩

example : Gen.Types.Pack.packToLong (-1#32) (-2#32) = (-2#64) ∧ Gen.Types.Pack.unpackHiInt (-2#64) = -1#32 := by decide

/-- C14 for the translated Java text. -/
theorem _root_.Verif.C14_generated (hi lo : BitVec 16) (v : BitVec 32) (bh bl : BitVec 8) (w : BitVec 16) (b1 b2 b3 b4 : BitVec 8) :
    (Gen.Types.Pack.unpackHiShort (Gen.Types.Pack.packToInt2 hi lo) = hi ∧ Gen.Types.Pack.unpackLoShort (Gen.Types.Pack.packToInt2 hi lo) = lo ∧
      Gen.Types.Pack.packToInt2 (Gen.Types.Pack.unpackHiShort v) (Gen.Types.Pack.unpackLoShort v) = v) ∧
    (Gen.Types.Pack.unpackHiByte (Gen.Types.Pack.packToShort bh bl) = bh ∧ Gen.Types.Pack.unpackLoByte (Gen.Types.Pack.packToShort bh bl) = bl ∧
      Gen.Types.Pack.packToShort (Gen.Types.Pack.unpackHiByte w) (Gen.Types.Pack.unpackLoByte w) = w) ∧
    (Gen.Types.Pack.unpackHiByte (Gen.Types.Pack.unpackHiShort (Gen.Types.Pack.packToInt4 b1 b2 b3 b4)) = b1 ∧
      Gen.Types.Pack.unpackLoByte (Gen.Types.Pack.unpackHiShort (Gen.Types.Pack.packToInt4 b1 b2 b3 b4)) = b2 ∧
      Gen.Types.Pack.unpackHiByte (Gen.Types.Pack.unpackLoShort (Gen.Types.Pack.packToInt4 b1 b2 b3 b4)) = b3 ∧
      Gen.Types.Pack.unpackLoByte (Gen.Types.Pack.unpackLoShort (Gen.Types.Pack.packToInt4 b1 b2 b3 b4)) = b4 ∧
      Gen.Types.Pack.packToInt4 (Gen.Types.Pack.unpackHiByte (Gen.Types.Pack.unpackHiShort v)) (Gen.Types.Pack.unpackLoByte (Gen.Types.Pack.unpackHiShort v))
        (Gen.Types.Pack.unpackHiByte (Gen.Types.Pack.unpackLoShort v)) (Gen.Types.Pack.unpackLoByte (Gen.Types.Pack.unpackLoShort v)) = v) :=
  ⟨Verif.C14_short_bijection hi lo v, Verif.C14_byte_bijection bh bl w, Verif.C14_four_bytes b1 b2 b3 b4 v⟩

example : Gen.Types.Pack.packToInt4 1#8 (-2#8) 3#8 (-4#8) = 0x01fe03fc#32 := by decide

/-! ### enableBits, disableBits -/

/-- C21 for the translated Java text: every bit of the result, for each of the four types. -/
theorem _root_.Verif.C21_generated (i : Nat) (f8 b8 : BitVec 8) (f16 b16 : BitVec 16) (f32 b32 : BitVec 32) (f64 b64 : BitVec 64) :
    ((ByteType.enableBits f8 b8).getLsbD i = (f8.getLsbD i || b8.getLsbD i) ∧
      (ByteType.disableBits f8 b8).getLsbD i = (f8.getLsbD i && !b8.getLsbD i)) ∧
    ((ShortType.enableBits f16 b16).getLsbD i = (f16.getLsbD i || b16.getLsbD i) ∧
      (ShortType.disableBits f16 b16).getLsbD i = (f16.getLsbD i && !b16.getLsbD i)) ∧
    ((IntType.enableBits f32 b32).getLsbD i = (f32.getLsbD i || b32.getLsbD i) ∧
      (IntType.disableBits f32 b32).getLsbD i = (f32.getLsbD i && !b32.getLsbD i)) ∧
    ((LongType.enableBits f64 b64).getLsbD i = (f64.getLsbD i || b64.getLsbD i) ∧
      (LongType.disableBits f64 b64).getLsbD i = (f64.getLsbD i && !b64.getLsbD i)) := by
  have h8 := Verif.C21_narrow (by omega) f8 b8
  have h16 := Verif.C21_narrow (by omega) f16 b16
  have e8 := Verif.C21_bits f8 b8 i
  have e16 := Verif.C21_bits f16 b16 i
  rw [← h8.1, ← h8.2] at e8
  rw [← h16.1, ← h16.2] at e16
  exact ⟨e8, e16, Verif.C21_bits f32 b32 i, Verif.C21_bits f64 b64 i⟩

example : ByteType.enableBits 5#8 (-128#8) = -123#8 ∧ LongType.disableBits 7#64 2#64 = 5#64 := by decide

/-! ### the codecs -/

theorem toInt_add_nat (p : BitVec 32) (k : Nat) (hk : k < 2 ^ 31) : (p + BitVec.ofNat 32 k).toInt = i32 (p.toInt + k) := by
  have h := BitVec.toInt_add p (BitVec.ofNat 32 k)
  have hk' : (BitVec.ofNat 32 k).toInt = k := by
    rw [BitVec.toInt_eq_toNat_of_lt (by rw [BitVec.toNat_ofNat]; omega), BitVec.toNat_ofNat]; omega
  rw [h, hk']
  unfold i32
  rw [Int.bmod_def]
  omega

theorem i32_toInt (p : BitVec 32) : i32 p.toInt = p.toInt := by
  have := p.toInt_lt; have := p.le_toInt
  unfold i32; omega

theorem wrB_i32 (i : Int) (v : BitVec 8) : Codec.wrB (i32 i) v = Codec.wrB i v := by
  unfold Codec.wrB
  rw [show i32 (i32 i) = i32 i by unfold i32; omega]
theorem rdB_i32 (i : Int) : Codec.rdB (i32 i) = Codec.rdB i := by
  unfold Codec.rdB
  rw [show i32 (i32 i) = i32 i by unfold i32; omega]

/-- Dispatch of a write call to the translated method of the value's type and the byte order. -/
def write (big : Bool) (pos : BitVec 32) : Codec.Val → JM Codec.Bytes (BitVec 32)
  | .byte v => if big then ByteType.writeBE pos v else ByteType.writeLE pos v
  | .bool v => if big then BoolType.writeBE pos v else BoolType.writeLE pos v
  | .short v => if big then ShortType.writeBE pos v else ShortType.writeLE pos v
  | .char v => if big then CharType.writeBE pos v else CharType.writeLE pos v
  | .int v => if big then IntType.writeBE pos v else IntType.writeLE pos v
  | .long v => if big then LongType.writeBE pos v else LongType.writeLE pos v
  | .float v => if big then FloatType.writeBE pos v else FloatType.writeLE pos v
  | .double v => if big then DoubleType.writeBE pos v else DoubleType.writeLE pos v

/-- Dispatch of a read call to the translated method of the type and the byte order. -/
def read (big : Bool) (pos : BitVec 32) : Codec.Ty → JM Codec.Bytes Codec.Val
  | .byte => .byte <$> if big then ByteType.readBE pos else ByteType.readLE pos
  | .bool => .bool <$> if big then BoolType.readBE pos else BoolType.readLE pos
  | .short => .short <$> if big then ShortType.readBE pos else ShortType.readLE pos
  | .char => .char <$> if big then CharType.readBE pos else CharType.readLE pos
  | .int => .int <$> if big then IntType.readBE pos else IntType.readLE pos
  | .long => .long <$> if big then LongType.readBE pos else LongType.readLE pos
  | .float => .float <$> if big then FloatType.readBE pos else FloatType.readLE pos
  | .double => .double <$> if big then DoubleType.readBE pos else DoubleType.readLE pos

theorem bool_eq_one (b : BitVec 8) : (b.signExtend 32 == 1#32) = (b == 1#8) := by
  revert b; decide

theorem write_eq (big : Bool) (pos : BitVec 32) (v : Codec.Val) :
    BitVec.toInt <$> write big pos v = Codec.write big pos.toInt v := by
  have e1 : (pos + 1#32).toInt = i32 (pos.toInt + 1) := toInt_add_nat pos 1 (by omega)
  have e2 : (pos + 2#32).toInt = i32 (pos.toInt + 2) := toInt_add_nat pos 2 (by omega)
  have e3 : (pos + 3#32).toInt = i32 (pos.toInt + 3) := toInt_add_nat pos 3 (by omega)
  have e4 : (pos + 4#32).toInt = i32 (pos.toInt + 4) := toInt_add_nat pos 4 (by omega)
  have e5 : (pos + 5#32).toInt = i32 (pos.toInt + 5) := toInt_add_nat pos 5 (by omega)
  have e6 : (pos + 6#32).toInt = i32 (pos.toInt + 6) := toInt_add_nat pos 6 (by omega)
  have e7 : (pos + 7#32).toInt = i32 (pos.toInt + 7) := toInt_add_nat pos 7 (by omega)
  have e8 : (pos + 8#32).toInt = i32 (pos.toInt + 8) := toInt_add_nat pos 8 (by omega)
  cases v <;> cases big <;>
  simp only [write, Codec.write, if_true, if_false, Bool.false_eq_true, map_bind', map_pure', e1, e2, e3, e4, e5, e6, e7, e8, wrB_i32,
    ByteType.writeBE, ByteType.writeLE, BoolType.writeBE, BoolType.writeLE, ShortType.writeBE, ShortType.writeLE,
    CharType.writeBE, CharType.writeLE, IntType.writeBE, IntType.writeLE, LongType.writeBE, LongType.writeLE,
    FloatType.writeBE, FloatType.writeLE, DoubleType.writeBE, DoubleType.writeLE, bind_pure',
    Codec.byteWriteBE, Codec.byteWriteLE, Codec.boolWriteBE, Codec.boolWriteLE, Codec.shortWriteBE, Codec.shortWriteLE,
    Codec.charWriteBE, Codec.charWriteLE, Codec.intWriteBE, Codec.intWriteLE, Codec.longWriteBE, Codec.longWriteLE,
    Codec.floatWriteBE, Codec.floatWriteLE, Codec.doubleWriteBE, Codec.doubleWriteLE]
  all_goals (rename_i v; cases v <;> rfl)

theorem read_eq (big : Bool) (pos : BitVec 32) (t : Codec.Ty) : read big pos t = Codec.read big pos.toInt t := by
  have e1 : (pos + 1#32).toInt = i32 (pos.toInt + 1) := toInt_add_nat pos 1 (by omega)
  have e2 : (pos + 2#32).toInt = i32 (pos.toInt + 2) := toInt_add_nat pos 2 (by omega)
  have e3 : (pos + 3#32).toInt = i32 (pos.toInt + 3) := toInt_add_nat pos 3 (by omega)
  have e4 : (pos + 4#32).toInt = i32 (pos.toInt + 4) := toInt_add_nat pos 4 (by omega)
  have e5 : (pos + 5#32).toInt = i32 (pos.toInt + 5) := toInt_add_nat pos 5 (by omega)
  have e6 : (pos + 6#32).toInt = i32 (pos.toInt + 6) := toInt_add_nat pos 6 (by omega)
  have e7 : (pos + 7#32).toInt = i32 (pos.toInt + 7) := toInt_add_nat pos 7 (by omega)
  have e8 : (pos + 8#32).toInt = i32 (pos.toInt + 8) := toInt_add_nat pos 8 (by omega)
  cases t <;> cases big <;>
  simp only [read, Codec.read, if_true, if_false, Bool.false_eq_true, e1, e2, e3, e4, e5, e6, e7, rdB_i32,
    ByteType.readBE, ByteType.readLE, BoolType.readBE, BoolType.readLE, ShortType.readBE, ShortType.readLE,
    CharType.readBE, CharType.readLE, IntType.readBE, IntType.readLE, LongType.readBE, LongType.readLE,
    FloatType.readBE, FloatType.readLE, DoubleType.readBE, DoubleType.readLE, bind_pure', bool_eq_one,
    Codec.byteReadBE, Codec.byteReadLE, Codec.boolReadBE, Codec.boolReadLE, Codec.shortReadBE, Codec.shortReadLE,
    Codec.charReadBE, Codec.charReadLE, Codec.intReadBE, Codec.intReadLE, Codec.longReadBE, Codec.longReadLE,
    Codec.floatReadBE, Codec.floatReadLE, Codec.doubleReadBE, Codec.doubleReadLE, Codec.ub32, Codec.ub64]

theorem write_ok {big : Bool} {pos : BitVec 32} {v : Codec.Val} {a a' : Codec.Bytes} {x : Int}
    (h : Codec.write big pos.toInt v a = .ok x a') : ∃ n : BitVec 32, write big pos v a = .ok n a' ∧ n.toInt = x := by
  rw [← write_eq, JM.map_apply] at h
  cases e : write big pos v a with
  | ok n s => rw [e] at h; simp only [Res.ok.injEq] at h; exact ⟨n, by rw [h.2], h.1⟩
  | err _ _ => rw [e] at h; simp at h

theorem write_err {big : Bool} {pos : BitVec 32} {v : Codec.Val} {a a' : Codec.Bytes} {x : Err}
    (h : Codec.write big pos.toInt v a = .err x a') : write big pos v a = .err x a' := by
  rw [← write_eq, JM.map_apply] at h
  cases e : write big pos v a with
  | ok n s => rw [e] at h; simp at h
  | err _ _ => rw [e] at h; simp only [Res.err.injEq] at h; rw [h.1, h.2]

/-- C15 for the translated Java text. -/
theorem _root_.Verif.C15_generated (big : Bool) (v : Codec.Val) (pos : BitVec 32) (a : Codec.Bytes) (h0 : 0 ≤ pos.toInt)
    (h1 : pos.toInt + v.ty.width ≤ a.len) (hl : (a.len : Int) ≤ MAX_INT) :
    ∃ next a', write big pos v a = .ok next a' ∧ read big pos v.ty a' = .ok v a' := by
  obtain ⟨n, a', h, hr⟩ := C15_round_trip big v pos.toInt a h0 h1 hl
  obtain ⟨n, hw, -⟩ := write_ok h
  exact ⟨n, a', hw, by rw [read_eq]; exact hr⟩

/-- C16 for the translated Java text. -/
theorem _root_.Verif.C16_generated (big : Bool) (v : Codec.Val) (pos : BitVec 32) (a : Codec.Bytes) (h0 : 0 ≤ pos.toInt)
    (h1 : pos.toInt + v.ty.width ≤ a.len) (hl : (a.len : Int) ≤ MAX_INT) :
    ∃ (next : BitVec 32) (a' : Codec.Bytes), write big pos v a = .ok next a' ∧ next.toInt = pos.toInt + v.ty.width ∧
      a'.len = a.len ∧ ∀ i : Int, i < pos.toInt ∨ pos.toInt + v.ty.width ≤ i → a'.get i = a.get i := by
  obtain ⟨a', h, hlen, hf⟩ := C16_frame big v pos.toInt a h0 h1 hl
  obtain ⟨n, hw, hn⟩ := write_ok h
  exact ⟨n, a', hw, hn, hlen, hf⟩

/-- Write a list of values back to back, each at the position returned by the previous write. -/
def writeAll (pos : BitVec 32) : List (Bool × Codec.Val) → JM Codec.Bytes (BitVec 32)
  | [] => pure pos
  | (big, v) :: vs => do
    let next ← write big pos v
    writeAll next vs

/-- Read values of the given types and orders back to back. -/
def readAll (pos : BitVec 32) : List (Bool × Codec.Ty) → JM Codec.Bytes (List Codec.Val)
  | [] => pure []
  | (big, t) :: ts => do
    let v ← read big pos t
    let vs ← readAll (pos + BitVec.ofNat 32 t.width) ts
    pure (v :: vs)

/-- C16 for the translated Java text: values written back to back are read back to back. -/
theorem _root_.Verif.C16_generated_sequence (vs : List (Bool × Codec.Val)) (pos : BitVec 32) (a : Codec.Bytes) (h0 : 0 ≤ pos.toInt)
    (h1 : pos.toInt + totalWidth vs ≤ a.len) (hl : (a.len : Int) ≤ MAX_INT) :
    ∃ (next : BitVec 32) (a' : Codec.Bytes), writeAll pos vs a = .ok next a' ∧ next.toInt = pos.toInt + totalWidth vs ∧
      a'.len = a.len ∧ readAll pos (vs.map fun p => (p.1, p.2.ty)) a' = .ok (vs.map (·.2)) a' ∧
      ∀ i : Int, i < pos.toInt ∨ pos.toInt + totalWidth vs ≤ i → a'.get i = a.get i := by
  obtain ⟨a', h, hlen, hr, hf⟩ := C16_sequence vs pos.toInt a h0 h1 hl
  have key : ∀ (vs : List (Bool × Codec.Val)) (pos : BitVec 32) (a a' : Codec.Bytes) (x : Int),
      Verif.writeAll pos.toInt vs a = .ok x a' → ∃ n : BitVec 32, writeAll pos vs a = .ok n a' ∧ n.toInt = x := by
    intro vs
    induction vs with
    | nil => intro pos a a' x h; simp only [Verif.writeAll, JM.pure_apply, Res.ok.injEq] at h; exact ⟨pos, by simp [writeAll, h.2], h.1⟩
    | cons p vs ih =>
      obtain ⟨big, v⟩ := p
      intro pos a a' x h
      unfold Verif.writeAll at h
      rw [← write_eq, JM.bind_apply, JM.map_apply] at h
      unfold writeAll
      rw [JM.bind_apply]
      cases e : write big pos v a with
      | ok n s => rw [e] at h; exact ih n s a' x h
      | err _ _ => rw [e] at h; simp at h
  have key2 : ∀ (vs : List (Bool × Codec.Val)) (pos : BitVec 32) (a' : Codec.Bytes), 0 ≤ pos.toInt →
      pos.toInt + totalWidth vs ≤ MAX_INT → readAll pos (vs.map fun p => (p.1, p.2.ty)) a' =
        Verif.readAll pos.toInt (vs.map fun p => (p.1, p.2.ty)) a' := by
    intro vs
    induction vs with
    | nil => intro pos a' _ _; rfl
    | cons p vs ih =>
      obtain ⟨big, v⟩ := p
      intro pos a' h0 h1
      have hm : pos.toInt + totalWidth ((big, v) :: vs) ≤ 2147483647 := h1
      simp only [totalWidth] at h1 hm
      simp only [List.map_cons, readAll, Verif.readAll, read_eq, JM.bind_apply]
      cases e : Codec.read big pos.toInt v.ty a' with
      | err _ _ => rfl
      | ok x s =>
        have hw : v.ty.width ≤ 8 := by cases v <;> simp [Codec.Val.ty, Codec.Ty.width]
        have e2 : (pos + BitVec.ofNat 32 v.ty.width).toInt = pos.toInt + v.ty.width := by
          rw [toInt_add_nat _ _ (by omega)]; unfold i32; omega
        have := ih (pos + BitVec.ofNat 32 v.ty.width) s (by omega) (by rw [e2]; omega)
        rw [e2] at this
        simp only [this]
  obtain ⟨n, hw, hn⟩ := key vs pos a a' _ h
  exact ⟨n, a', hw, hn, hlen, by rw [key2 vs pos a' h0 (by omega)]; exact hr, hf⟩

example : (writeAll 1#32 [(true, .int 0x0A0B0C0D#32), (false, .short 0x0102#16), (true, .bool true)] (Arr.create 8 0)).state.toList
    = [0, 0x0A, 0x0B, 0x0C, 0x0D, 2, 1, 1] := by decide +kernel

/-- C17 for the translated Java text. -/
theorem _root_.Verif.C17_generated (v : Codec.Val) (pos : BitVec 32) (a : Codec.Bytes) (h0 : 0 ≤ pos.toInt)
    (h1 : pos.toInt + v.ty.width ≤ a.len) (hl : (a.len : Int) ≤ MAX_INT) :
    ∃ (n n' : BitVec 32) (le be : Codec.Bytes), write false pos v a = .ok n le ∧ write true pos v a = .ok n' be ∧
      (∀ j : Nat, j < v.ty.width → le.get (pos.toInt + j) = Codec.byteOf v.bits j) ∧
      (∀ j : Nat, j < v.ty.width → be.get (pos.toInt + v.ty.width - 1 - j) = Codec.byteOf v.bits j) := by
  obtain ⟨le, be, h, h', hle, hbe, -⟩ := C17_layout v pos.toInt a h0 h1 hl
  obtain ⟨n, hw, -⟩ := write_ok h
  obtain ⟨n', hw', -⟩ := write_ok h'
  exact ⟨n, n', le, be, hw, hw', hle, hbe⟩

/-- C66 for the translated Java text (partial as for the model: which bytes a failed write leaves written). -/
theorem _root_.Verif.C66_generated_partial (big : Bool) (v : Codec.Val) (pos : BitVec 32) (a : Codec.Bytes)
    (hl : (a.len : Int) ≤ MAX_INT) (hbad : ¬ (0 ≤ pos.toInt ∧ pos.toInt + v.ty.width ≤ a.len)) :
    ∃ a', write big pos v a = .err .indexOutOfBounds a' ∧ a'.len = a.len ∧
      ∀ i : Int, a'.get i =
        if (if big then 0 ≤ pos.toInt else pos.toInt + v.ty.width ≤ a.len) ∧ 0 ≤ i ∧ i < a.len ∧ pos.toInt ≤ i ∧
          i < pos.toInt + v.ty.width
        then Codec.layout big v (i - pos.toInt).toNat else a.get i := by
  have h1 := pos.toInt_lt; have h2 := pos.le_toInt
  obtain ⟨a', h, hlen, hf⟩ := C66_exactly_partial big v pos.toInt a (by omega) hl hbad
  exact ⟨a', write_err h, hlen, hf⟩

example : (write true 2#32 (.int 0x0A0B0C0D#32) (Arr.create 3 0)).state.toList = [0, 0, 0x0A] := by decide +kernel

end Verif.Link.Types

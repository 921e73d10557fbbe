import Verif.Link.Types1
import Verif.Props.Dates
import Verif.Props.Convert
import Verif.Props.ConvertExact
/-!
Casts, boxes, conversions and texts of the code generated from `types/*.java`, and the dates and times of
`IntType.java`: they are those of the model.
-/
namespace Verif.Link.Types
open Verif Verif.Gen Verif.Gen.Types Convert ConvertSpec FloatSpec Floats
set_option linter.unusedSimpArgs false

/-- What the generated code uses of `Float.parseFloat` and `Double.parseDouble`, as the model uses it. -/
def pf (env : Jdk.Env) : JString → Except Err (BitVec 32) := fun s => env.parseFloat (some s)
@[inherit_doc pf] def pd (env : Jdk.Env) : JString → Except Err (BitVec 64) := fun s => env.parseDouble (some s)

theorem float_zero : FloatType.DEFAULT = 0 := by decide +kernel
theorem double_zero : DoubleType.DEFAULT = 0 := by decide +kernel

/-! ### dates -/

theorem bmod_i32 (x : Int) : x.bmod (2 ^ 32) = i32 x := by
  unfold i32
  rw [Int.bmod_def]
  split <;> omega

theorem i32_ofInt (x : Int) : (BitVec.ofInt 32 x).toInt = i32 x := by
  rw [BitVec.toInt_ofInt]; exact bmod_i32 x

theorem toYYYMMDD_eq (y m d : BitVec 32) : (IntType.toYYYMMDD y m d).toInt = Dates.toYYYMMDD y.toInt m.toInt d.toInt := by
  unfold IntType.toYYYMMDD Dates.toYYYMMDD
  rw [BitVec.toInt_add, BitVec.toInt_add, BitVec.toInt_mul, BitVec.toInt_mul]
  simp only [bmod_i32]
  rfl
theorem toHHMMSS_eq (y m d : BitVec 32) : (IntType.toHHMMSS y m d).toInt = Dates.toHHMMSS y.toInt m.toInt d.toInt :=
  toYYYMMDD_eq y m d

theorem toYYYMMDD_i32 (y m d : Int) : Dates.toYYYMMDD (i32 y) (i32 m) (i32 d) = Dates.toYYYMMDD y m d := by
  unfold Dates.toYYYMMDD i32; omega

theorem fromLocalDate_eq (d : Dates.LDate) : (IntType.fromLocalDate d).toInt = Dates.fromLocalDate d := by
  unfold IntType.fromLocalDate Dates.fromLocalDate
  rw [toYYYMMDD_eq, i32_ofInt, i32_ofInt, i32_ofInt, toYYYMMDD_i32]
theorem fromLocalTime_eq (t : Dates.LTime) : (IntType.fromLocalTime t).toInt = Dates.fromLocalTime t := by
  unfold IntType.fromLocalTime Dates.fromLocalTime
  rw [toHHMMSS_eq, i32_ofInt, i32_ofInt, i32_ofInt]
  exact toYYYMMDD_i32 _ _ _
theorem fromSqlDate_eq (d : Dates.SqlDate) : (IntType.fromSqlDate d).toInt = Dates.fromSqlDate d := by
  unfold IntType.fromSqlDate Dates.fromSqlDate
  rw [toYYYMMDD_eq, BitVec.toInt_add, BitVec.toInt_add, i32_ofInt, i32_ofInt, i32_ofInt, bmod_i32, bmod_i32]
  have e1 : (1900#32).toInt = 1900 := by decide
  have e2 : (1#32).toInt = 1 := by decide
  rw [e1, e2]
  unfold Dates.toYYYMMDD i32; omega

theorem sdiv_toInt (x : BitVec 32) (k : BitVec 32) (hk : 1 < k.toInt) : (x.sdiv k).toInt = x.toInt.tdiv k.toInt := by
  rw [BitVec.toInt_sdiv_of_ne_or_ne]
  right; intro h; rw [h] at hk; revert hk; decide

theorem toLocalDate_eq (x : BitVec 32) : IntType.toLocalDate x = Dates.toLocalDate x.toInt := by
  unfold IntType.toLocalDate Jdk.dateOf Dates.toLocalDate
  dsimp only
  rw [BitVec.toInt_srem, BitVec.toInt_srem, sdiv_toInt _ _ (by decide), sdiv_toInt _ _ (by decide)]
  rfl
theorem toLocalTime_eq (x : BitVec 32) : IntType.toLocalTime x = Dates.toLocalTime x.toInt := by
  unfold IntType.toLocalTime Jdk.timeOf Dates.toLocalTime
  dsimp only
  rw [BitVec.toInt_srem, BitVec.toInt_srem, sdiv_toInt _ _ (by decide), sdiv_toInt _ _ (by decide)]
  rfl

/-- C22 of the generated code. -/
theorem _root_.Verif.C22_generated_dates (d : Dates.LDate) (hv : d.Valid) :
    (IntType.toLocalDate (IntType.fromLocalDate d) = .ok d ↔ 0 ≤ d.year ∧ d.year ≤ 214748) ∧
    (-214748 ≤ d.year ∧ d.year < 0 → IntType.toLocalDate (IntType.fromLocalDate d) = .error .dateTime) ∧
    (∀ e : Dates.LDate, e.Valid → 0 ≤ d.year ∧ d.year ≤ 214748 → 0 ≤ e.year ∧ e.year ≤ 214748 →
      ((IntType.fromLocalDate d).toInt < (IntType.fromLocalDate e).toInt ↔
        d.year < e.year ∨ d.year = e.year ∧ (d.month < e.month ∨ d.month = e.month ∧ d.day < e.day))) := by
  simp only [toLocalDate_eq, fromLocalDate_eq]
  exact ⟨C22_exactly d hv, C22_negative_year_rejected d hv, fun e he h1 h2 => C22_order d e hv he h1 h2⟩

/-- C22 of the generated code, times. -/
theorem _root_.Verif.C22_generated_times (t u : Dates.LTime) (ht : t.Valid) (hu : u.Valid) :
    IntType.toLocalTime (IntType.fromLocalTime t) = .ok { t with nano := 0 } ∧
    ((IntType.fromLocalTime t).toInt < (IntType.fromLocalTime u).toInt ↔
      t.hour < u.hour ∨ t.hour = u.hour ∧ (t.minute < u.minute ∨ t.minute = u.minute ∧ t.second < u.second)) := by
  simp only [toLocalTime_eq, fromLocalTime_eq]
  exact ⟨C22_time t ht, C22_time_order t u ht hu⟩

/-- C89 of the generated code: exactly the ints that write a date or time that exists are accepted. -/
theorem _root_.Verif.C89_generated (x : BitVec 32) :
    (∀ d, IntType.toLocalDate x = .ok d ↔
      d.Valid ∧ 0 ≤ d.year ∧ x.toInt = d.year * 10000 + d.month * 100 + d.day) ∧
    ((∀ d, IntType.toLocalDate x ≠ .ok d) → IntType.toLocalDate x = .error .dateTime) ∧
    (∀ t, IntType.toLocalTime x = .ok t ↔
      t.Valid ∧ t.nano = 0 ∧ x.toInt = t.hour * 10000 + t.minute * 100 + t.second) ∧
    ((∀ t, IntType.toLocalTime x ≠ .ok t) → IntType.toLocalTime x = .error .dateTime) ∧
    (∀ d : Dates.LDate, d.Valid → IntType.fromSqlDate (Dates.sqlDateOf d) = IntType.fromLocalDate d) := by
  simp only [toLocalDate_eq, toLocalTime_eq]
  obtain ⟨h1, h2⟩ := C89_dates_validated x.toInt (by have := x.toInt_lt; have := x.le_toInt; omega)
  obtain ⟨h3, h4⟩ := C89_times_validated x.toInt
  refine ⟨h1, h2, h3, h4, fun d hd => ?_⟩
  apply BitVec.eq_of_toInt_eq
  rw [fromSqlDate_eq, fromLocalDate_eq, C89_sql_date d hd]

example : IntType.toLocalDate 20240229#32 = .ok ⟨2024, 2, 29⟩ ∧ IntType.toLocalDate 20230229#32 = .error .dateTime ∧
    IntType.toLocalTime 235959#32 = .ok ⟨23, 59, 59, 0⟩ ∧ (Dates.LDate.mk 2024 2 29).Valid := by decide +kernel

/-! ### casts, boxes and conversions -/

theorem byte_convert : ByteType.convert = byteConvert := by
  funext o; rcases o with _ | n | b | c | s | d | t | _ <;> try rfl
  · cases b <;> rfl
theorem short_convert : ShortType.convert = shortConvert := by
  funext o; rcases o with _ | n | b | c | s | d | t | _ <;> try rfl
  · cases b <;> rfl
theorem int_convert : IntType.convert = intConvert := by
  funext o; rcases o with _ | n | b | c | s | d | t | _ <;> try rfl
  · refine congrArg Except.ok (BitVec.eq_of_toInt_eq ?_)
    rw [fromLocalDate_eq, i32_ofInt]; exact (i32_of_range (i32_range _)).symm
  · refine congrArg Except.ok (BitVec.eq_of_toInt_eq ?_)
    rw [fromLocalTime_eq, i32_ofInt]; exact (i32_of_range (i32_range _)).symm
theorem long_convert : LongType.convert = longConvert := by
  funext o; rcases o with _ | n | b | c | s | d | t | _ <;> try rfl
  · cases b <;> rfl
theorem char_parse (s : JString) : CharType.parseString (some s) = .ok (charParse s) := by
  cases s with
  | nil => rfl
  | cons c s =>
    have h : (0#32).slt (BitVec.ofNat 32 (min (c :: s).length (2 ^ 31 - 1))) = true := by
      have hl : 0 < (c :: s).length := by simp
      generalize (c :: s).length = n at hl ⊢
      have e : (BitVec.ofNat 32 (min n (2 ^ 31 - 1))).toInt = (min n (2 ^ 31 - 1) : Nat) := by
        rw [BitVec.toInt_eq_toNat_of_lt (by rw [BitVec.toNat_ofNat]; omega), BitVec.toNat_ofNat]; omega
      have z : (0#32).toInt = 0 := by decide
      rw [BitVec.slt, e, z]
      simp only [decide_eq_true_eq]; omega
    show (if (0#32).slt (BitVec.ofNat 32 (min (c :: s).length (2 ^ 31 - 1))) = true then
      (Jdk.charAt (some (c :: s)) 0#32 : Except Err (BitVec 16)) else .ok CharType.DEFAULT) = _
    rw [if_pos h]
    have z : (0#32).toInt = 0 := by decide
    unfold Jdk.charAt
    dsimp only
    rw [if_pos (by rw [z]; simp), z]
    rfl
theorem char_convert : CharType.convert = charConvert := by
  funext o; rcases o with _ | n | b | c | s | d | t | _ <;> try rfl
  · exact char_parse s
theorem bool_convert : BoolType.convert = boolConvert := by
  funext o; rcases o with _ | n | b | c | s | d | t | _ <;> try rfl
theorem float_convert (env : Jdk.Env) : FloatType.convert env = floatConvert (pf env) := by
  funext o
  rcases o with _ | n | b | c | s | d | t | _
  · exact congrArg Except.ok float_zero
  · rfl
  · cases b <;> rfl
  all_goals rfl
theorem double_convert (env : Jdk.Env) : DoubleType.convert env = doubleConvert (pd env) := by
  funext o
  rcases o with _ | n | b | c | s | d | t | _
  · exact congrArg Except.ok double_zero
  · rfl
  · cases b <;> rfl
  all_goals rfl
theorem string_convert (env : Jdk.Env) : StringType.convert env = fun o => .ok (stringConvert env.toStr o) := by
  funext o; rcases o with _ | n | b | c | s | d | t | _ <;> try rfl
  · cases n <;> rfl

theorem byte_unbox : ByteType.unbox = byteUnbox := by
  funext o; rcases o with _ | n | b | c | s | d | t | _ <;> rfl
theorem short_unbox : ShortType.unbox = shortUnbox := by
  funext o; rcases o with _ | n | b | c | s | d | t | _ <;> rfl
theorem int_unbox : IntType.unbox = intUnbox := by
  funext o; rcases o with _ | n | b | c | s | d | t | _ <;> rfl
theorem long_unbox : LongType.unbox = longUnbox := by
  funext o; rcases o with _ | n | b | c | s | d | t | _ <;> rfl
theorem char_unbox : CharType.unbox = charUnbox := by
  funext o; rcases o with _ | n | b | c | s | d | t | _ <;> rfl
theorem bool_unbox : BoolType.unbox = boolUnbox := by
  funext o; rcases o with _ | n | b | c | s | d | t | _ <;> rfl
theorem float_unbox : FloatType.unbox = floatUnbox := by
  funext o; rcases o with _ | n | b | c | s | d | t | _
  · exact congrArg Except.ok float_zero
  all_goals rfl
theorem double_unbox : DoubleType.unbox = doubleUnbox := by
  funext o; rcases o with _ | n | b | c | s | d | t | _
  · exact congrArg Except.ok double_zero
  all_goals rfl

theorem byte_cast : ByteType.castToInt = byteCastToInt ∧ ByteType.castToByte = castToByte := ⟨rfl, rfl⟩
theorem short_cast : ShortType.castToInt = shortCastToInt ∧ ShortType.castToShort = castToShort := ⟨rfl, rfl⟩
theorem char_cast : CharType.castToInt = charCastToInt ∧ CharType.castToChar = castToChar := ⟨rfl, rfl⟩
theorem long_cast : LongType.castToInt = longCastToInt ∧ LongType.castToLong = castToLong := ⟨rfl, rfl⟩
theorem bool_cast : BoolType.castToInt = boolCastToInt ∧ BoolType.castToBool = castToBool := ⟨rfl, rfl⟩
theorem float_cast : FloatType.castToInt = floatCastToInt ∧ FloatType.castToFloat = castToFloat := ⟨rfl, rfl⟩
theorem double_cast : DoubleType.castToInt = doubleCastToInt ∧ DoubleType.castToDouble = castToDouble := ⟨rfl, rfl⟩
theorem string_cast : (fun s => StringType.castToInt (some s)) = stringCastToInt ∧
    StringType.castToString = fun v => some (castToString v) := ⟨rfl, rfl⟩
/-- Replaces the generated methods by those of the model. -/
local macro "as_model" : tactic => `(tactic| simp only [string_cast.2, byte_convert, short_convert, int_convert, long_convert, char_convert, bool_convert,
    float_convert, double_convert, string_convert,
    byte_unbox, short_unbox, int_unbox, long_unbox, char_unbox, bool_unbox, float_unbox, double_unbox,
     Except.ok.injEq, Option.some.injEq])

/-- C78 of the generated code: casts that keep the value. -/
theorem _root_.Verif.C78_generated_round_trip  :
    (∀ v : BitVec 8, ByteType.castToByte (ByteType.castToInt v) = v ∧ (ByteType.castToInt v).toInt = v.toInt) ∧
    (∀ v : BitVec 16, ShortType.castToShort (ShortType.castToInt v) = v ∧ (ShortType.castToInt v).toInt = v.toInt) ∧
    (∀ v : BitVec 16, CharType.castToChar (CharType.castToInt v) = v ∧ (CharType.castToInt v).toInt = v.toNat) ∧
    (∀ v : Bool, BoolType.castToBool (BoolType.castToInt v) = v ∧ (BoolType.castToInt v).toInt = if v then 1 else 0) ∧
    (∀ v : BitVec 32, LongType.castToInt (LongType.castToLong v) = v ∧ (LongType.castToLong v).toInt = v.toInt) ∧
    (∀ v : BitVec 32, DoubleType.castToInt (DoubleType.castToDouble v) = v ∧ num64 (DoubleType.castToDouble v) = v.toInt * 2 ^ 1074) := by
  exact C78_round_trip

/-- C78 of the generated code: narrowing casts. -/
theorem _root_.Verif.C78_generated_narrowing (v : BitVec 32) :
    ((ByteType.castToByte v).toInt = v.toInt ↔ -128 ≤ v.toInt ∧ v.toInt < 128) ∧
    ((ShortType.castToShort v).toInt = v.toInt ↔ -32768 ≤ v.toInt ∧ v.toInt < 32768) ∧
    ((CharType.castToChar v).toNat = v.toInt ↔ 0 ≤ v.toInt ∧ v.toInt < 65536) ∧
    (BoolType.castToBool v = true ↔ v.toInt ≠ 0) := by
  exact C78_narrowing v

/-- C78 of the generated code: the ints that survive a cast to float. -/
theorem _root_.Verif.C78_generated_float (v : BitVec 32) :
    FloatType.castToInt (FloatType.castToFloat v) = v ↔ (∃ m k : Nat, m < 2 ^ 24 ∧ v.toInt.natAbs = m * 2 ^ k) ∨ v.toInt = 2 ^ 31 - 1 := by
  exact C78_float_exactly v

/-- C79 of the generated code: boxed values. -/
theorem _root_.Verif.C79_generated_box_partial (env : Jdk.Env)  :
    (∀ v, ByteType.convert (ByteType.box v) = .ok v ∧ ByteType.unbox (ByteType.box v) = .ok v) ∧
    (∀ v, ShortType.convert (ShortType.box v) = .ok v ∧ ShortType.unbox (ShortType.box v) = .ok v) ∧
    (∀ v, IntType.convert (IntType.box v) = .ok v ∧ IntType.unbox (IntType.box v) = .ok v) ∧
    (∀ v, LongType.convert (LongType.box v) = .ok v ∧ LongType.unbox (LongType.box v) = .ok v) ∧
    (∀ v, FloatType.convert env (FloatType.box v) = .ok v ∧ FloatType.unbox (FloatType.box v) = .ok v) ∧
    (∀ v, DoubleType.convert env (DoubleType.box v) = .ok v ∧ DoubleType.unbox (DoubleType.box v) = .ok v) ∧
    (∀ v, BoolType.convert (BoolType.box v) = .ok v ∧ BoolType.unbox (BoolType.box v) = .ok v) ∧
    (∀ v, CharType.unbox (CharType.box v) = .ok v) := by
  as_model
  exact C79_box_partial (pf env) (pd env)

/-- C79 refuted for the generated code: a boxed char is not converted to char. -/
theorem _root_.Verif.C79_generated_char_refuted (c : BitVec 16) :
    CharType.convert (CharType.box c) = .error .illegalArgument := by
  as_model
  exact C79_char_refuted c

/-- C79 of the generated code: floating point numbers. -/
theorem _root_.Verif.C79_generated_truncation  :
    (∀ v : BitVec 64, ¬ IsNaN64 v →
      IntType.convert (.num (.double v)) = .ok (BitVec.ofInt 32 (clamp 32 ((num64 v).tdiv (2 ^ 1074)))) ∧
      LongType.convert (.num (.double v)) = .ok (BitVec.ofInt 64 (clamp 64 ((num64 v).tdiv (2 ^ 1074)))) ∧
      DoubleType.castToInt v = BitVec.ofInt 32 (clamp 32 ((num64 v).tdiv (2 ^ 1074)))) ∧
    (∀ v : BitVec 32, ¬ IsNaN32 v →
      IntType.convert (.num (.float v)) = .ok (BitVec.ofInt 32 (clamp 32 ((num32 v).tdiv (2 ^ 149)))) ∧
      LongType.convert (.num (.float v)) = .ok (BitVec.ofInt 64 (clamp 64 ((num32 v).tdiv (2 ^ 149)))) ∧
      FloatType.castToInt v = BitVec.ofInt 32 (clamp 32 ((num32 v).tdiv (2 ^ 149)))) ∧
    (∀ v : BitVec 64, IsNaN64 v → IntType.convert (.num (.double v)) = .ok 0 ∧ LongType.convert (.num (.double v)) = .ok 0 ∧
      DoubleType.castToInt v = 0) ∧
    (∀ v : BitVec 32, IsNaN32 v → IntType.convert (.num (.float v)) = .ok 0 ∧ LongType.convert (.num (.float v)) = .ok 0 ∧
      FloatType.castToInt v = 0) := by
  as_model
  exact C79_truncation

/-- C79 of the generated code: null. -/
theorem _root_.Verif.C79_generated_null (env : Jdk.Env)  :
    ByteType.convert .null = .ok 0 ∧ ShortType.convert .null = .ok 0 ∧ IntType.convert .null = .ok 0 ∧ LongType.convert .null = .ok 0 ∧
    CharType.convert .null = .ok 0 ∧ BoolType.convert .null = .ok false ∧ FloatType.convert env .null = .ok 0 ∧
    DoubleType.convert env .null = .ok 0 ∧ ByteType.unbox .null = .ok 0 ∧ ShortType.unbox .null = .ok 0 ∧ IntType.unbox .null = .ok 0 ∧
    LongType.unbox .null = .ok 0 ∧ CharType.unbox .null = .ok 0 ∧ BoolType.unbox .null = .ok false ∧ FloatType.unbox .null = .ok 0 ∧
    DoubleType.unbox .null = .ok 0 := by
  as_model
  exact C79_null (pf env) (pd env)

/-- C79 of the generated code: whole numbers in range. -/
theorem _root_.Verif.C79_generated_integer_exact (x : Num) (W : Int) (hv : value x = some (W * 2 ^ 1074)) :
    (-2 ^ 7 ≤ W ∧ W < 2 ^ 7 → ByteType.convert (.num x) = .ok (BitVec.ofInt 8 W)) ∧
    (-2 ^ 15 ≤ W ∧ W < 2 ^ 15 → ShortType.convert (.num x) = .ok (BitVec.ofInt 16 W)) ∧
    (-2 ^ 31 ≤ W ∧ W < 2 ^ 31 → IntType.convert (.num x) = .ok (BitVec.ofInt 32 W)) ∧
    (-2 ^ 63 ≤ W ∧ W < 2 ^ 63 → LongType.convert (.num x) = .ok (BitVec.ofInt 64 W)) ∧
    (0 ≤ W ∧ W < 2 ^ 16 → CharType.convert (.num x) = .ok (BitVec.ofInt 16 W)) := by
  as_model
  exact C79_integer_exact x W hv

/-- C79 of the generated code: numbers that are doubles. -/
theorem _root_.Verif.C79_generated_double_exact (env : Jdk.Env) (x : Num) (d : BitVec 64) (hd : Finite64 d)
    (hv : value x = some (num64 d)) :
    ∃ r, DoubleType.convert env (.num x) = .ok r ∧ num64 r = num64 d ∧ Finite64 r := by
  as_model
  exact C79_double_exact (pd env) x d hd hv

/-- C79 of the generated code: numbers that are floats. -/
theorem _root_.Verif.C79_generated_float_exact (env : Jdk.Env) (x : Num) (f : BitVec 32) (hf : expo32 f ≠ 255)
    (hv : value x = some (num32 f * 2 ^ 925)) :
    ∃ r, FloatType.convert env (.num x) = .ok r ∧ num32 r = num32 f ∧ expo32 r ≠ 255 := by
  as_model
  exact C79_float_exact (pf env) x f hf hv

/-- C79 of the generated code: numbers as booleans. -/
theorem _root_.Verif.C79_generated_bool_partial (x : Num) (W : Int) (hv : value x = some (W * 2 ^ 1074)) (hW : -2 ^ 31 ≤ W ∧ W < 2 ^ 31) :
    BoolType.convert (.num x) = .ok (decide (W ≠ 0)) := by
  as_model
  exact C79_bool_partial x W hv hW

/-- C79 of the generated code: booleans and objects of other classes. -/
theorem _root_.Verif.C79_generated_other_classes (env : Jdk.Env) (b : Bool) :
    (ByteType.convert (.bool b) = .ok (if b then 1 else 0) ∧ ShortType.convert (.bool b) = .ok (if b then 1 else 0) ∧
      IntType.convert (.bool b) = .ok (if b then 1 else 0) ∧ LongType.convert (.bool b) = .ok (if b then 1 else 0) ∧
      CharType.convert (.bool b) = .ok (if b then 116 else 102)) ∧
    (∃ f d, FloatType.convert env (.bool b) = .ok f ∧ num32 f = (if b then 1 else 0) * 2 ^ 149 ∧
      DoubleType.convert env (.bool b) = .ok d ∧ num64 d = (if b then 1 else 0) * 2 ^ 1074) ∧
    (∀ o : JObj, o = .other ∨ (∃ c, o = .char c) →
      ByteType.convert o = .error .illegalArgument ∧ ShortType.convert o = .error .illegalArgument ∧
      IntType.convert o = .error .illegalArgument ∧ LongType.convert o = .error .illegalArgument ∧
      BoolType.convert o = .error .illegalArgument ∧ FloatType.convert env o = .error .illegalArgument ∧
      DoubleType.convert env o = .error .illegalArgument ∧ IntType.unbox o = .error .classCast) := by
  as_model
  exact C79_other_classes (pf env) (pd env) b

/-- C79 of the generated code: dates and times as ints. -/
theorem _root_.Verif.C79_generated_dates (d : Dates.LDate) (t : Dates.LTime) (hd : d.Valid) (hy : 0 ≤ d.year ∧ d.year ≤ 9999) (ht : t.Valid) :
    IntType.convert (.localDate d) = .ok (BitVec.ofInt 32 (d.year * 10000 + d.month * 100 + d.day)) ∧
    IntType.convert (.localTime t) = .ok (BitVec.ofInt 32 (t.hour * 10000 + t.minute * 100 + t.second)) := by
  as_model
  exact C79_dates d t hd hy ht

/-- C79 of the generated code: whole numbers out of range wrap around. -/
theorem _root_.Verif.C79_generated_integers_wrap (x : Num) (hx : (∃ v, x = .byte v) ∨ (∃ v, x = .short v) ∨ (∃ v, x = .int v) ∨ ∃ v, x = .long v)
    (W : Int) (hv : value x = some (W * 2 ^ 1074)) :
    ByteType.convert (.num x) = .ok (BitVec.ofInt 8 W) ∧ ShortType.convert (.num x) = .ok (BitVec.ofInt 16 W) ∧
    IntType.convert (.num x) = .ok (BitVec.ofInt 32 W) ∧ LongType.convert (.num x) = .ok (BitVec.ofInt 64 W) ∧
    CharType.convert (.num x) = .ok (BitVec.ofInt 16 W) := by
  as_model
  exact C79_integers_wrap x hx W hv

/-- C80 of the generated code: what `toString` writes is read back. -/
theorem _root_.Verif.C80_generated_round_trip (env : Jdk.Env)  :
    (∀ v : BitVec 8, ∃ s, StringType.convert env (ByteType.box v) = .ok (some s) ∧ ByteType.convert (.string s) = .ok v) ∧
    (∀ v : BitVec 16, ∃ s, StringType.convert env (ShortType.box v) = .ok (some s) ∧ ShortType.convert (.string s) = .ok v) ∧
    (∀ v : BitVec 32, ∃ s, StringType.convert env (IntType.box v) = .ok (some s) ∧ IntType.convert (.string s) = .ok v) ∧
    (∀ v : BitVec 64, ∃ s, StringType.convert env (LongType.box v) = .ok (some s) ∧ LongType.convert (.string s) = .ok v) ∧
    (∀ v : BitVec 16, ∃ s, StringType.convert env (CharType.box v) = .ok (some s) ∧ CharType.convert (.string s) = .ok v) ∧
    (∀ v : Bool, ∃ s, StringType.convert env (BoolType.box v) = .ok (some s) ∧ BoolType.convert (.string s) = .ok v) ∧
    (∀ v : BitVec 32, StringType.castToInt (StringType.castToString v) = .ok v) := by
  as_model
  exact C80_round_trip env.toStr

/-- C78 of the generated code: an `int` cast to an object, or kept an `int`, comes back. -/
theorem _root_.Verif.C78_generated_references (env : Jdk.Env) (v : BitVec 32) :
    GenericType.castToInt env (GenericType.castToGeneric v) = .ok v ∧ IntType.castToInt v = v := by
  refine ⟨?_, rfl⟩
  have h3 := (C80_generated_round_trip env).2.2.2.2.2.2 v
  exact h3

/-- C79 of the generated code: `box`, `unbox`, `convert` and `parseString` of the reference types hand back the
reference itself, and `unbox` of `StringType` refuses what is neither null nor a string. -/
theorem _root_.Verif.C79_generated_references (o : JObj) (s : Option JString) :
    GenericType.box o = o ∧ GenericType.unbox o = o ∧ GenericType.convert o = o ∧
    StringType.box s = s ∧ StringType.parseString s = s ∧
    (∀ t, GenericType.parseString (some t) = .string t) ∧ GenericType.parseString none = .null ∧
    (∀ t, StringType.unbox (.string t) = .ok (some t)) ∧ StringType.unbox .null = .ok none ∧
    ((∀ t, o ≠ .string t) → o ≠ .null → StringType.unbox o = .error .classCast) := by
  refine ⟨rfl, rfl, rfl, rfl, rfl, fun _ => rfl, rfl, fun _ => rfl, rfl, fun h1 h2 => ?_⟩
  cases o <;> first | exact absurd rfl h2 | exact absurd rfl (h1 _) | rfl

/-- C80 of the generated code: numbers out of range. -/
theorem _root_.Verif.C80_generated_out_of_range (x : Int) :
    (x < -2 ^ 7 ∨ 2 ^ 7 ≤ x → ByteType.convert (.string (showInt x)) = .error .numberFormat) ∧
    (x < -2 ^ 15 ∨ 2 ^ 15 ≤ x → ShortType.convert (.string (showInt x)) = .error .numberFormat) ∧
    (x < -2 ^ 31 ∨ 2 ^ 31 ≤ x → IntType.convert (.string (showInt x)) = .error .numberFormat) ∧
    (x < -2 ^ 63 ∨ 2 ^ 63 ≤ x → LongType.convert (.string (showInt x)) = .error .numberFormat) := by
  as_model
  exact C80_out_of_range x

/-- C80 of the generated code: exactly the texts of numbers in range are accepted. -/
theorem _root_.Verif.C80_generated_accepted_texts (s : JString) :
    ((∀ v, ByteType.convert (.string s) = .ok v ↔ Denotes s v.toInt) ∧
      ((∀ v : BitVec 8, ¬ Denotes s v.toInt) → ByteType.convert (.string s) = .error .numberFormat)) ∧
    ((∀ v, ShortType.convert (.string s) = .ok v ↔ Denotes s v.toInt) ∧
      ((∀ v : BitVec 16, ¬ Denotes s v.toInt) → ShortType.convert (.string s) = .error .numberFormat)) ∧
    ((∀ v, IntType.convert (.string s) = .ok v ↔ Denotes s v.toInt) ∧
      ((∀ v : BitVec 32, ¬ Denotes s v.toInt) → IntType.convert (.string s) = .error .numberFormat)) ∧
    ((∀ v, LongType.convert (.string s) = .ok v ↔ Denotes s v.toInt) ∧
      ((∀ v : BitVec 64, ¬ Denotes s v.toInt) → LongType.convert (.string s) = .error .numberFormat)) ∧
    (∀ v, StringType.castToInt (some s) = .ok v ↔ Denotes s v.toInt) := by
  as_model
  exact C80_accepted_texts s

/-- C80 of the generated code: the text written is the shortest. -/
theorem _root_.Verif.C80_generated_text (env : Jdk.Env)  :
    (∀ v : BitVec 8, ∃ s, StringType.convert env (ByteType.box v) = .ok (some s) ∧ Denotes s v.toInt ∧
      ∀ t, Denotes t v.toInt → t = s ∨ s.length < t.length) ∧
    (∀ v : BitVec 16, ∃ s, StringType.convert env (ShortType.box v) = .ok (some s) ∧ Denotes s v.toInt ∧
      ∀ t, Denotes t v.toInt → t = s ∨ s.length < t.length) ∧
    (∀ v : BitVec 32, ∃ s, StringType.convert env (IntType.box v) = .ok (some s) ∧ StringType.castToString v = some s ∧ Denotes s v.toInt ∧
      ∀ t, Denotes t v.toInt → t = s ∨ s.length < t.length) ∧
    (∀ v : BitVec 64, ∃ s, StringType.convert env (LongType.box v) = .ok (some s) ∧ Denotes s v.toInt ∧
      ∀ t, Denotes t v.toInt → t = s ∨ s.length < t.length) := by
  as_model
  exact C80_text env.toStr

/-- C80 of the generated code: chars and booleans. -/
theorem _root_.Verif.C80_generated_char_and_bool_texts (c : BitVec 16) (s : JString) :
    CharType.convert (.string (c :: s)) = .ok c ∧ CharType.convert (.string []) = .ok 0 ∧
    ∃ b, BoolType.convert (.string s) = .ok b ∧
      (b = true ↔ ∃ t r u e, s = [t, r, u, e] ∧ (t = 84 ∨ t = 116) ∧ (r = 82 ∨ r = 114) ∧ (u = 85 ∨ u = 117) ∧
        (e = 69 ∨ e = 101)) := by
  as_model
  exact C80_char_and_bool_texts c s

example : IntType.convert (.num (.double 0xc004000000000000#64)) = .ok (-2) ∧
    IntType.convert (.localDate ⟨2024, 2, 29⟩) = .ok 20240229#32 ∧ CharType.convert (.string [97#16, 98#16]) = .ok 97#16 ∧
    ByteType.convert (.string (showInt 128)) = .error .numberFormat ∧ ByteType.castToByte 200#32 = -56#8 ∧
    DoubleType.castToInt (DoubleType.castToDouble (-16777217#32)) = -16777217#32 ∧
    StringType.castToString (-7#32) = some [45#16, 55#16] := by decide +kernel

end Verif.Link.Types

import Verif.Spec.Convert
import Verif.Proofs.Floats
import Mathlib.Tactic.NormNum.Basic
/-! Lemmas about the conversions. -/
namespace Verif.Convert
open Floats FloatSpec ConvertSpec

/-- representable with `p` significant bits -/
def Rep (p n : Nat) : Prop := ∃ M j, M < 2 ^ p ∧ n = M * 2 ^ j

theorem rep_roundNat {p n : Nat} (hp : 1 ≤ p) : Rep p (roundNat p n) := by
  by_cases hn : n = 0
  · subst hn; rw [roundNat_zero]; exact ⟨0, 0, Nat.two_pow_pos _, rfl⟩
  unfold roundNat
  simp only
  generalize hk : Nat.log2 n + 1 - p = k
  have hlt : n / 2 ^ k < 2 ^ p := by
    rw [Nat.div_lt_iff_lt_mul (Nat.two_pow_pos k), ← Nat.pow_add]
    exact Nat.lt_of_lt_of_le (Nat.lt_log2_self) (pow_le_of_le (by omega))
  split
  · rcases Nat.lt_or_ge (n / 2 ^ k + 1) (2 ^ p) with h | h
    · exact ⟨_, _, h, rfl⟩
    · have e : n / 2 ^ k + 1 = 2 ^ p := by omega
      refine ⟨1, p + k, Nat.one_lt_two_pow (by omega), ?_⟩
      rw [e, Nat.one_mul, Nat.pow_add]
  · exact ⟨_, _, hlt, rfl⟩

theorem rep_pow {p : Nat} (hp : 1 ≤ p) (t : Nat) : Rep p (2 ^ t) :=
  ⟨1, t, Nat.one_lt_two_pow (by omega), by rw [Nat.one_mul]⟩

theorem roundNat_rep {p n : Nat} (hp : 1 ≤ p) (h : Rep p n) : roundNat p n = n := by
  obtain ⟨M, j, hM, rfl⟩ := h
  exact roundNat_exact hp hM

/-- the bits without the sign -/
def encMag (w n : Nat) : Nat :=
  if n < 2 ^ w then n else (Nat.log2 n - w + 1) * 2 ^ w + (n / 2 ^ (Nat.log2 n - w) - 2 ^ w)

theorem rep_dvd {p n k : Nat} (h : Rep p n) (hk : 2 ^ (p - 1 + k) ≤ n) : 2 ^ k ∣ n := by
  obtain ⟨M, j, hM, rfl⟩ := h
  have hkj : k ≤ j := by
    by_contra hc
    have h1 : M * 2 ^ j < 2 ^ p * 2 ^ j := (Nat.mul_lt_mul_right (Nat.two_pow_pos j)).2 hM
    rw [← Nat.pow_add] at h1
    have h2 : 2 ^ (p + j) ≤ 2 ^ (p - 1 + k) := pow_le_of_le (by omega)
    omega
  exact Nat.dvd_trans (Nat.pow_dvd_pow 2 hkj) (Nat.dvd_mul_left _ _)

theorem magOf_encMag {w n : Nat} (h : Rep (w + 1) n) : magOf w (encMag w n) = n := by
  unfold encMag
  split
  · rename_i hn
    have := magOf_split (w := w) (e := 0) (m := n) hn
    simpa using this
  · rename_i hn
    have hn' : 2 ^ w ≤ n := by omega
    have hn0 : n ≠ 0 := by have := Nat.two_pow_pos w; omega
    have hL : w ≤ Nat.log2 n := (Nat.le_log2 hn0).2 hn'
    have h1 := Nat.log2_self_le hn0
    have h2 := Nat.lt_log2_self (n := n)
    generalize hk : Nat.log2 n - w = k
    have hLk : Nat.log2 n = w + k := by omega
    rw [hLk] at h1 h2
    have hd : 2 ^ k ∣ n := rep_dvd h (by simpa using h1)
    have hq1 : 2 ^ w ≤ n / 2 ^ k := by
      rw [Nat.le_div_iff_mul_le (Nat.two_pow_pos k), ← Nat.pow_add]; exact h1
    have hq2 : n / 2 ^ k < 2 * 2 ^ w := by
      rw [Nat.div_lt_iff_lt_mul (Nat.two_pow_pos k), Nat.mul_assoc, ← Nat.pow_add, ← Nat.pow_succ']
      exact h2
    rw [Nat.mul_comm, magOf_split (by omega), if_neg (by omega)]
    rw [show 2 ^ w + (n / 2 ^ k - 2 ^ w) = n / 2 ^ k by omega, Nat.add_sub_cancel]
    exact Nat.div_mul_cancel hd

theorem encode_eq (w top signBit : Nat) (neg : Bool) (n : Nat) :
    encode w top signBit neg n = encMag w (min n top) + if neg then signBit else 0 := rfl

theorem encMag_le {w n t : Nat} (h : Rep (w + 1) n) (ht : n ≤ magOf w t) : encMag w n ≤ t := by
  by_contra hc
  have := magOf_lt (w := w) (show t < encMag w n by omega)
  rw [magOf_encMag h] at this
  omega

theorem rep_min {p a b : Nat} (ha : Rep p a) (hb : Rep p b) : Rep p (min a b) := by
  rcases Nat.le_total a b with h | h
  · rwa [Nat.min_eq_left h]
  · rwa [Nat.min_eq_right h]

theorem magOf_inf64 : magOf 52 (2047 * 2 ^ 52) = top64 := by decide +kernel
theorem magOf_inf32 : magOf 23 (255 * 2 ^ 23) = top32 := by decide +kernel

/-- What `mkDouble` makes. -/
theorem num64_mkDouble (neg : Bool) (n : Nat) :
    num64 (mkDouble neg n) = if neg then -((min (roundNat 53 n) top64 : Nat) : Int) else (min (roundNat 53 n) top64 : Nat) := by
  have hrep : Rep 53 (min (roundNat 53 n) top64) := rep_min (rep_roundNat (by omega)) (rep_pow (by omega) 2098)
  have hm := magOf_encMag (w := 52) hrep
  have hle := encMag_le (w := 52) (t := 2047 * 2 ^ 52) hrep (by rw [magOf_inf64]; exact Nat.min_le_right _ _)
  unfold num64 mkDouble
  rw [neg64_eq, mag64_eq, encode_eq, BitVec.toNat_ofNat]
  generalize hR : min (roundNat 53 n) top64 = R at *
  generalize hE : encMag 52 R = E at *
  cases neg
  · rw [if_neg Bool.false_ne_true]
    have e1 : (E + 0) % 2 ^ 64 = E := by omega
    have e2 : E % 2 ^ 63 = E := by omega
    rw [e1, e2, hm]
    rw [if_neg (by simp only [decide_eq_true_eq]; omega)]; rfl
  · rw [if_pos rfl]
    have e1 : (E + 2 ^ 63) % 2 ^ 64 = E + 2 ^ 63 := by omega
    have e2 : (E + 2 ^ 63) % 2 ^ 63 = E := by omega
    rw [e1, e2, hm]
    rw [if_pos (by simp only [decide_eq_true_eq]; omega)]; rfl

theorem num32_mkFloat (neg : Bool) (n : Nat) :
    num32 (mkFloat neg n) = if neg then -((min (roundNat 24 n) top32 : Nat) : Int) else (min (roundNat 24 n) top32 : Nat) := by
  have hrep : Rep 24 (min (roundNat 24 n) top32) := rep_min (rep_roundNat (by omega)) (rep_pow (by omega) 277)
  have hm := magOf_encMag (w := 23) hrep
  have hle := encMag_le (w := 23) (t := 255 * 2 ^ 23) hrep (by rw [magOf_inf32]; exact Nat.min_le_right _ _)
  unfold num32 mkFloat
  rw [neg32_eq, mag32_eq, encode_eq, BitVec.toNat_ofNat]
  generalize hR : min (roundNat 24 n) top32 = R at *
  generalize hE : encMag 23 R = E at *
  cases neg
  · rw [if_neg Bool.false_ne_true]
    have e1 : (E + 0) % 2 ^ 32 = E := by omega
    have e2 : E % 2 ^ 31 = E := by omega
    rw [e1, e2, hm]
    rw [if_neg (by simp only [decide_eq_true_eq]; omega)]; rfl
  · rw [if_pos rfl]
    have e1 : (E + 2 ^ 31) % 2 ^ 32 = E + 2 ^ 31 := by omega
    have e2 : (E + 2 ^ 31) % 2 ^ 31 = E := by omega
    rw [e1, e2, hm]
    rw [if_pos (by simp only [decide_eq_true_eq]; omega)]; rfl

theorem rep_mag64 (b : BitVec 64) : Rep 53 (mag64 b) := by
  have h2 : frac64 b < 2 ^ 52 := by rw [frac64_eq]; omega
  unfold mag64
  split
  · exact ⟨frac64 b, 0, by omega, by simp⟩
  · exact ⟨_, _, by omega, rfl⟩

theorem rep_mag32 (b : BitVec 32) : Rep 24 (mag32 b) := by
  have h2 : frac32 b < 2 ^ 23 := by rw [frac32_eq]; omega
  unfold mag32
  split
  · exact ⟨frac32 b, 0, by omega, by simp⟩
  · exact ⟨_, _, by omega, rfl⟩

theorem natAbs_num64 (b : BitVec 64) : (num64 b).natAbs = mag64 b := by
  unfold num64; split <;> omega
theorem natAbs_num32 (b : BitVec 32) : (num32 b).natAbs = mag32 b := by
  unfold num32; split <;> omega

theorem rep_mul_pow {p n : Nat} (h : Rep p n) (t : Nat) : Rep p (n * 2 ^ t) := by
  obtain ⟨M, j, hM, rfl⟩ := h
  exact ⟨M, j + t, hM, by rw [Nat.mul_assoc, ← Nat.pow_add]⟩

theorem rep_mono {p q n : Nat} (h : Rep p n) (hpq : p ≤ q) : Rep q n := by
  obtain ⟨M, j, hM, rfl⟩ := h
  exact ⟨M, j, Nat.lt_of_lt_of_le hM (pow_le_of_le hpq), rfl⟩

theorem mkDouble_exact {neg : Bool} {n : Nat} (h : Rep 53 n) (ht : n ≤ top64) :
    num64 (mkDouble neg n) = if neg then -(n : Int) else n := by
  rw [num64_mkDouble, roundNat_rep (by omega) h, Nat.min_eq_left ht]

theorem mkFloat_exact {neg : Bool} {n : Nat} (h : Rep 24 n) (ht : n ≤ top32) :
    num32 (mkFloat neg n) = if neg then -(n : Int) else n := by
  rw [num32_mkFloat, roundNat_rep (by omega) h, Nat.min_eq_left ht]

theorem sign_mul (x : Int) (P : Nat) :
    (if decide (x < 0) = true then -((x.natAbs * P : Nat) : Int) else ((x.natAbs * P : Nat) : Int)) = x * (P : Int) := by
  rw [Int.natCast_mul]
  by_cases hx : x < 0
  · rw [if_pos (decide_eq_true hx), ← Int.neg_mul, show -(x.natAbs : Int) = x by omega]
  · rw [if_neg (by simpa using hx), show (x.natAbs : Int) = x by omega]

theorem two_pow_cast (k : Nat) : ((2 : Int) ^ k) = ((2 ^ k : Nat) : Int) := by
  rw [Int.natCast_pow]; rfl

/-- The value of an integer converted to double, if a double has that value. -/
theorem intToDouble_exact {x : Int} (h : Rep 53 (x.natAbs * 2 ^ 1074)) (ht : x.natAbs * 2 ^ 1074 ≤ top64) :
    num64 (intToDouble x) = x * 2 ^ 1074 := by
  unfold intToDouble
  rw [mkDouble_exact h ht, sign_mul, two_pow_cast]

theorem intToFloat_exact {x : Int} (h : Rep 24 (x.natAbs * 2 ^ 149)) (ht : x.natAbs * 2 ^ 149 ≤ top32) :
    num32 (intToFloat x) = x * 2 ^ 149 := by
  unfold intToFloat
  rw [mkFloat_exact h ht, sign_mul, two_pow_cast]

theorem finite_of_mag64 {b : BitVec 64} (h : mag64 b < 2 ^ 2098) : expo64 b ≠ 2047 := by
  intro he
  have : 2 ^ 2098 ≤ mag64 b := by
    unfold mag64
    rw [he, if_neg (by omega)]
    calc (2 : Nat) ^ 2098 = 2 ^ 52 * 2 ^ (2047 - 1) := by rw [← Nat.pow_add]
      _ ≤ _ := Nat.mul_le_mul_right _ (by omega)
  omega

theorem finite_of_mag32 {b : BitVec 32} (h : mag32 b < 2 ^ 277) : expo32 b ≠ 255 := by
  intro he
  have : 2 ^ 277 ≤ mag32 b := by
    unfold mag32
    rw [he, if_neg (by omega)]
    calc (2 : Nat) ^ 277 = 2 ^ 23 * 2 ^ (255 - 1) := by rw [← Nat.pow_add]
      _ ≤ _ := Nat.mul_le_mul_right _ (by omega)
  omega

/-- Widening a finite float. -/
theorem floatToDouble_exact {v : BitVec 32} (h : expo32 v ≠ 255) : num64 (floatToDouble v) = num32 v * 2 ^ 925 := by
  have hm := mag32_fin h
  unfold floatToDouble
  rw [decode32_eq, if_neg h]
  simp only
  rw [natAbs_num32]
  have hrep : Rep 53 (mag32 v * 2 ^ 925) := rep_mul_pow (rep_mono (rep_mag32 v) (by omega)) 925
  have hle : mag32 v * 2 ^ 925 ≤ top64 := by
    refine Nat.le_trans (Nat.mul_le_mul_right _ (Nat.le_of_lt hm)) ?_
    rw [← Nat.pow_add]
    exact pow_le_of_le (by omega)
  rw [mkDouble_exact hrep hle, two_pow_cast, ← neg32_eq]
  unfold num32
  split
  · rw [Int.natCast_mul, Int.neg_mul]
  · rw [Int.natCast_mul]

/-- Narrowing a finite double whose value is the value of a float. -/
theorem doubleToFloat_exact {v : BitVec 64} {b : BitVec 32} (hv : expo64 v ≠ 2047) (hb : expo32 b ≠ 255)
    (h : num64 v = num32 b * 2 ^ 925) : num32 (doubleToFloat v) = num32 b := by
  have hn : (num64 v).natAbs = mag32 b * 2 ^ 925 := by
    rw [h, Int.natAbs_mul, natAbs_num32, two_pow_cast, Int.natAbs_natCast]
  unfold doubleToFloat
  rw [decode64_eq, if_neg hv]
  simp only
  rw [hn]
  obtain ⟨M, j, hM, hMj⟩ := rep_mag32 b
  have hm := mag32_fin hb
  have key : ∀ k, 925 ≤ k → k ≤ j + 925 ∨ mag32 b = 0 →
      mag32 b * 2 ^ 925 % 2 ^ k = 0 ∧ mag32 b * 2 ^ 925 / 2 ^ k * 2 ^ (k - 925) = mag32 b := by
    intro k h1 h2
    rcases h2 with h2 | h2
    · have e : mag32 b * 2 ^ 925 = M * 2 ^ (j + 925 - k) * 2 ^ k := by
        rw [hMj, Nat.mul_assoc, ← Nat.pow_add, Nat.mul_assoc, ← Nat.pow_add]; congr 2; omega
      rw [e]
      refine ⟨Nat.mul_mod_left _ _, ?_⟩
      rw [Nat.mul_div_cancel _ (Nat.two_pow_pos k), Nat.mul_assoc, ← Nat.pow_add, hMj,
        show j + 925 - k + (k - 925) = j by omega]
    · rw [h2, Nat.zero_mul, Nat.zero_mod, Nat.zero_div, Nat.zero_mul]; exact ⟨rfl, rfl⟩
  have hk : max (Nat.log2 (mag32 b * 2 ^ 925) + 1 - 24) 925 ≤ j + 925 ∨ mag32 b = 0 := by
    by_cases h0 : mag32 b = 0
    · exact .inr h0
    · left
      have hn0 : mag32 b * 2 ^ 925 ≠ 0 := Nat.mul_ne_zero h0 (Nat.pos_iff_ne_zero.1 (Nat.two_pow_pos _))
      have h1 : Nat.log2 (mag32 b * 2 ^ 925) < 24 + (j + 925) := by
        rw [Nat.log2_lt hn0, hMj, Nat.mul_assoc, ← Nat.pow_add, Nat.pow_add 2 24]
        exact (Nat.mul_lt_mul_right (Nat.two_pow_pos _)).2 hM
      omega
  obtain ⟨k1, k2⟩ := key _ (Nat.le_max_right _ _) hk
  generalize hK : max (Nat.log2 (mag32 b * 2 ^ 925) + 1 - 24) 925 = K at *
  rw [k1, if_neg (by have := Nat.two_pow_pos K; omega), k2]
  rw [mkFloat_exact ⟨M, j, hM, hMj⟩ (Nat.le_of_lt hm), ← neg64_eq]
  have hneg : mag32 b ≠ 0 → neg64 v = neg32 b := by
    intro h0
    unfold num64 num32 at h
    rw [two_pow_cast] at h
    have hm64 : mag64 v ≠ 0 := by
      rw [← natAbs_num64, hn]
      exact Nat.mul_ne_zero h0 (Nat.pos_iff_ne_zero.1 (Nat.two_pow_pos _))
    have hpos : 0 < ((mag32 b : Int) * ((2 ^ 925 : Nat) : Int)) :=
      Int.mul_pos (by omega) (by exact_mod_cast Nat.two_pow_pos 925)
    generalize ((2 ^ 925 : Nat) : Int) = P at h hpos
    clear key hk k1 k2 hK hn hm hMj
    cases h1 : neg64 v <;> cases h2 : neg32 b <;> simp only [h1, h2, if_true, if_false, Bool.false_eq_true, Int.neg_mul] at h ⊢ <;>
      (generalize (mag32 b : Int) * P = Q at h hpos; omega)
  unfold num32
  by_cases h0 : mag32 b = 0
  · rw [h0]; split <;> split <;> rfl
  · rw [hneg h0]

theorem toIntegral_exact {u w : Nat} {W : Int} (h1 : -2 ^ (w - 1) ≤ W) (h2 : W < 2 ^ (w - 1)) :
    toIntegral u w (.fin (W * 2 ^ u)) = W := by
  unfold toIntegral
  simp only
  rw [Int.mul_tdiv_cancel _ (by rw [two_pow_cast]; exact_mod_cast Nat.pos_iff_ne_zero.1 (Nat.two_pow_pos u))]
  rw [if_neg (by omega), if_neg (by omega)]

theorem setWidth_toInt {w k : Nat} (v : BitVec w) (h : k ≤ w) : v.setWidth k = BitVec.ofInt k v.toInt := by
  rw [← BitVec.signExtend_eq_setWidth_of_le _ h]; rfl

/-! ### decimal strings -/

theorem digit?_show {d : Nat} (h : d < 10) : digit? (BitVec.ofNat 16 (48 + d)) = some d := by
  unfold digit?
  rw [BitVec.toNat_ofNat, Nat.mod_eq_of_lt (by omega), if_pos (by omega)]
  congr 1; omega

theorem digits?_append (acc : Nat) (xs : JString) (c : BitVec 16) (n d : Nat) (h1 : digits? acc xs = some n)
    (h2 : digit? c = some d) : digits? acc (xs ++ [c]) = some (n * 10 + d) := by
  induction xs generalizing acc with
  | nil => simp only [digits?, Option.some.injEq] at h1; subst h1; simp [digits?, h2]
  | cons x xs ih =>
    simp only [digits?, List.cons_append] at h1 ⊢
    cases hx : digit? x with
    | none => rw [hx] at h1; simp at h1
    | some e => rw [hx] at h1; simp only at h1 ⊢; exact ih _ h1

theorem digits?_show (n : Nat) : digits? 0 (showNat n) = some n := by
  induction n using Nat.strongRecOn with
  | _ n ih =>
    unfold showNat
    split
    · rename_i h
      simp [digits?, digit?_show h]
    · rename_i h
      rw [digits?_append _ _ _ _ _ (ih (n / 10) (by omega)) (digit?_show (d := n % 10) (by omega))]
      congr 1; omega

theorem showNat_digit (n : Nat) : ∀ c ∈ showNat n, 48 ≤ c.toNat ∧ c.toNat ≤ 57 := by
  induction n using Nat.strongRecOn with
  | _ n ih =>
    unfold showNat
    intro c hc
    split at hc
    · simp only [List.mem_singleton] at hc
      subst hc
      rw [BitVec.toNat_ofNat, Nat.mod_eq_of_lt (by omega)]; omega
    · simp only [List.mem_append, List.mem_singleton] at hc
      rcases hc with hc | hc
      · exact ih (n / 10) (by omega) c hc
      · subst hc
        rw [BitVec.toNat_ofNat, Nat.mod_eq_of_lt (by omega)]; omega

theorem showNat_ne (n : Nat) : showNat n ≠ [] := by
  unfold showNat; split <;> simp

theorem decimal?_showInt (x : Int) : decimal? (showInt x) = some x := by
  unfold showInt
  split
  · rename_i h
    simp only [decimal?, if_true, showNat_ne, if_false, digits?_show, Option.map_some, Option.some.injEq]
    omega
  · rename_i h
    cases hs : showNat x.natAbs with
    | nil => exact absurd hs (showNat_ne _)
    | cons c cs =>
      have hd := showNat_digit x.natAbs c (by rw [hs]; exact List.mem_cons_self ..)
      have h1 : c ≠ 45#16 := by rintro rfl; exact absurd hd.1 (by decide)
      have h2 : c ≠ 43#16 := by rintro rfl; exact absurd hd.1 (by decide)
      simp only [decimal?]
      rw [if_neg h1, if_neg h2, ← hs, digits?_show]
      simp only [Option.map_some, Option.some.injEq]
      omega

theorem parse_show {w : Nat} (hw : 1 ≤ w) (v : BitVec w) : parseIntegral w (showInt v.toInt) = .ok v := by
  unfold parseIntegral
  rw [decimal?_showInt]
  simp only
  have h1 := BitVec.le_toInt (x := v)
  have h2 := BitVec.toInt_lt (x := v)
  rw [if_pos ⟨by simpa using h1, by simpa using h2⟩, BitVec.ofInt_toInt]

theorem parse_show_range {w : Nat} {x : Int} (h : ¬ (-2 ^ (w - 1) ≤ x ∧ x < 2 ^ (w - 1))) :
    parseIntegral w (showInt x) = .error .numberFormat := by
  unfold parseIntegral
  rw [decimal?_showInt]
  simp only
  rw [if_neg h]


theorem digit?_some {c : BitVec 16} {d : Nat} : digit? c = some d ↔ d < 10 ∧ c = BitVec.ofNat 16 (48 + d) := by
  constructor
  · intro h
    unfold digit? at h
    split at h
    · simp only [Option.some.injEq] at h
      refine ⟨by omega, BitVec.eq_of_toNat_eq ?_⟩
      rw [BitVec.toNat_ofNat]; omega
    · simp at h
  · rintro ⟨h, rfl⟩; exact digit?_show h

theorem digits?_snoc (acc : Nat) (s : JString) (c : BitVec 16) :
    digits? acc (s ++ [c]) = (digits? acc s).bind fun n => (digit? c).map fun d => n * 10 + d := by
  induction s generalizing acc with
  | nil => simp only [List.nil_append, digits?, Option.bind_some]; cases digit? c <;> rfl
  | cons x s ih =>
    simp only [List.cons_append, digits?]
    cases digit? x with
    | none => rfl
    | some d => exact ih _

theorem digits?_iff (s : JString) (n : Nat) : (s ≠ [] ∧ digits? 0 s = some n) ↔ ConvertSpec.Digits s n := by
  constructor
  · rintro ⟨hne, h⟩
    induction hk : s.length generalizing s n with
    | zero => exact absurd (List.eq_nil_of_length_eq_zero hk) hne
    | succ k ih =>
      obtain ⟨t, c, rfl⟩ : ∃ t c, s = t ++ [c] := by
        rcases List.eq_nil_or_concat s with h | ⟨t, c, h⟩
        · exact absurd h hne
        · exact ⟨t, c, by rw [h, List.concat_eq_append]⟩
      rw [digits?_snoc] at h
      cases ht : digits? 0 t with
      | none => rw [ht] at h; simp at h
      | some m =>
        rw [ht] at h
        simp only [Option.bind_some, Option.map_eq_some_iff] at h
        obtain ⟨d, h1, rfl⟩ := h
        obtain ⟨h2, rfl⟩ := digit?_some.1 h1
        by_cases he : t = []
        · subst he
          simp only [digits?, Option.some.injEq] at ht
          subst ht
          rw [Nat.zero_mul, Nat.zero_add]
          exact .one h2
        · exact .more (ih t m he ht (by simpa using hk)) h2
  · intro h
    induction h with
    | one h => exact ⟨by simp, by simp [digits?, digit?_show h]⟩
    | more _ h ih => exact ⟨by simp, digits?_append _ _ _ _ _ ih.2 (digit?_show h)⟩

theorem digits_head {s : JString} {n : Nat} (h : ConvertSpec.Digits s n) : s ≠ [] ∧
    ∀ c ∈ s, c ≠ 43#16 ∧ c ≠ 45#16 := by
  have one : ∀ d, d < 10 → BitVec.ofNat 16 (48 + d) ≠ 43#16 ∧ BitVec.ofNat 16 (48 + d) ≠ 45#16 := by
    intro d hd
    constructor <;> intro hc <;> have := congrArg BitVec.toNat hc <;>
      simp only [BitVec.toNat_ofNat] at this <;> omega
  induction h with
  | one h => exact ⟨by simp, fun c hc => by simp only [List.mem_singleton] at hc; subst hc; exact one _ h⟩
  | more _ h ih =>
    refine ⟨by simp, fun c hc => ?_⟩
    rcases List.mem_append.1 hc with hc | hc
    · exact ih.2 c hc
    · simp only [List.mem_singleton] at hc; subst hc; exact one _ h

theorem decimal?_iff (s : JString) (x : Int) : decimal? s = some x ↔ ConvertSpec.Denotes s x := by
  have sgn : ∀ (cs : JString) (f : Nat → Int),
      ((if cs = [] then none else (digits? 0 cs).map f) = some x) ↔ ∃ n, ConvertSpec.Digits cs n ∧ x = f n := by
    intro cs f
    split
    · rename_i h
      subst h
      simp only [reduceCtorEq, false_iff, not_exists, not_and]
      intro n hn
      exact absurd rfl (digits_head hn).1
    · rename_i h
      simp only [Option.map_eq_some_iff]
      constructor
      · rintro ⟨n, h1, rfl⟩; exact ⟨n, (digits?_iff _ _).1 ⟨h, h1⟩, rfl⟩
      · rintro ⟨n, h1, rfl⟩; exact ⟨n, ((digits?_iff _ _).2 h1).2, rfl⟩
  cases s with
  | nil =>
    simp only [decimal?, reduceCtorEq, false_iff]
    rintro ⟨t, n, h, h1 | h1 | h1⟩
    · exact (digits_head h).1 h1.1.symm
    · simp at h1
    · simp at h1
  | cons c cs =>
    simp only [decimal?]
    split
    · rename_i hc
      subst hc
      rw [sgn]
      constructor
      · rintro ⟨n, h, rfl⟩; exact ⟨cs, n, h, Or.inr (Or.inr ⟨rfl, rfl⟩)⟩
      · rintro ⟨t, n, h, h1 | h1 | h1⟩
        · exact absurd rfl ((digits_head h).2 45#16 (by rw [← h1.1]; simp)).2
        · exact absurd h1.1 (by simp)
        · obtain ⟨h1, rfl⟩ := h1
          simp only [List.cons.injEq, true_and] at h1
          exact ⟨n, h1 ▸ h, rfl⟩
    · rename_i hc
      split
      · rename_i hc'
        subst hc'
        rw [sgn]
        constructor
        · rintro ⟨n, h, rfl⟩; exact ⟨cs, n, h, Or.inr (Or.inl ⟨rfl, rfl⟩)⟩
        · rintro ⟨t, n, h, h1 | h1 | h1⟩
          · exact absurd rfl ((digits_head h).2 43#16 (by rw [← h1.1]; simp)).1
          · obtain ⟨h1, rfl⟩ := h1
            simp only [List.cons.injEq, true_and] at h1
            exact ⟨n, h1 ▸ h, rfl⟩
          · exact absurd h1.1 (by simp)
      · rename_i hc'
        simp only [Option.map_eq_some_iff]
        constructor
        · rintro ⟨n, h, rfl⟩
          exact ⟨c :: cs, n, (digits?_iff _ _).1 ⟨by simp, h⟩, Or.inl ⟨rfl, rfl⟩⟩
        · rintro ⟨t, n, h, h1 | h1 | h1⟩
          · obtain ⟨rfl, rfl⟩ := h1
            exact ⟨n, ((digits?_iff _ _).2 h).2, rfl⟩
          · simp only [List.cons.injEq] at h1; exact absurd h1.1.1 hc'
          · simp only [List.cons.injEq] at h1; exact absurd h1.1.1 hc

theorem parse_iff {w : Nat} (hw : 1 ≤ w) (s : JString) :
    (∀ v : BitVec w, parseIntegral w s = .ok v ↔ ConvertSpec.Denotes s v.toInt) ∧
    ((∀ v : BitVec w, ¬ ConvertSpec.Denotes s v.toInt) → parseIntegral w s = .error .numberFormat) := by
  have key : ∀ v : BitVec w, parseIntegral w s = .ok v ↔ decimal? s = some v.toInt := by
    intro v
    unfold parseIntegral
    cases decimal? s with
    | none => simp
    | some x =>
      simp only [Option.some.injEq]
      have h1 := BitVec.le_toInt (x := v)
      have h2 := BitVec.toInt_lt (x := v)
      split
      · rename_i h
        simp only [Except.ok.injEq]
        constructor
        · rintro rfl
          rw [BitVec.toInt_ofInt]
          have e : (2 : Int) ^ w = 2 * 2 ^ (w - 1) := by
            conv_lhs => rw [show w = (w - 1) + 1 by omega]
            rw [Int.pow_succ, Int.mul_comm]
          have e2 : ((2 ^ w : Nat) : Int) = 2 ^ w := by push_cast; rfl
          exact (Int.bmod_eq_of_le (by omega) (by omega)).symm
        · rintro rfl; exact BitVec.ofInt_toInt ..
      · rename_i h
        simp only [reduceCtorEq, false_iff]
        rintro rfl
        exact h ⟨by simpa using h1, by simpa using h2⟩
  refine ⟨fun v => by rw [key, decimal?_iff], fun h => ?_⟩
  cases hp : parseIntegral w s with
  | error e =>
    unfold parseIntegral at hp
    split at hp
    · simpa using hp.symm
    · split at hp
      · simp at hp
      · simpa using hp.symm
  | ok v => exact absurd ((decimal?_iff _ _).1 ((key v).1 hp)) (h v)

theorem toIntegral_fin (u w : Nat) (x : Int) :
    toIntegral u w (.fin x) = ConvertSpec.clamp w (x.tdiv (2 ^ u)) := by
  have : (0 : Int) < 2 ^ (w - 1) := Int.pow_pos (by omega)
  unfold toIntegral ConvertSpec.clamp
  simp only
  split
  · omega
  · split <;> omega

end Verif.Convert

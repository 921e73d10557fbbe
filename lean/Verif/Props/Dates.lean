import Verif.Model.Dates
/-! # Property C22: dates and times as integers -/
namespace Verif
open Dates

theorem monthLength_le (y m : Int) : monthLength y m ≤ 31 := by
  unfold monthLength; repeat' split
  all_goals omega

theorem fromLocalDate_eq {d : LDate} (hv : d.Valid) (hy : -214748 ≤ d.year ∧ d.year ≤ 214748) :
    fromLocalDate d = d.year * 10000 + d.month * 100 + d.day := by
  obtain ⟨_, hm, hd⟩ := hv
  have := monthLength_le d.year d.month
  unfold fromLocalDate toYYYMMDD
  rw [i32_of_range (x := d.year * 10000) (by omega), i32_of_range (x := d.month * 100) (by omega),
    i32_of_range (x := d.year * 10000 + d.month * 100) (by omega), i32_of_range (by omega)]

/-- C22 for dates with years 0 to 214748, the range of the integer form (outside it fails for *every* date, see
`C22_exactly`): the round trip returns the date. -/
theorem C22_date (d : LDate) (hv : d.Valid) (hy : 0 ≤ d.year ∧ d.year ≤ 214748) :
    toLocalDate (fromLocalDate d) = .ok d := by
  have e := fromLocalDate_eq hv (by omega)
  have hv' := hv
  obtain ⟨_, hm, hd⟩ := hv
  have := monthLength_le d.year d.month
  have h0 : 0 ≤ fromLocalDate d := by omega
  unfold toLocalDate dateOf
  have e1 : (fromLocalDate d).tdiv 10000 = d.year := by
    rw [Int.tdiv_eq_ediv_of_nonneg h0, e]; omega
  have e2 : ((fromLocalDate d).tdiv 100).tmod 100 = d.month := by
    rw [Int.tdiv_eq_ediv_of_nonneg h0, Int.tmod_eq_emod_of_nonneg (by omega), e]; omega
  have e3 : (fromLocalDate d).tmod 100 = d.day := by
    rw [Int.tmod_eq_emod_of_nonneg h0, e]; omega
  rw [e1, e2, e3, if_pos hv']

example : (LDate.mk 2024 2 29).Valid ∧ fromLocalDate ⟨2024, 2, 29⟩ = 20240229 := by decide

/-- C22, outside the range: every date before year 0 (down to -214748, beyond which the int overflows): the
day comes out negative and `LocalDate.of` throws. -/
theorem C22_negative_year_rejected (d : LDate) (hv : d.Valid)
    (hy : -214748 ≤ d.year ∧ d.year < 0) :
    toLocalDate (fromLocalDate d) = .error .dateTime := by
  have e := fromLocalDate_eq hv (by omega)
  obtain ⟨_, hm, hd⟩ := hv
  have := monthLength_le d.year d.month
  unfold toLocalDate dateOf
  rw [if_neg]
  intro hv2
  have h3 := hv2.2.2.1
  simp only at h3
  have : (fromLocalDate d).tmod 100 ≤ 0 := by
    have h := Int.tmod_neg (-(fromLocalDate d)) 100
    have hn : 0 ≤ (-(fromLocalDate d)).tmod 100 := Int.tmod_nonneg _ (by omega)
    have hneg := Int.neg_tmod (fromLocalDate d) 100
    omega
  omega

/-- C22, outside the range: every date after year 214748: the integer form overflows and never gives the
date back. -/
theorem C22_large_year_lost (d : LDate) (hy : 214748 < d.year) :
    toLocalDate (fromLocalDate d) ≠ .ok d := by
  intro h
  unfold toLocalDate dateOf at h
  split at h
  · simp only [Except.ok.injEq] at h
    have hyear : (fromLocalDate d).tdiv 10000 = d.year := by rw [← h]; simp [h]
    have hr : fromLocalDate d < 2147483648 := (i32_range _).2
    have : (fromLocalDate d).tdiv 10000 ≤ 214748 := by
      by_cases h0 : 0 ≤ fromLocalDate d
      · rw [Int.tdiv_eq_ediv_of_nonneg h0]; omega
      · have h1 := Int.neg_tdiv (a := fromLocalDate d) (b := 10000)
        have h2 : 0 ≤ (-(fromLocalDate d)).tdiv 10000 := Int.tdiv_nonneg (by omega) (by omega)
        omega
    omega
  · simp at h

example : (LDate.mk (-1) 12 31).Valid ∧ (LDate.mk 214749 1 1).Valid := by decide

/-- C22 for times: for every time of day, the round trip returns it truncated to seconds. -/
theorem C22_time (t : LTime) (hv : t.Valid) :
    toLocalTime (fromLocalTime t) = .ok { t with nano := 0 } := by
  obtain ⟨hh, hm, hs, _⟩ := hv
  have e : fromLocalTime t = t.hour * 10000 + t.minute * 100 + t.second := by
    unfold fromLocalTime toHHMMSS
    rw [i32_of_range (x := t.hour * 10000) (by omega), i32_of_range (x := t.minute * 100) (by omega),
      i32_of_range (x := t.hour * 10000 + t.minute * 100) (by omega), i32_of_range (by omega)]
  have h0 : 0 ≤ fromLocalTime t := by omega
  unfold toLocalTime timeOf
  have e1 : (fromLocalTime t).tdiv 10000 = t.hour := by
    rw [Int.tdiv_eq_ediv_of_nonneg h0, e]; omega
  have e2 : ((fromLocalTime t).tdiv 100).tmod 100 = t.minute := by
    rw [Int.tdiv_eq_ediv_of_nonneg h0, Int.tmod_eq_emod_of_nonneg (by omega), e]; omega
  have e3 : (fromLocalTime t).tmod 100 = t.second := by
    rw [Int.tmod_eq_emod_of_nonneg h0, e]; omega
  rw [e1, e2, e3, if_pos ⟨hh, hm, hs, by simp⟩]

/-- C22: on the dates and times it covers, the integer form preserves order. -/
theorem C22_order (d e : LDate) (hd : d.Valid) (he : e.Valid) (h1 : 0 ≤ d.year ∧ d.year ≤ 214748)
    (h2 : 0 ≤ e.year ∧ e.year ≤ 214748) :
    fromLocalDate d < fromLocalDate e ↔
      d.year < e.year ∨ d.year = e.year ∧ (d.month < e.month ∨ d.month = e.month ∧ d.day < e.day) := by
  have := monthLength_le d.year d.month
  have := monthLength_le e.year e.month
  rw [fromLocalDate_eq hd (by omega), fromLocalDate_eq he (by omega)]
  obtain ⟨_, hm, hdd⟩ := hd
  obtain ⟨_, hm', hdd'⟩ := he
  omega

theorem tdiv_eq (x k : Int) : x.tdiv k = if 0 ≤ x then x / k else -((-x) / k) := by
  split
  · rename_i h; exact Int.tdiv_eq_ediv_of_nonneg h
  · have h1 := Int.neg_tdiv (a := x) (b := k)
    rw [Int.tdiv_eq_ediv_of_nonneg (by omega)] at h1
    omega

theorem tmod_eq (x k : Int) : x.tmod k = if 0 ≤ x then x % k else -((-x) % k) := by
  split
  · rename_i h; exact Int.tmod_eq_emod_of_nonneg h
  · have h1 := Int.neg_tmod x k
    rw [Int.tmod_eq_emod_of_nonneg (by omega)] at h1
    omega

/-- C22, exactly: the round trip returns the date if and only if its year is between 0 and 214748. -/
theorem C22_exactly (d : LDate) (hv : d.Valid) :
    toLocalDate (fromLocalDate d) = .ok d ↔ 0 ≤ d.year ∧ d.year ≤ 214748 := by
  constructor
  · intro h
    by_cases h1 : 214748 < d.year
    · exact absurd h (C22_large_year_lost d h1)
    · refine ⟨?_, by omega⟩
      by_cases h2 : 0 ≤ d.year
      · exact h2
      · exfalso
        by_cases h3 : -214748 ≤ d.year
        · rw [C22_negative_year_rejected d hv (by omega)] at h; simp at h
        · unfold toLocalDate dateOf at h
          split at h
          · simp only [Except.ok.injEq] at h
            have e := congrArg LDate.year h
            simp only at e
            have hr : -2147483648 ≤ fromLocalDate d ∧ fromLocalDate d < 2147483648 := by
              unfold fromLocalDate toYYYMMDD i32; omega
            rw [tdiv_eq] at e
            split at e <;> omega
          · simp at h
  · exact C22_date d hv

/-- C22 for times: order is preserved too (to the second). -/
theorem C22_time_order (t u : LTime) (ht : t.Valid) (hu : u.Valid) :
    fromLocalTime t < fromLocalTime u ↔
      t.hour < u.hour ∨ t.hour = u.hour ∧ (t.minute < u.minute ∨ t.minute = u.minute ∧ t.second < u.second) := by
  obtain ⟨h1, h2, h3, _⟩ := ht
  obtain ⟨g1, g2, g3, _⟩ := hu
  have e : ∀ h m s : Int, 0 ≤ h → h < 24 → 0 ≤ m → m < 60 → 0 ≤ s → s < 60 →
      toHHMMSS h m s = h * 10000 + m * 100 + s := by
    intro h m s _ _ _ _ _ _
    unfold toHHMMSS
    rw [i32_of_range (x := h * 10000) (by omega), i32_of_range (x := m * 100) (by omega),
      i32_of_range (x := h * 10000 + m * 100) (by omega), i32_of_range (by omega)]
  unfold fromLocalTime
  rw [e _ _ _ h1.1 h1.2 h2.1 h2.2 h3.1 h3.2, e _ _ _ g1.1 g1.2 g2.1 g2.2 g3.1 g3.2]
  omega

/-- C89: an int is taken for a date exactly if it is `year*10000 + month*100 + day` of an existing date of a
year from 0 on, and then for that date; every other int, in particular every negative one, is rejected with
DateTimeException. -/
theorem C89_dates_validated (x : Int) (hx : -2147483648 ≤ x ∧ x < 2147483648) :
    (∀ d, toLocalDate x = .ok d ↔ d.Valid ∧ 0 ≤ d.year ∧ x = d.year * 10000 + d.month * 100 + d.day) ∧
    ((∀ d, toLocalDate x ≠ .ok d) → toLocalDate x = .error .dateTime) := by
  constructor
  · intro d
    constructor
    · intro h
      unfold toLocalDate dateOf at h
      split at h
      · rename_i hv
        simp only [Except.ok.injEq] at h
        subst h
        refine ⟨hv, ?_⟩
        simp only
        have h0 : 0 ≤ x := by
          have := hv.2.2.1
          simp only at this
          by_cases hn : 0 ≤ x
          · exact hn
          · rw [tmod_eq, if_neg hn] at this; omega
        rw [Int.tdiv_eq_ediv_of_nonneg h0, Int.tdiv_eq_ediv_of_nonneg h0, Int.tmod_eq_emod_of_nonneg (by omega),
          Int.tmod_eq_emod_of_nonneg h0]
        omega
      · simp at h
    · rintro ⟨hv, h0, h1⟩
      have hm := hv.2.1
      have hd := hv.2.2
      have := monthLength_le d.year d.month
      have hy : d.year ≤ 214748 := by omega
      have := C22_date d hv ⟨h0, hy⟩
      rw [fromLocalDate_eq hv (by omega), ← h1] at this
      exact this
  · intro h
    unfold toLocalDate dateOf at *
    split
    · rename_i hv; rw [if_pos hv] at h; exact absurd rfl (h _)
    · rfl

/-- C89: the same for times of day. -/
theorem C89_times_validated (x : Int) :
    (∀ t, toLocalTime x = .ok t ↔ t.Valid ∧ t.nano = 0 ∧ x = t.hour * 10000 + t.minute * 100 + t.second) ∧
    ((∀ t, toLocalTime x ≠ .ok t) → toLocalTime x = .error .dateTime) := by
  constructor
  · intro t
    constructor
    · intro h
      unfold toLocalTime timeOf at h
      split at h
      · rename_i hv
        simp only [Except.ok.injEq] at h
        subst h
        refine ⟨hv, rfl, ?_⟩
        obtain ⟨⟨h1, h2⟩, ⟨h3, h4⟩, ⟨h5, h6⟩, _⟩ := hv
        simp only at h1 h2 h3 h4 h5 h6 ⊢
        by_cases h0 : 0 ≤ x
        · rw [Int.tdiv_eq_ediv_of_nonneg h0, Int.tdiv_eq_ediv_of_nonneg h0, Int.tmod_eq_emod_of_nonneg (by omega),
            Int.tmod_eq_emod_of_nonneg h0]
          omega
        · -- a negative number with all parts nonnegative
          rw [tdiv_eq, if_neg h0] at h1
          rw [tmod_eq x, if_neg h0] at h5
          rw [tdiv_eq x, if_neg h0, tmod_eq] at h3
          exfalso
          split at h3 <;> omega
      · simp at h
    · rintro ⟨hv, h0, h1⟩
      have := C22_time t hv
      have e : fromLocalTime t = x := by
        obtain ⟨hh, hm, hs, _⟩ := hv
        unfold fromLocalTime toHHMMSS i32; omega
      rw [e] at this
      rw [this]
      obtain ⟨a, b, c, n⟩ := t
      simp only at h0
      subst h0; rfl
  · intro h
    unfold toLocalTime timeOf at *
    split
    · rename_i hv; rw [if_pos hv] at h; exact absurd rfl (h _)
    · rfl

/-- C89: the integer form of a `java.sql.Date` is that of its `LocalDate`. -/
theorem C89_sql_date (d : LDate) (hv : d.Valid) : fromSqlDate (sqlDateOf d) = fromLocalDate d := by
  obtain ⟨hy, hm, hd⟩ := hv
  have := monthLength_le d.year d.month
  unfold fromSqlDate sqlDateOf fromLocalDate
  simp only
  rw [i32_of_range (x := d.year - 1900 + 1900) (by omega), i32_of_range (x := d.month - 1 + 1) (by omega),
    Int.sub_add_cancel, Int.sub_add_cancel]

/-- 29 February exists in 2024 but not in 2023; the 60th minute never. -/
example : toLocalDate 20240229 = .ok ⟨2024, 2, 29⟩ ∧ toLocalDate 20230229 = .error .dateTime ∧
    toLocalDate (-20240229) = .error .dateTime ∧ toLocalTime 235959 = .ok ⟨23, 59, 59, 0⟩ ∧
    toLocalTime 236000 = .error .dateTime ∧ fromSqlDate ⟨124, 1, 29⟩ = 20240229 :=
  ⟨rfl, rfl, rfl, rfl, rfl, rfl⟩

example : (LTime.mk 23 59 58 999).Valid ∧ fromLocalTime ⟨23, 59, 58, 999⟩ = 235958 := by decide
/-- C89: the dates that exist are those of the Gregorian calendar: the twelve months with their lengths, February with 29
days in the years divisible by 4 except those divisible by 100 but not by 400. -/
theorem C89_calendar (d : LDate) :
    d.Valid ↔ (-999999999 ≤ d.year ∧ d.year ≤ 999999999) ∧ 1 ≤ d.day ∧ ∃ n, 1 ≤ d.month ∧
      [31, if 4 ∣ d.year ∧ (100 ∣ d.year → 400 ∣ d.year) then 29 else 28, 31, 30, 31, 30, 31, 31, 30, 31, 30,
        31][(d.month - 1).toNat]? = some n ∧ d.day ≤ n := by
  have key : ∀ m : Int, 1 ≤ m → m ≤ 12 → m = 1 ∨ m = 2 ∨ m = 3 ∨ m = 4 ∨ m = 5 ∨ m = 6 ∨ m = 7 ∨ m = 8 ∨ m = 9 ∨
      m = 10 ∨ m = 11 ∨ m = 12 := by omega
  have hleap : (leap d.year = true) ↔ (4 ∣ d.year ∧ (100 ∣ d.year → 400 ∣ d.year)) := by
    unfold leap
    rw [decide_eq_true_eq]
    omega
  unfold LDate.Valid
  constructor
  · rintro ⟨h1, h2, h3⟩
    refine ⟨h1, h3.1, monthLength d.year d.month, h2.1, ?_, h3.2⟩
    unfold monthLength
    simp only [hleap]
    rcases key _ h2.1 h2.2 with h | h | h | h | h | h | h | h | h | h | h | h <;> rw [h] <;> rfl
  · rintro ⟨h1, h3, n, h2, hn, h4⟩
    have h5 : d.month ≤ 12 := by
      have := (List.getElem?_eq_some_iff.1 hn).1
      simp only [List.length_cons, List.length_nil] at this
      omega
    refine ⟨h1, ⟨h2, h5⟩, h3, ?_⟩
    refine Int.le_trans h4 (Int.le_of_eq ?_)
    unfold monthLength
    simp only [hleap]
    rcases key _ h2 h5 with h | h | h | h | h | h | h | h | h | h | h | h <;> rw [h] at hn ⊢ <;>
      exact (Option.some.inj hn).symm

example : (LDate.mk 2000 2 29).Valid ∧ ¬ (LDate.mk 1900 2 29).Valid := by decide

end Verif

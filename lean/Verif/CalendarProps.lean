/-
C45: Timegm counts the days of the Gregorian calendar.
-/
import Verif.Calendar

namespace Verif.Calendar

/-! ### Specification: the Gregorian calendar -/

/-- A date: year, month 1..12, day of the month. -/
structure Date where
  year : Int
  month : Int
  day : Int
deriving DecidableEq, Repr

/-- Every fourth year is a leap year, except for full centuries not divisible by 400. -/
def Leap (y : Int) : Prop := y % 4 = 0 ∧ (y % 100 ≠ 0 ∨ y % 400 = 0)

instance (y : Int) : Decidable (Leap y) := by unfold Leap; infer_instance

/-- The number of days of a month. -/
def monthDays (y m : Int) : Int :=
  if m = 2 then (if Leap y then 29 else 28)
  else if m = 4 ∨ m = 6 ∨ m = 9 ∨ m = 11 then 30
  else 31

/-- The date exists. -/
def Date.Valid (d : Date) : Prop := 1 ≤ d.month ∧ d.month ≤ 12 ∧ 1 ≤ d.day ∧ d.day ≤ monthDays d.year d.month

instance (d : Date) : Decidable d.Valid := by unfold Date.Valid; infer_instance

/-- The next day. -/
def Date.next (d : Date) : Date :=
  if d.day < monthDays d.year d.month then ⟨d.year, d.month, d.day + 1⟩
  else if d.month < 12 then ⟨d.year, d.month + 1, 1⟩
  else ⟨d.year + 1, 1, 1⟩

/-- The `n`-th day after 1 January 1970. -/
def civil : Nat → Date
  | 0 => ⟨1970, 1, 1⟩
  | n + 1 => (civil n).next

/-- The structure which stands for a date and a time. -/
def Date.tm (d : Date) (hour min sec : Int) : Tm := ⟨d.year - 1900, d.month - 1, d.day, hour, min, sec⟩

/-! ### Proofs -/

theorem isLeap_iff (y : Int) (h : 0 ≤ y) : isLeap y = true ↔ Leap y := by
  unfold isLeap Leap
  rw [Int.tmod_eq_emod_of_nonneg h, Int.tmod_eq_emod_of_nonneg h, Int.tmod_eq_emod_of_nonneg h]
  by_cases h1 : y % 400 = 0
  · rw [if_pos h1]; simp; omega
  · rw [if_neg h1]
    by_cases h2 : y % 100 = 0
    · rw [if_pos h2]; simp; omega
    · rw [if_neg h2]
      by_cases h3 : y % 4 = 0
      · rw [if_pos h3]; simp; omega
      · rw [if_neg h3]; simp; omega

theorem daysFrom0_eq (y : Int) (h : 1 ≤ y) :
    daysFrom0 y = 365 * (y - 1) + (y - 1) / 400 - (y - 1) / 100 + (y - 1) / 4 := by
  unfold daysFrom0
  dsimp only
  rw [Int.tdiv_eq_ediv_of_nonneg (by omega), Int.tdiv_eq_ediv_of_nonneg (by omega), Int.tdiv_eq_ediv_of_nonneg (by omega)]

theorem year_length (y : Int) (h : 1 ≤ y) : daysFrom1970 (y + 1) - daysFrom1970 y = if Leap y then 366 else 365 := by
  unfold daysFrom1970
  rw [daysFrom0_eq y h, daysFrom0_eq (y + 1) (by omega)]
  by_cases hl : Leap y
  · rw [if_pos hl]; unfold Leap at hl; omega
  · rw [if_neg hl]; unfold Leap at hl; omega

theorem timegm_date (d : Date) (hv : d.Valid) (h m s : Int) :
    timegm (d.tm h m s) = 86400 * (daysFrom1970 d.year + daysFrom1Jan d.year d.month d.day) + 3600 * h + 60 * m + s := by
  obtain ⟨h1, h2, _, _⟩ := hv
  have e1 : yearOf (d.tm h m s) = d.year := by
    unfold yearOf Date.tm; dsimp only
    rw [if_neg (by omega), if_neg (by omega)]; omega
  have e2 : monthOf (d.tm h m s) = d.month - 1 := by
    unfold monthOf Date.tm; dsimp only
    rw [if_neg (by omega), if_neg (by omega)]
  unfold timegm
  rw [e1, e2]
  simp only [Date.tm, Int.sub_add_cancel]

theorem next_valid (d : Date) (hv : d.Valid) : d.next.Valid := by
  obtain ⟨h1, h2, h3, h4⟩ := hv
  unfold Date.next
  have hpos : ∀ y m, 1 ≤ monthDays y m := by
    intro y m
    unfold monthDays
    by_cases a : m = 2
    · rw [if_pos a]; by_cases b : Leap y
      · rw [if_pos b]; omega
      · rw [if_neg b]; omega
    · rw [if_neg a]; by_cases b : m = 4 ∨ m = 6 ∨ m = 9 ∨ m = 11
      · rw [if_pos b]; omega
      · rw [if_neg b]; omega
  by_cases a : d.day < monthDays d.year d.month
  · rw [if_pos a]; exact ⟨h1, h2, by dsimp only; omega, by dsimp only; omega⟩
  · rw [if_neg a]
    by_cases b : d.month < 12
    · rw [if_pos b]
      exact ⟨by dsimp only; omega, by dsimp only; omega, by dsimp only; omega, hpos _ _⟩
    · rw [if_neg b]
      exact ⟨by dsimp only; omega, by dsimp only; omega, by dsimp only; omega, hpos _ _⟩

theorem month_step (y m : Int) (hy : 0 ≤ y) (h1 : 1 ≤ m) (h2 : m < 12) (e : Int) :
    daysFrom1Jan y (m + 1) 1 = daysFrom1Jan y m e + (monthDays y m - e) + 1 := by
  have hl := isLeap_iff y hy
  unfold daysFrom1Jan monthDays
  have hm : m = 1 ∨ m = 2 ∨ m = 3 ∨ m = 4 ∨ m = 5 ∨ m = 6 ∨ m = 7 ∨ m = 8 ∨ m = 9 ∨ m = 10 ∨ m = 11 := by omega
  by_cases hx : Leap y
  · rw [hl.2 hx]
    rcases hm with rfl | rfl | rfl | rfl | rfl | rfl | rfl | rfl | rfl | rfl | rfl <;> simp [daysTable, hx] <;> omega
  · have hf : isLeap y = false := by
      cases hc : isLeap y with
      | false => rfl
      | true => exact absurd (hl.1 hc) hx
    rw [hf]
    rcases hm with rfl | rfl | rfl | rfl | rfl | rfl | rfl | rfl | rfl | rfl | rfl <;> simp [daysTable, hx] <;> omega

/-- C45: the day after a date is one day later; with `timegm_epoch` and induction this gives all dates. For years before 1 see
`year_0_wrong`. -/
theorem timegm_next_partial (d : Date) (hv : d.Valid) (hy : 1 ≤ d.year) (h m s : Int) :
    timegm (d.next.tm h m s) = timegm (d.tm h m s) + 86400 := by
  rw [timegm_date _ (next_valid d hv), timegm_date _ hv]
  obtain ⟨h1, h2, h3, h4⟩ := hv
  unfold Date.next
  by_cases a : d.day < monthDays d.year d.month
  · rw [if_pos a]; dsimp only; unfold daysFrom1Jan; omega
  · rw [if_neg a]
    by_cases b : d.month < 12
    · rw [if_pos b]; dsimp only
      rw [month_step d.year d.month (by omega) h1 b d.day]; omega
    · rw [if_neg b]; dsimp only
      have hm : d.month = 12 := by omega
      have hyl := year_length d.year hy
      have hd : d.day = 31 := by rw [hm] at a h4; simp [monthDays] at a h4; omega
      have hl := isLeap_iff d.year (by omega)
      have e1 : daysFrom1Jan (d.year + 1) 1 1 = 0 := by
        unfold daysFrom1Jan; cases isLeap (d.year + 1) <;> rfl
      have e2 : daysFrom1Jan d.year d.month d.day = if Leap d.year then 365 else 364 := by
        rw [hm, hd]
        unfold daysFrom1Jan
        by_cases hx : Leap d.year
        · rw [hl.2 hx, if_pos hx]; rfl
        · have hf : isLeap d.year = false := by
            cases hc : isLeap d.year with
            | false => rfl
            | true => exact absurd (hl.1 hc) hx
          rw [hf, if_neg hx]; rfl
      rw [e1, e2]
      by_cases hx : Leap d.year
      · rw [if_pos hx] at hyl ⊢; omega
      · rw [if_neg hx] at hyl ⊢; omega

example : (⟨2024, 2, 28⟩ : Date).Valid ∧ (⟨2024, 2, 28⟩ : Date).next = ⟨2024, 2, 29⟩ ∧ (⟨2100, 2, 28⟩ : Date).next = ⟨2100, 3, 1⟩ := by
  decide +kernel

theorem timegm_epoch (h m s : Int) : timegm ((⟨1970, 1, 1⟩ : Date).tm h m s) = 3600 * h + 60 * m + s := by
  rw [timegm_date _ (by decide)]
  have : daysFrom1970 1970 + daysFrom1Jan 1970 1 1 = 0 := by decide
  dsimp only
  omega

theorem civil_valid (n : Nat) : (civil n).Valid ∧ 1970 ≤ (civil n).year := by
  induction n with
  | zero => decide
  | succ n ih =>
    refine ⟨next_valid _ ih.1, ?_⟩
    unfold civil Date.next
    by_cases a : (civil n).day < monthDays (civil n).year (civil n).month
    · rw [if_pos a]; exact ih.2
    · rw [if_neg a]
      by_cases b : (civil n).month < 12
      · rw [if_pos b]; exact ih.2
      · rw [if_neg b]; have := ih.2; dsimp only; omega

/-- C45: the time of the `n`-th day after 1 January 1970, as counted by the calendar. -/
theorem timegm_civil (n : Nat) (h m s : Int) : timegm ((civil n).tm h m s) = 86400 * n + 3600 * h + 60 * m + s := by
  induction n with
  | zero => rw [civil, timegm_epoch]; omega
  | succ n ih =>
    have hv := civil_valid n
    rw [civil, timegm_next_partial _ hv.1 (by omega), ih]
    omega

example : civil 60 = ⟨1970, 3, 2⟩ := by decide +kernel

theorem monthOf_range (t : Tm) : 0 ≤ monthOf t ∧ monthOf t ≤ 11 := by
  unfold monthOf
  by_cases a : t.mon > 11
  · rw [if_pos a, Int.tmod_eq_emod_of_nonneg (by omega)]; omega
  · rw [if_neg a]
    by_cases b : t.mon < 0
    · rw [if_pos b, Int.tdiv_eq_ediv_of_nonneg (by omega)]; omega
    · rw [if_neg b]; omega

/-- Months outside of the year are counted in the years before or after it. -/
theorem timegm_month_overflow (y k : Int) (m : Int) (hm : 0 ≤ m ∧ m ≤ 11) (d h mi s : Int) :
    timegm ⟨y, m + 12 * k, d, h, mi, s⟩ = timegm ⟨y + k, m, d, h, mi, s⟩ := by
  have e1 : yearOf ⟨y, m + 12 * k, d, h, mi, s⟩ = yearOf ⟨y + k, m, d, h, mi, s⟩ := by
    unfold yearOf; dsimp only
    rw [if_neg (by omega : ¬ m > 11), if_neg (by omega : ¬ m < 0)]
    by_cases a : m + 12 * k > 11
    · rw [if_pos a, Int.tdiv_eq_ediv_of_nonneg (by omega)]; omega
    · rw [if_neg a]
      by_cases b : m + 12 * k < 0
      · rw [if_pos b, Int.tdiv_eq_ediv_of_nonneg (by omega)]; omega
      · rw [if_neg b]; omega
  have e2 : monthOf ⟨y, m + 12 * k, d, h, mi, s⟩ = monthOf ⟨y + k, m, d, h, mi, s⟩ := by
    unfold monthOf; dsimp only
    rw [if_neg (by omega : ¬ m > 11), if_neg (by omega : ¬ m < 0)]
    by_cases a : m + 12 * k > 11
    · rw [if_pos a, Int.tmod_eq_emod_of_nonneg (by omega)]; omega
    · rw [if_neg a]
      by_cases b : m + 12 * k < 0
      · rw [if_pos b, Int.tdiv_eq_ediv_of_nonneg (by omega)]; omega
      · rw [if_neg b]; omega
  unfold timegm
  rw [e1, e2]

example : timegm ⟨124, -1, 15, 0, 0, 0⟩ = timegm ⟨123, 11, 15, 0, 0, 0⟩ := by decide +kernel

/-- The year 0 (1 BC) is a leap year but gets only 365 days, because C division rounds towards zero. -/
theorem year_0_wrong : (⟨0, 12, 31⟩ : Date).Valid ∧ (⟨0, 12, 31⟩ : Date).next = ⟨1, 1, 1⟩ ∧
    timegm ((⟨1, 1, 1⟩ : Date).tm 0 0 0) = timegm ((⟨0, 12, 31⟩ : Date).tm 0 0 0) := by decide +kernel

end Verif.Calendar

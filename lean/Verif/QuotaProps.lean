/-
C29 (speed meter) and C30 (quota).
-/
import Verif.Quota
import Verif.VolumeProps

namespace Verif.Quota
open Verif.Volume Verif.Calendar

/-! ### Dates and day numbers -/

/-- Days since 1 January 1970 of a date. -/
def dayNumber (d : Date) : Int := timegm (d.tm 0 0 0) / 86400

theorem dayNumber_eq (d : Date) (hv : d.Valid) : dayNumber d = daysFrom1970 d.year + daysFrom1Jan d.year d.month d.day := by
  unfold dayNumber
  rw [timegm_date d hv]
  omega

theorem timegm_dayNumber (d : Date) (hv : d.Valid) (h m s : Int) :
    timegm (d.tm h m s) = 86400 * dayNumber d + 3600 * h + 60 * m + s := by
  rw [timegm_date d hv, dayNumber_eq d hv]

/-- The part of a year before a month. -/
theorem jan_range (d : Date) (hv : d.Valid) (hy : 1 ≤ d.year) :
    0 ≤ daysFrom1Jan d.year d.month d.day ∧ daysFrom1Jan d.year d.month d.day < daysFrom1970 (d.year + 1) - daysFrom1970 d.year := by
  rw [year_length d.year hy]
  obtain ⟨h1, h2, h3, h4⟩ := hv
  have hl := isLeap_iff d.year (by omega)
  generalize d.year = y at *
  generalize d.month = m at *
  generalize d.day = e at *
  have hm : m = 1 ∨ m = 2 ∨ m = 3 ∨ m = 4 ∨ m = 5 ∨ m = 6 ∨ m = 7 ∨ m = 8 ∨ m = 9 ∨ m = 10 ∨ m = 11 ∨ m = 12 := by omega
  unfold daysFrom1Jan
  by_cases hx : Leap y
  · rw [hl.2 hx, if_pos hx]
    rcases hm with rfl | rfl | rfl | rfl | rfl | rfl | rfl | rfl | rfl | rfl | rfl | rfl <;>
      simp [daysTable, hx, monthDays] at h4 ⊢ <;> omega
  · have hf : isLeap y = false := by
      cases hc : isLeap y with
      | false => rfl
      | true => exact absurd (hl.1 hc) hx
    rw [hf, if_neg hx]
    rcases hm with rfl | rfl | rfl | rfl | rfl | rfl | rfl | rfl | rfl | rfl | rfl | rfl <;>
      simp [daysTable, hx, monthDays] at h4 ⊢ <;> omega

theorem daysFrom1970_mono (y : Int) (hy : 1 ≤ y) (k : Nat) : daysFrom1970 y ≤ daysFrom1970 (y + k) := by
  induction k with
  | zero => simp
  | succ k ih =>
    have := year_length (y + k) (by omega)
    have e : y + ((k + 1 : Nat) : Int) = y + k + 1 := by omega
    rw [e]
    by_cases hx : Leap (y + k)
    · rw [if_pos hx] at this; omega
    · rw [if_neg hx] at this; omega

theorem dayNumber_inj (a b : Date) (ha : a.Valid) (hb : b.Valid) (hya : 1 ≤ a.year) (hyb : 1 ≤ b.year)
    (h : dayNumber a = dayNumber b) : a = b := by
  rw [dayNumber_eq a ha, dayNumber_eq b hb] at h
  have ra := jan_range a ha hya
  have rb := jan_range b hb hyb
  have hy : a.year = b.year := by
    rcases Int.lt_trichotomy a.year b.year with hlt | heq | hgt
    · have := daysFrom1970_mono (a.year + 1) (by omega) (b.year - (a.year + 1)).toNat
      rw [show a.year + 1 + ((b.year - (a.year + 1)).toNat : Int) = b.year by omega] at this
      omega
    · exact heq
    · have := daysFrom1970_mono (b.year + 1) (by omega) (a.year - (b.year + 1)).toNat
      rw [show b.year + 1 + ((a.year - (b.year + 1)).toNat : Int) = a.year by omega] at this
      omega
  obtain ⟨y, m, d⟩ := a
  obtain ⟨y', m', d'⟩ := b
  simp only at hy
  subst hy
  obtain ⟨h1, h2, h3, h4⟩ := ha
  obtain ⟨g1, g2, g3, g4⟩ := hb
  simp only at h1 h2 h3 h4 g1 g2 g3 g4 h hya
  -- within a year
  have mono : ∀ k : Nat, ∀ m : Int, 1 ≤ m → m + k + 1 ≤ 12 → daysFrom1Jan y (m + k + 1) 1 ≥ daysFrom1Jan y (m + 1) 1 := by
    intro k
    induction k with
    | zero => intro m _ _; simp
    | succ k ih =>
      intro m hm hk
      have := ih m hm (by omega)
      have st := month_step y (m + k + 1) (by omega) (by omega) (by omega) 1
      have hpos : 1 ≤ monthDays y (m + k + 1) := by
        unfold monthDays
        by_cases a : m + k + 1 = 2
        · rw [if_pos a]; by_cases b : Leap y
          · rw [if_pos b]; omega
          · rw [if_neg b]; omega
        · rw [if_neg a]; by_cases b : m + k + 1 = 4 ∨ m + k + 1 = 6 ∨ m + k + 1 = 9 ∨ m + k + 1 = 11
          · rw [if_pos b]; omega
          · rw [if_neg b]; omega
      rw [show m + ((k + 1 : Nat) : Int) + 1 = m + k + 1 + 1 by omega]
      omega
  have lin : ∀ m e, daysFrom1Jan y m e = daysFrom1Jan y m 1 + e - 1 := by
    intro m e; unfold daysFrom1Jan; omega
  have hm : m = m' := by
    rcases Int.lt_trichotomy m m' with hlt | heq | hgt
    · have := mono (m' - m - 1).toNat m h1 (by omega)
      rw [show m + ((m' - m - 1).toNat : Int) + 1 = m' by omega] at this
      have st := month_step y m (by omega) h1 (by omega) d
      have := lin m' d'
      omega
    · exact heq
    · have := mono (m - m' - 1).toNat m' g1 (by omega)
      rw [show m' + ((m - m' - 1).toNat : Int) + 1 = m by omega] at this
      have st := month_step y m' (by omega) g1 (by omega) d'
      have := lin m d
      omega
  subst hm
  have l1 := lin m d
  have l2 := lin m d'
  have : d = d' := by omega
  rw [this]

theorem dayNumber_civil (n : Nat) : dayNumber (civil n) = n := by
  unfold dayNumber
  rw [timegm_civil]
  omega

theorem civil_dayNumber (d : Date) (hv : d.Valid) (hy : 1970 ≤ d.year) : 0 ≤ dayNumber d ∧ civil (dayNumber d).toNat = d := by
  have h0 : 0 ≤ dayNumber d := by
    rw [dayNumber_eq d hv]
    have := daysFrom1970_mono 1970 (by omega) (d.year - 1970).toNat
    rw [show (1970 : Int) + ((d.year - 1970).toNat : Int) = d.year by omega] at this
    have e : daysFrom1970 1970 = 0 := by decide
    have := jan_range d hv (by omega)
    omega
  refine ⟨h0, ?_⟩
  have hc := civil_valid (dayNumber d).toNat
  apply dayNumber_inj _ _ hc.1 hv (by omega) (by omega)
  rw [dayNumber_civil]
  omega

/-! ### Specification -/

/-- The date of a local time. -/
def dateOf (loc : Int) : Date := civil (loc / 86400).toNat

/-- The month before. -/
def prevMonth (d : Date) : Int × Int := if d.month = 1 then (d.year - 1, 12) else (d.year, d.month - 1)

/-- The first day of the billing month which contains `d`, if billing months start on day `s` of the month: that day in this month,
or in the month before; if the month before has no such day, the first day after it. -/
def billingStart (s : Int) (d : Date) : Date :=
  if s ≤ d.day then ⟨d.year, d.month, s⟩
  else if s ≤ monthDays (prevMonth d).1 (prevMonth d).2 then ⟨(prevMonth d).1, (prevMonth d).2, s⟩
  else ⟨d.year, d.month, 1⟩

/-! ### The billing month -/

theorem monthDays_range (y m : Int) : 28 ≤ monthDays y m ∧ monthDays y m ≤ 31 := by
  unfold monthDays
  by_cases a : m = 2
  · rw [if_pos a]; by_cases b : Leap y
    · rw [if_pos b]; omega
    · rw [if_neg b]; omega
  · rw [if_neg a]; by_cases b : m = 4 ∨ m = 6 ∨ m = 9 ∨ m = 11
    · rw [if_pos b]; omega
    · rw [if_neg b]; omega

/-- Day number of any day of a month, also of days which do not exist. -/
def anyDay (y m e : Int) : Int := daysFrom1970 y + daysFrom1Jan y m e

theorem timegm_any (y m e H M S : Int) (h1 : 1 ≤ m) (h2 : m ≤ 12) :
    timegm ⟨y - 1900, m - 1, e, H, M, S⟩ = 86400 * anyDay y m e + 3600 * H + 60 * M + S := by
  have e1 : yearOf ⟨y - 1900, m - 1, e, H, M, S⟩ = y := by
    unfold yearOf; dsimp only
    rw [if_neg (by omega), if_neg (by omega)]; omega
  have e2 : monthOf ⟨y - 1900, m - 1, e, H, M, S⟩ = m - 1 := by
    unfold monthOf; dsimp only
    rw [if_neg (by omega), if_neg (by omega)]
  unfold timegm anyDay
  rw [e1, e2]
  simp only [Int.sub_add_cancel]

theorem anyDay_lin (y m e f : Int) : anyDay y m e - anyDay y m f = e - f := by
  unfold anyDay daysFrom1Jan; omega

theorem prevMonth_range (d : Date) (hv : d.Valid) : 1 ≤ (prevMonth d).2 ∧ (prevMonth d).2 ≤ 12 := by
  obtain ⟨h1, h2, _, _⟩ := hv
  unfold prevMonth
  by_cases h : d.month = 1
  · rw [if_pos h]; dsimp only; omega
  · rw [if_neg h]; dsimp only; omega

theorem prevMonth_step (d : Date) (hv : d.Valid) (hy : 2 ≤ d.year) :
    anyDay d.year d.month 1 = anyDay (prevMonth d).1 (prevMonth d).2 (monthDays (prevMonth d).1 (prevMonth d).2) + 1 := by
  have hr := prevMonth_range d hv
  have hd := monthDays_range (prevMonth d).1 (prevMonth d).2
  have hpv : (⟨(prevMonth d).1, (prevMonth d).2, monthDays (prevMonth d).1 (prevMonth d).2⟩ : Date).Valid :=
    ⟨hr.1, hr.2, by dsimp only; omega, by dsimp only; omega⟩
  have hnext : (⟨(prevMonth d).1, (prevMonth d).2, monthDays (prevMonth d).1 (prevMonth d).2⟩ : Date).next =
      ⟨d.year, d.month, 1⟩ := by
    obtain ⟨h1, h2, _, _⟩ := hv
    unfold Date.next
    dsimp only
    rw [if_neg (by omega)]
    unfold prevMonth
    by_cases h : d.month = 1
    · rw [if_pos h]; dsimp only; rw [if_neg (by omega), h]; congr 1; omega
    · rw [if_neg h]; dsimp only; rw [if_pos (by omega)]; congr 1; omega
  have hy' : 1 ≤ (prevMonth d).1 := by
    unfold prevMonth
    by_cases h : d.month = 1
    · rw [if_pos h]; dsimp only; omega
    · rw [if_neg h]; dsimp only; omega
  have := timegm_next_partial _ hpv hy' 0 0 0
  rw [hnext] at this
  obtain ⟨h1, h2, _, _⟩ := hv
  unfold Date.tm at this
  dsimp only at this
  rw [timegm_any _ _ _ _ _ _ h1 h2, timegm_any _ _ _ _ _ _ hr.1 hr.2] at this
  omega

theorem prev_timegm (d : Date) (hv : d.Valid) (e H M S : Int) :
    timegm ⟨d.year - 1900, d.month - 1 - 1, e, H, M, S⟩ = 86400 * anyDay (prevMonth d).1 (prevMonth d).2 e + 3600 * H + 60 * M + S := by
  have hr := prevMonth_range d hv
  rw [← timegm_any _ _ _ _ _ _ hr.1 hr.2]
  obtain ⟨h1, h2, _, _⟩ := hv
  unfold prevMonth
  by_cases h : d.month = 1
  · rw [if_pos h]; dsimp only
    have := timegm_month_overflow (d.year - 1900) (-1) 11 (by omega) e H M S
    rw [h]
    rw [show d.year - 1 - 1900 = d.year - 1900 + -1 by omega]
    exact this
  · rw [if_neg h]

theorem gmtime_mday (d : Date) (hv : d.Valid) (hy : 1970 ≤ d.year) (r : Int) (h0 : 0 ≤ r) (h1 : r < 86400) :
    (gmtime (86400 * anyDay d.year d.month d.day + r)).mday = d.day := by
  have hc := civil_dayNumber d hv hy
  rw [dayNumber_eq d hv] at hc
  unfold gmtime
  rw [show (86400 * anyDay d.year d.month d.day + r) / 86400 = daysFrom1970 d.year + daysFrom1Jan d.year d.month d.day by
    unfold anyDay; omega, hc.2]
  rfl

theorem div_days (x : Int) (h : 0 ≤ x) : ((x.tdiv 60).tdiv 60).tdiv 24 = x / 86400 := by
  rw [Int.tdiv_eq_ediv_of_nonneg h, Int.tdiv_eq_ediv_of_nonneg (a := x / 60) (by omega),
    Int.tdiv_eq_ediv_of_nonneg (a := x / 60 / 60) (by omega)]
  omega

/-- The number of days computed is that from the start of the billing month to today. -/
theorem calcMonthSlots_spec (s loc : Int) (h0 : 32 * 86400 ≤ loc) (h1 : loc < 2 ^ 31) (hs : 1 ≤ s) (hs2 : s ≤ 31) :
    calcMonthSlots s loc = loc / 86400 - dayNumber (billingStart s (dateOf loc)) + 1 ∧
      dayNumber (billingStart s (dateOf loc)) ≤ loc / 86400 := by
  have hcv := civil_valid (loc / 86400).toNat
  have hdn : dayNumber (dateOf loc) = loc / 86400 := by
    unfold dateOf; rw [dayNumber_civil]; omega
  have hdn' := hdn
  obtain ⟨hv, hy⟩ := hcv
  change (dateOf loc).Valid at hv
  change 1970 ≤ (dateOf loc).year at hy
  rw [dayNumber_eq _ hv] at hdn'
  change anyDay _ _ _ = _ at hdn'
  unfold calcMonthSlots billingStart
  have hg : gmtime loc = ⟨(dateOf loc).year - 1900, (dateOf loc).month - 1, (dateOf loc).day, loc % 86400 / 3600,
      loc % 3600 / 60, loc % 60⟩ := rfl
  rw [hg]
  dsimp only
  generalize hd : dateOf loc = d at *
  have hv' := hv
  obtain ⟨m1, m2, d1, d2⟩ := hv'
  by_cases hsd : s ≤ d.day
  · rw [if_neg (by omega), if_pos hsd]
    have hvs : (⟨d.year, d.month, s⟩ : Date).Valid := ⟨m1, m2, hs, by dsimp only; omega⟩
    rw [dayNumber_eq _ hvs]
    change d.day - s + 1 = _ - anyDay d.year d.month s + 1 ∧ anyDay d.year d.month s ≤ _
    have := anyDay_lin d.year d.month d.day s
    omega
  · rw [if_pos (by omega), if_neg hsd]
    have hr := prevMonth_range d hv
    have hst := prevMonth_step d hv (by omega)
    have hmd := monthDays_range (prevMonth d).1 (prevMonth d).2
    have hmd2 := monthDays_range d.year d.month
    have hlin1 := anyDay_lin d.year d.month d.day 1
    have hlin2 := anyDay_lin (prevMonth d).1 (prevMonth d).2 (monthDays (prevMonth d).1 (prevMonth d).2) s
    have htod : 3600 * (loc % 86400 / 3600) + 60 * (loc % 3600 / 60) + loc % 60 = loc % 86400 := by omega
    rw [prev_timegm d hv]
    by_cases hsm : s ≤ monthDays (prevMonth d).1 (prevMonth d).2
    · rw [if_pos hsm]
      have hvs : (⟨(prevMonth d).1, (prevMonth d).2, s⟩ : Date).Valid := ⟨hr.1, hr.2, hs, hsm⟩
      have hyp : 1970 ≤ (prevMonth d).1 := by
        unfold prevMonth
        by_cases h : d.month = 1
        · rw [if_pos h]; dsimp only
          have : ¬ d.year = 1970 := by
            intro e
            rw [e, h] at hdn'
            have : anyDay 1970 1 d.day = d.day - 1 := by
              have := anyDay_lin 1970 1 d.day 1
              have e0 : anyDay 1970 1 1 = 0 := by decide
              omega
            rw [e, h] at d2
            have := monthDays_range 1970 1
            omega
          omega
        · rw [if_neg h]; exact hy
      have hgm := gmtime_mday _ hvs hyp (loc % 86400) (by omega) (by omega)
      dsimp only at hgm
      rw [show 86400 * anyDay (prevMonth d).1 (prevMonth d).2 s + 3600 * (loc % 86400 / 3600) + 60 * (loc % 3600 / 60) + loc % 60 =
        86400 * anyDay (prevMonth d).1 (prevMonth d).2 s + loc % 86400 by omega]
      rw [hgm, if_neg (by simp), dayNumber_eq _ hvs]
      change _ = _ - anyDay (prevMonth d).1 (prevMonth d).2 s + 1 ∧ anyDay (prevMonth d).1 (prevMonth d).2 s ≤ _
      rw [toI32_of_nonneg (by omega) (by
        have := civil_dayNumber _ hvs hyp
        rw [dayNumber_eq _ hvs] at this
        have := this.1
        change 0 ≤ anyDay (prevMonth d).1 (prevMonth d).2 s at this
        omega)]
      rw [div_days _ (by omega)]
      omega
    · rw [if_neg hsm]
      have hvo : (⟨d.year, d.month, s - monthDays (prevMonth d).1 (prevMonth d).2⟩ : Date).Valid :=
        ⟨m1, m2, by dsimp only; omega, by dsimp only; omega⟩
      have hany : anyDay (prevMonth d).1 (prevMonth d).2 s =
          anyDay d.year d.month (s - monthDays (prevMonth d).1 (prevMonth d).2) := by
        have := anyDay_lin d.year d.month (s - monthDays (prevMonth d).1 (prevMonth d).2) 1
        omega
      have hgm := gmtime_mday _ hvo hy (loc % 86400) (by omega) (by omega)
      dsimp only at hgm
      rw [show 86400 * anyDay (prevMonth d).1 (prevMonth d).2 s + 3600 * (loc % 86400 / 3600) + 60 * (loc % 3600 / 60) + loc % 60 =
        86400 * anyDay (prevMonth d).1 (prevMonth d).2 s + loc % 86400 by omega]
      rw [hany, hgm, if_pos (by omega)]
      rw [show d.month - 1 - 1 + 1 = d.month - 1 by omega, timegm_any _ _ _ _ _ _ m1 m2]
      have hv1 : (⟨d.year, d.month, 1⟩ : Date).Valid := ⟨m1, m2, by dsimp only; omega, by dsimp only; omega⟩
      rw [dayNumber_eq _ hv1]
      change _ = _ - anyDay d.year d.month 1 + 1 ∧ anyDay d.year d.month 1 ≤ _
      have hp1 := (civil_dayNumber _ hv1 hy).1
      rw [dayNumber_eq _ hv1] at hp1
      change 0 ≤ anyDay d.year d.month 1 at hp1
      rw [toI32_of_nonneg (by omega) (by omega)]
      rw [div_days _ (by omega)]
      omega

/-! ### C30 -/

theorem getD_out (l : List Int) (i : Nat) (h : l.length ≤ i) : l.getD i 0 = 0 := by
  rw [List.getD_eq_getElem?_getD, List.getElem?_eq_none h]; rfl

theorem bytesOf_add (h : List Report) (p q r : Report → Bool) (e : ∀ x, r x = (p x || q x)) (hd : ∀ x, ¬ (p x = true ∧ q x = true)) :
    bytesOf h r = bytesOf h p + bytesOf h q := by
  induction h with
  | nil => rfl
  | cons x h ih =>
    unfold bytesOf at ih ⊢
    have := hd x
    have := e x
    cases hp : p x <;> cases hq : q x <;> simp_all [List.filter_cons]
    all_goals omega

/-- The loop over the slots sums the days up to the day of the first slot. -/
theorem sumDown_spec (h : List Report) (v : Volume) (hv : ∀ d, dayVolume v d = daySum h d) (today : Int) (k : Nat) :
    sumDown v.days (today - v.firstDay) k =
      bytesOf h (fun r => decide (today - k < r.loc / 86400 ∧ r.loc / 86400 ≤ today)) := by
  induction k generalizing today with
  | zero =>
    symm
    unfold sumDown
    apply bytesOf_false
    intro r _
    rw [decide_eq_false_iff_not]
    omega
  | succ k ih =>
    unfold sumDown
    rw [show today - v.firstDay - 1 = today - 1 - v.firstDay by omega, ih (today - 1)]
    have hday := hv today
    have hval : (if 0 ≤ today - v.firstDay ∧ today - v.firstDay < (v.days.length : Int) then v.days.getD (today - v.firstDay).toNat 0 else 0) =
        daySum h today := by
      rw [← hday]
      unfold dayVolume
      by_cases h1 : today < v.firstDay
      · rw [if_neg (by omega), if_pos h1]
      · rw [if_neg h1]
        by_cases h2 : today - v.firstDay < (v.days.length : Int)
        · rw [if_pos (by omega)]
        · rw [if_neg (by omega), getD_out _ _ (by omega)]
    rw [hval]
    unfold daySum
    symm
    apply bytesOf_add
    · intro x
      rw [← Bool.decide_or, decide_eq_decide]
      omega
    · intro x
      simp only [decide_eq_true_eq]
      omega

/-- The bytes reported in the billing month up to today. -/
def monthSum (h : List Report) (start loc : Int) : Int :=
  bytesOf h (fun r => decide (dayNumber (billingStart start (dateOf loc)) ≤ r.loc / 86400 ∧ r.loc / 86400 ≤ loc / 86400))

/-- C30, the volumes: of the current day, and of the billing month. The clock must not be before the first recorded day
(see `clock_back_ends_program`), and all reports from days which are recorded (see `quota_ends_in_2033`). -/
theorem quota_usage_partial (h : List Report) (hr : InRange h) (hrec : ∀ r ∈ h, Recorded r.loc)
    (hfirst : ∀ r ∈ h, ∀ f, h.head? = some f → f.loc / 86400 ≤ r.loc / 86400)
    (start loc : Int) (h0 : 32 * 86400 ≤ loc) (h1 : loc < 2 ^ 31) (hs : 1 ≤ start) (hs2 : start ≤ 31)
    (hnow : ∀ f, h.head? = some f → f.loc / 86400 ≤ loc / 86400) :
    ∃ v, run .init h = some v ∧
      calcQuotaUsage v start loc = some (monthSum h start loc, daySum h (loc / 86400)) := by
  obtain ⟨v, e, _, _, _, a4, a5, a6, _⟩ := days_invariant h hr hrec hfirst
  refine ⟨v, e, ?_⟩
  obtain ⟨c1, c2⟩ := calcMonthSlots_spec start loc h0 h1 hs hs2
  have hfd : v.firstDay ≤ loc / 86400 ∧ 0 ≤ v.firstDay ∧ ∀ r ∈ h, v.firstDay ≤ r.loc / 86400 := by
    cases h with
    | nil => rw [(a5 rfl).2]; refine ⟨by omega, by omega, ?_⟩; simp
    | cons f h =>
      rw [a4 f rfl]
      have := hr f (by simp)
      exact ⟨hnow f rfl, by omega, fun r hx => hfirst r hx f rfl⟩
  unfold calcQuotaUsage
  dsimp only
  rw [Int.tdiv_eq_ediv_of_nonneg (by omega), toI32_of_nonneg (by omega) (by omega)]
  have hday : (if loc / 86400 - v.firstDay < (v.days.length : Int) then
      (if loc / 86400 - v.firstDay < 0 then none else some (v.days.getD (loc / 86400 - v.firstDay).toNat 0)) else some 0) =
      some (daySum h (loc / 86400)) := by
    rw [← a6 (loc / 86400)]
    unfold dayVolume
    rw [if_neg (by omega : ¬ loc / 86400 < v.firstDay)]
    by_cases hx : loc / 86400 - v.firstDay < (v.days.length : Int)
    · rw [if_pos hx, if_neg (by omega)]
    · rw [if_neg hx, getD_out _ _ (by omega)]
  rw [hday]
  simp only [Option.bind_some, Option.some.injEq, Prod.mk.injEq, and_true]
  rw [sumDown_spec h v a6]
  unfold monthSum
  apply bytesOf_congr
  intro r hx
  have := hfd.2.2 r hx
  rw [decide_eq_decide, c1]
  omega

/-- C30: "quota reached" is set exactly if one of the limits is set and reached. -/
theorem quota_reached_partial (h : List Report) (hr : InRange h) (hrec : ∀ r ∈ h, Recorded r.loc)
    (hfirst : ∀ r ∈ h, ∀ f, h.head? = some f → f.loc / 86400 ≤ r.loc / 86400)
    (o : Options) (loc : Int) (h0 : 32 * 86400 ≤ loc) (h1 : loc < 2 ^ 31) (hs : 1 ≤ o.start) (hs2 : o.start ≤ 31)
    (hnow : ∀ f, h.head? = some f → f.loc / 86400 ≤ loc / 86400) (ho : o.daily ≠ 0 ∨ o.monthly ≠ 0) (old : Bool) :
    ∃ v b, run .init h = some v ∧ checkQuota o v loc old = some b ∧
      (b = true ↔
        (o.monthly > 0 ∧ monthSum h o.start loc ≥ o.monthly * 1048576) ∨
        (o.daily > 0 ∧ daySum h (loc / 86400) ≥ o.daily * 1048576)) := by
  obtain ⟨v, e, hu⟩ := quota_usage_partial h hr hrec hfirst o.start loc h0 h1 hs hs2 hnow
  refine ⟨v, (decide (o.monthly > 0) && decide (monthSum h o.start loc ≥ o.monthly * 1024 * 1024)) ||
        (decide (o.daily > 0) && decide (daySum h (loc / 86400) ≥ o.daily * 1024 * 1024)), e, ?_, ?_⟩
  · unfold checkQuota
    rw [if_neg (by omega), hu]
    rfl
  · simp only [Bool.or_eq_true, Bool.and_eq_true, decide_eq_true_eq]
    omega

theorem dateOf_of (loc : Int) (d : Date) (hv : d.Valid) (hy : 1970 ≤ d.year) (h : loc / 86400 = dayNumber d) : dateOf loc = d := by
  unfold dateOf
  rw [h]
  exact (civil_dayNumber d hv hy).2

/-- 600 MB on 20 January 2020, 500 MB on 10 February; on 11 February, with a billing month from the 15th, they
are both in the month: a limit of 1000 MB is reached. With a billing month from the 11th it is not reached. -/
example : ∃ v b c, run .init [⟨1579521600, 0, 629145600⟩, ⟨1581336000, 0, 524288000⟩] = some v ∧
    checkQuota ⟨1000, 0, 15⟩ v 1581422400 false = some b ∧ b = true ∧
    checkQuota ⟨1000, 0, 11⟩ v 1581422400 false = some c ∧ c = false := by
  have hr : InRange [⟨1579521600, 0, 629145600⟩, ⟨1581336000, 0, 524288000⟩] := by unfold InRange; decide
  have hrec : ∀ r ∈ [(⟨1579521600, 0, 629145600⟩ : Report), ⟨1581336000, 0, 524288000⟩], Recorded r.loc := by decide
  have hf : ∀ r ∈ [(⟨1579521600, 0, 629145600⟩ : Report), ⟨1581336000, 0, 524288000⟩], ∀ f,
      [(⟨1579521600, 0, 629145600⟩ : Report), ⟨1581336000, 0, 524288000⟩].head? = some f → f.loc / 86400 ≤ r.loc / 86400 := by
    intro r hr f e
    simp only [List.head?_cons, Option.some.injEq] at e
    subst e
    revert r
    decide
  have hn : ∀ f, [(⟨1579521600, 0, 629145600⟩ : Report), ⟨1581336000, 0, 524288000⟩].head? = some f →
      f.loc / 86400 ≤ 1581422400 / 86400 := by
    intro f e
    simp only [List.head?_cons, Option.some.injEq] at e
    subst e
    decide
  have hd : dateOf 1581422400 = ⟨2020, 2, 11⟩ := dateOf_of _ _ (by decide) (by decide) (by decide +kernel)
  obtain ⟨v, b, e, hb, hiff⟩ := quota_reached_partial _ hr hrec hf ⟨1000, 0, 15⟩ 1581422400 (by decide) (by decide) (by decide) (by decide)
    hn (by decide) false
  obtain ⟨v', c, e', hc, hiff'⟩ := quota_reached_partial _ hr hrec hf ⟨1000, 0, 11⟩ 1581422400 (by decide) (by decide) (by decide) (by decide)
    hn (by decide) false
  have : v = v' := by rw [e] at e'; exact Option.some.inj e'
  subst this
  refine ⟨v, b, c, e, hb, ?_, hc, ?_⟩
  · rw [hiff]
    left
    unfold monthSum
    rw [hd]
    decide +kernel
  · cases c with
    | false => rfl
    | true =>
      have := hiff'.1 rfl
      unfold monthSum at this
      rw [hd] at this
      revert this
      decide +kernel

/-- Violation of C30: if the clock is before the first recorded day, the check for the quota ends the program (an uncaught
exception of `vector::at`). -/
theorem clock_back_ends_program (o : Options) (v : Volume) (loc : Int) (old : Bool) (h0 : 0 ≤ loc) (h1 : loc < 2 ^ 31)
    (ho : o.daily ≠ 0 ∨ o.monthly ≠ 0) (hb : loc / 86400 < v.firstDay) : checkQuota o v loc old = none := by
  unfold checkQuota calcQuotaUsage
  rw [if_neg (by omega)]
  dsimp only
  rw [Int.tdiv_eq_ediv_of_nonneg h0, toI32_of_nonneg (by omega) (by omega), if_pos (by omega), if_pos (by omega)]
  rfl

/-- Such a state is reached by one report. -/
example : (run .init [⟨1579521600, 0, 100⟩]).bind (fun v => checkQuota ⟨1000, 0, 1⟩ v 1579435200 false) = none := by
  decide +kernel

/-- Violation of C30: if all reports are from 15 January 2033 or later, no quota is ever reached, whatever was downloaded. -/
theorem quota_ends_in_2033 (h : List Report) (hr : InRange h) (hd : ∀ r ∈ h, 23025 ≤ r.loc / 86400) (o : Options) (loc : Int)
    (h0 : 0 ≤ loc) (h1 : loc < 2 ^ 31) (ho : o.daily ≠ 0 ∨ o.monthly ≠ 0) (old : Bool) :
    ∃ v, run .init h = some v ∧ checkQuota o v loc old = some false := by
  have key : ∃ v, run .init h = some v ∧ v.secs.length = 60 ∧ v.mins.length = 60 ∧ v.hours.length = 24 ∧ v.days = [] ∧ v.firstDay = 0 := by
    induction h using snoc_induction with
    | nil => exact ⟨.init, rfl, rfl, rfl, rfl, rfl, rfl⟩
    | snoc h r ih =>
      obtain ⟨v, e, b1, b2, b3, b4, b5⟩ := ih (fun x hx => hr x (by simp [hx])) (fun x hx => hd x (by simp [hx]))
      obtain ⟨r0, r1⟩ := hr r (by simp)
      have hx := hd r (by simp)
      obtain ⟨v', e', c1, c2, c3, _, _, _, _, _, _, _, _, _, hn⟩ := addData_spec v r.now r.off r.bytes r0 r1 b1 b2 b3
      obtain ⟨x, y⟩ := hn (by intro c; have := c.2; unfold Report.loc at hx; omega)
      refine ⟨v', ?_, c1, c2, c3, by rw [y, b4], by rw [x, b5]⟩
      rw [run_snoc, e]; exact e'
  obtain ⟨v, e, _, _, _, b4, b5⟩ := key
  refine ⟨v, e, ?_⟩
  have hz : ∀ k s, sumDown [] s k = 0 := by
    intro k
    induction k with
    | zero => intro s; rfl
    | succ k ih => intro s; simp [sumDown, ih]
  unfold checkQuota calcQuotaUsage
  rw [if_neg (by omega), b4, b5]
  dsimp only
  rw [Int.tdiv_eq_ediv_of_nonneg h0, toI32_of_nonneg (by omega) (by omega), if_neg (by simp; omega)]
  simp only [Option.bind_some, hz, Option.some.injEq]
  by_cases hm : o.monthly > 0 <;> by_cases hd : o.daily > 0 <;> simp [hm, hd] <;> omega

end Verif.Quota

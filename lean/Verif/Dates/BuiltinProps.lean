import Verif.Dates.Builtins
import Verif.Dates.Props

/-!
# C30 - C35: stored datetimes and the date worksheet functions
-/

namespace Verif.Dates

/-! ## C30: datetimes held by the value store -/

/-- **C30**, partial: a date and time put into the value store reads back unchanged if the date is within
1899-12-31 .. 9999-12-31. (Missing: dates before 1899-12-31, for which it is false, see below.) -/
theorem stored_datetime_partial {d : Date} (hd : d.Valid) (h1 : (Date.mk 1899 12 31).le d)
    (h2 : d.le ⟨9999, 12, 31⟩) {t : Nat} (ht : t < 86400) :
    serialToDatetime ⟨dateToSerial .excel1900 d * 86400 + t, 86400, by decide⟩ = some (d, t) := by
  have := datetime_roundtrip_exact .excel1900 hd h1 h2 ht
  unfold datetimeToSerial at this
  unfold serialToDatetime
  rw [this]

example : serialToDatetime ⟨dateToSerial .excel1900 ⟨1999, 12, 31⟩ * 86400 + 3600, 86400, by decide⟩ =
    some (⟨1999, 12, 31⟩, 3600) :=
  stored_datetime_partial (by decide) (by decide) (by decide) (by decide)

/-- **C30** is false in general: 1899-12-29 18:00 is stored as -1.25 and reads back as 1899-12-30 18:00. -/
theorem stored_datetime_fails :
    serialToDatetime ⟨dateToSerial .excel1900 ⟨1899, 12, 29⟩ * 86400 + 64800, 86400, by decide⟩ =
      some (⟨1899, 12, 30⟩, 64800) := by decide

/-! ## C31: DATE and TIME -/

theorem wrap32_id {n : Int} (h1 : -2147483648 ≤ n) (h2 : n < 2147483648) : wrap32 n = n := by
  unfold wrap32; omega

/-- A month number within a year's range. -/
theorem fromYmd_first {y : Int} {m : Nat} (h1 : 1 ≤ m) (h2 : m ≤ 12) (hy : chronoMinYear ≤ y ∧ y ≤ chronoMaxYear) :
    fromYmd y m 1 = some ⟨y, m, 1⟩ := by
  unfold fromYmd
  rw [if_pos]
  refine ⟨⟨h1, h2, Nat.le_refl 1, ?_⟩, hy⟩
  have := daysInMonth_pos y h1 h2
  simp only
  omega

/-- The first day of the month that lies `k` months after January of year 0. -/
def monthStart (k : Int) : Date := ⟨k / 12, (k % 12 + 1).toNat, 1⟩

theorem monthStart_valid (k : Int) : (monthStart k).Valid := by
  have h1 : 1 ≤ (k % 12 + 1).toNat := by omega
  have h2 : (k % 12 + 1).toNat ≤ 12 := by omega
  refine ⟨h1, h2, Nat.le_refl 1, ?_⟩
  have := daysInMonth_pos (k / 12) h1 h2
  simp only [monthStart]
  omega

/-- `monthStart` is what its name says: consecutive, and equal to year/month where the month is 1..12. -/
theorem monthStart_eq {y : Int} {m : Nat} (h1 : 1 ≤ m) (h2 : m ≤ 12) :
    monthStart (12 * y + (m - 1)) = ⟨y, m, 1⟩ := by
  unfold monthStart
  have a : (12 * y + ((m : Int) - 1)) / 12 = y := by omega
  have b : ((12 * y + ((m : Int) - 1)) % 12 + 1).toNat = m := by omega
  rw [a, b]

/-- **C31** (1): for years 1900 to 20000 and months and days that do not move the date before year 1 or past
year 30000, `DATE(y, m, d)` is the serial of the day `d - 1` days after the first of the month `m - 1` months
after January of `y`: overflowing months and days carry. Years 0 to 1899 mean 1900 to 3799. -/
theorem date_fn_carries (sys : System) {y m d : Int} (hy : 1900 ≤ y ∧ y ≤ 20000)
    (hm : 12 ≤ 12 * y + m - 1 ∧ 12 * y + m - 1 ≤ 360000)
    (hd : -10000000 ≤ d ∧ d ≤ 10000000) :
    dateFn sys y m d = some (dateToSerial sys (addDays (monthStart (12 * y + (m - 1))) (d - 1))) ∧
    (y ≤ 3799 → dateFn sys (y - 1900) m d = dateFn sys y m d) := by
  have hv := monthStart_valid (12 * y + (m - 1))
  have key : createDateNormalized y m d = some (addDays (monthStart (12 * y + (m - 1))) (d - 1)) := by
    have e1 : wrap32 (y * 12) = y * 12 := wrap32_id (by omega) (by omega)
    have e2 : wrap32 (y * 12 + m) = y * 12 + m := wrap32_id (by omega) (by omega)
    have e3 : wrap32 (y * 12 + m - 1) = 12 * y + (m - 1) := by
      rw [wrap32_id (by omega) (by omega)]; omega
    have e4 : wrap32 (d - 1) = d - 1 := wrap32_id (by omega) (by omega)
    unfold createDateNormalized
    simp only [e1, e2, e3, e4]
    rw [Int.tdiv_eq_ediv_of_nonneg (by omega), Int.tmod_eq_emod_of_nonneg (by omega), if_neg (by omega)]
    rw [fromYmd_first (by omega) (by omega) (by simp only [chronoMinYear, chronoMaxYear]; omega)]
    simp only
    show checkedAddDays (monthStart (12 * y + (m - 1))) (d - 1) = _
    have hb := dayNumber_bounds hv
    have hlo : yearStart 1 ≤ yearStart (monthStart (12 * y + (m - 1))).year :=
      yearStart_mono (by simp only [monthStart]; omega)
    have hhi : yearStart ((monthStart (12 * y + (m - 1))).year + 1) ≤ yearStart 30001 :=
      yearStart_mono (by simp only [monthStart]; omega)
    have c1 : yearStart 1 = 0 := by decide
    have c2 : yearStart 30001 = 10957275 := by decide
    have c3 : yearStart chronoMinYear = -95746130 := by decide
    have c4 : yearStart (chronoMaxYear + 1) = 95745399 := by decide
    obtain ⟨r, hr, -, -⟩ := checkedAddDays_some hv (n := d - 1) (by omega) (by omega)
    rw [hr]
    unfold checkedAddDays at hr
    split at hr
    · exact hr.symm
    · cases hr
  constructor
  · unfold dateFn
    rw [if_neg (by omega)]
    simp only [key]
  · intro h
    unfold dateFn
    rw [if_pos (by omega), if_neg (by omega)]
    have : y - 1900 + 1900 = y := by omega
    simp only [this]

/-- **C31** (2): `DATE` of the fields of a date from 1900 on is the serial of that date. -/
theorem date_fn_fields (sys : System) {d : Date} (hd : d.Valid) (hy : 1900 ≤ d.year ∧ d.year ≤ 20000) :
    dateFn sys d.year d.month d.day = some (dateToSerial sys d) := by
  obtain ⟨h1, h2, h3, h4⟩ := hd
  have h5 := daysInMonth_pos d.year h1 h2
  rw [(date_fn_carries sys hy (by omega) (by omega)).1]
  congr 2
  have hv := monthStart_valid (12 * d.year + ((d.month : Int) - 1))
  have hs := addDays_spec hv ((d.day : Int) - 1)
  apply dayNumber_inj hs.1 ⟨h1, h2, h3, h4⟩
  rw [hs.2, monthStart_eq h1 h2]
  simp only [Date.dayNumber]
  omega

example : dateFn .excel1900 2024 2 29 = some 45351 := by
  have h := date_fn_fields .excel1900 (d := ⟨2024, 2, 29⟩) (by decide) (by decide)
  rw [show dateToSerial .excel1900 ⟨2024, 2, 29⟩ = 45351 from by decide] at h
  exact h
/-- 2023-15-0 is 2024-02-29. -/
example : dateFn .excel1900 2023 15 0 = some 45351 := by
  rw [(date_fn_carries _ (by decide) (by decide) (by decide)).1]; decide

/-- `DATE` does not refuse dates outside the calendar of the date functions: 10000-01-01 gets a serial that
every other date function refuses, 1900-01-01 minus two days gets a negative one. -/
theorem date_fn_unchecked :
    dateFn .excel1900 10000 1 1 = some 2958466 ∧ tryDate .excel1900 (whole 2958466) = none ∧
    dateFn .excel1900 1900 1 (-1) = some (-1) ∧ tryDate .excel1900 (whole (-1)) = none := by
  refine ⟨by decide, by decide, by decide, by decide⟩

/-- In a release build a large year wraps around in 32 bits: `DATE(357913942, 1, 1)` is not refused, it is
the date 0000-09-01. -/
theorem date_fn_wraps : createDateNormalized 357913942 1 1 = some ⟨0, 9, 1⟩ := by decide

/-- **C31** (3), partial: `TIME(h, m, s)` is the total number of seconds modulo one day, for negative
components too, as long as the products fit 32 bits. -/
theorem time_fn_partial {h m s : Int} (hh : -500000 ≤ h ∧ h ≤ 500000) (hm : -1000000 ≤ m ∧ m ≤ 1000000)
    (hs : -100000000 ≤ s ∧ s ≤ 100000000) : timeFn h m s = some ((h * 3600 + m * 60 + s) % 86400) := by
  have e1 : wrap32 (h * 3600) = h * 3600 := wrap32_id (by omega) (by omega)
  have e2 : wrap32 (m * 60) = m * 60 := wrap32_id (by omega) (by omega)
  have e3 : wrap32 (h * 3600 + m * 60) = h * 3600 + m * 60 := wrap32_id (by omega) (by omega)
  have e4 : wrap32 (h * 3600 + m * 60 + s) = h * 3600 + m * 60 + s := wrap32_id (by omega) (by omega)
  unfold timeFn
  simp only [e1, e2, e3, e4]
  generalize hT : h * 3600 + m * 60 + s = T
  by_cases ht : T < 0
  · simp only [if_pos ht]
    have f1 : wrap32 (-T) = -T := wrap32_id (by omega) (by omega)
    have f2 : wrap32 (-T - 1) = -T - 1 := wrap32_id (by omega) (by omega)
    rw [f1, f2, Int.tdiv_eq_ediv_of_nonneg (by omega)]
    have f3 : wrap32 (((-T - 1) / 86400 + 1) * 86400) = ((-T - 1) / 86400 + 1) * 86400 :=
      wrap32_id (by omega) (by omega)
    rw [f3]
    have f4 : wrap32 (T + ((-T - 1) / 86400 + 1) * 86400) = T + ((-T - 1) / 86400 + 1) * 86400 :=
      wrap32_id (by omega) (by omega)
    rw [f4, Int.tmod_eq_emod_of_nonneg (by omega), if_neg (by omega)]
    congr 1
    omega
  · simp only [if_neg ht]
    rw [Int.tmod_eq_emod_of_nonneg (by omega), if_neg (by omega)]

example : timeFn 0 0 (-1) = some 86399 := time_fn_partial (by decide) (by decide) (by decide)

/-- Beyond that the product wraps: `TIME(1193047, 0, 0)` should be 07:00:00 but is 00:05:04. -/
theorem time_fn_wraps : timeFn 1193047 0 0 = some 1904 ∧ (1193047 * 3600 + 0 * 60 + 0) % 86400 = (25200 : Int) := by
  decide

/-! ## C32: EDATE and EOMONTH -/

theorem fromYmd_isSome {y : Int} {m d : Nat} :
    (fromYmd y m d).isSome = true ↔ (Date.mk y m d).Valid ∧ (Date.mk y m d).InChrono := by
  unfold fromYmd; split <;> simp_all

theorem lastDay_eq {y : Int} {m : Nat} (h1 : 1 ≤ m) (h2 : m ≤ 12) (hy : chronoMinYear ≤ y ∧ y ≤ chronoMaxYear) :
    lastDayOfMonth y m = daysInMonth y m := by
  have hb := daysInMonth_pos y h1 h2
  have hc : ∀ d : Nat, 1 ≤ d → ((fromYmd y m d).isSome = true ↔ d ≤ daysInMonth y m) := by
    intro d hd
    rw [fromYmd_isSome]
    constructor
    · rintro ⟨⟨-, -, -, h⟩, -⟩; exact h
    · intro h; exact ⟨⟨h1, h2, hd, h⟩, hy⟩
  unfold lastDayOfMonth
  simp only [hc 31 (by decide), hc 30 (by decide), hc 29 (by decide), hc 28 (by decide)]
  repeat' split
  all_goals omega

/-- Counting months from year 0. -/
def Date.monthIndex (d : Date) : Int := 12 * d.year + d.month - 1

/-- **C32** (1): `EDATE` yields the serial of a valid date exactly `months` months away, on the same day of
the month, or on the last day of that month when the month is shorter. It fails only for an invalid serial or
a year `chrono` cannot hold. -/
theorem edate_spec (sys : System) {s : Serial} {d : Date} (hd : tryDate sys s = some d) (hv : d.Valid)
    (months : Int) (hy : chronoMinYear ≤ (d.monthIndex + months) / 12 ∧
      (d.monthIndex + months) / 12 ≤ chronoMaxYear) :
    ∃ r : Date, edateFn sys s months = some (dateToSerial sys r) ∧ r.Valid ∧
      r.monthIndex = d.monthIndex + months ∧ r.day = min d.day (daysInMonth r.year r.month) := by
  unfold edateFn
  rw [hd]
  simp only
  have et : d.year * 12 + (d.month : Int) + months - 1 = d.monthIndex + months := by
    unfold Date.monthIndex; omega
  have e1 : (targetMonth d months).1 = (d.monthIndex + months) / 12 := by
    unfold targetMonth; simp only [et]
  have e2 : (targetMonth d months).2 = ((d.monthIndex + months) % 12 + 1).toNat := by
    unfold targetMonth; simp only [et]
  rw [e1, e2]
  generalize hY : (d.monthIndex + months) / 12 = Y at *
  generalize hM : ((d.monthIndex + months) % 12 + 1).toNat = M at *
  have m1 : 1 ≤ M := by omega
  have m2 : M ≤ 12 := by omega
  rw [lastDay_eq m1 m2 hy]
  have hb := daysInMonth_pos Y m1 m2
  have hval : (Date.mk Y M (min d.day (daysInMonth Y M))).Valid := by
    obtain ⟨-, -, h3, -⟩ := hv
    exact ⟨m1, m2, by simp only; omega, by simp only; omega⟩
  have hs : fromYmd Y M (min d.day (daysInMonth Y M)) = some ⟨Y, M, min d.day (daysInMonth Y M)⟩ := by
    unfold fromYmd; rw [if_pos ⟨hval, hy⟩]
  rw [hs]
  refine ⟨_, rfl, hval, ?_, rfl⟩
  unfold Date.monthIndex at *
  simp only
  omega

/-- **C32** (2): `EOMONTH` yields the last day of the month `months` months away: the following day is the
first of a month. -/
theorem eomonth_spec (sys : System) {s : Serial} {d : Date} (hd : tryDate sys s = some d)
    (months : Int) (hy : chronoMinYear ≤ (d.monthIndex + months) / 12 ∧
      (d.monthIndex + months) / 12 ≤ chronoMaxYear) :
    ∃ r : Date, eomonthFn sys s months = some (dateToSerial sys r) ∧ r.Valid ∧
      r.monthIndex = d.monthIndex + months ∧ r.next.day = 1 ∧ r.next.monthIndex = d.monthIndex + months + 1 := by
  unfold eomonthFn
  rw [hd]
  simp only
  have et : d.year * 12 + (d.month : Int) + months - 1 = d.monthIndex + months := by
    unfold Date.monthIndex; omega
  have e1 : (targetMonth d months).1 = (d.monthIndex + months) / 12 := by
    unfold targetMonth; simp only [et]
  have e2 : (targetMonth d months).2 = ((d.monthIndex + months) % 12 + 1).toNat := by
    unfold targetMonth; simp only [et]
  rw [e1, e2]
  generalize hY : (d.monthIndex + months) / 12 = Y at *
  generalize hM : ((d.monthIndex + months) % 12 + 1).toNat = M at *
  have m1 : 1 ≤ M := by omega
  have m2 : M ≤ 12 := by omega
  rw [lastDay_eq m1 m2 hy]
  have hb := daysInMonth_pos Y m1 m2
  have hval : (Date.mk Y M (daysInMonth Y M)).Valid := ⟨m1, m2, by simp only; omega, by simp only; omega⟩
  have hs : fromYmd Y M (daysInMonth Y M) = some ⟨Y, M, daysInMonth Y M⟩ := by
    unfold fromYmd; rw [if_pos ⟨hval, hy⟩]
  rw [hs]
  refine ⟨_, rfl, hval, ?_, ?_, ?_⟩
  · unfold Date.monthIndex at *
    simp only
    omega
  · unfold Date.next
    simp only [Nat.lt_irrefl, if_false]
    split <;> rfl
  · unfold Date.next
    simp only [Nat.lt_irrefl, if_false]
    unfold Date.monthIndex at *
    split
    · simp only; omega
    · simp only; omega

/-- 1904-01-31 plus one month is 1904-02-29. -/
example : edateFn .excel1904 (whole 30) 1 = some 59 ∧ dateToSerial .excel1904 ⟨1904, 2, 29⟩ = 59 := by
  decide +kernel

/-- **C32** (3): moving a date whose day is at most 28 by `a` and then by `b` months is moving it by `a + b`,
as long as the intermediate date is within the calendar. -/
theorem edate_add (sys : System) {s : Serial} {d : Date} (hd : tryDate sys s = some d) (hv : d.Valid)
    (h28 : d.day ≤ 28) (a b : Int)
    (ha : ∃ r : Date, edateFn sys s a = some (dateToSerial sys r) ∧ r.Valid ∧ (epoch sys).le r ∧
      r.le ⟨9999, 12, 31⟩)
    (hya : chronoMinYear ≤ (d.monthIndex + a) / 12 ∧ (d.monthIndex + a) / 12 ≤ chronoMaxYear)
    (hyb : chronoMinYear ≤ (d.monthIndex + (a + b)) / 12 ∧ (d.monthIndex + (a + b)) / 12 ≤ chronoMaxYear)
    {x : Int} (hx : edateFn sys s a = some x) :
    edateFn sys (whole x) b = edateFn sys s (a + b) := by
  obtain ⟨r, hr, hrv, hr1, hr2⟩ := ha
  rw [hr] at hx
  cases hx
  obtain ⟨r', hr', hrv', hrm', hrd'⟩ := edate_spec sys hd hv a hya
  have hrr : r = r' := by
    rw [hr] at hr'
    have := Option.some.inj hr'
    rcases Date.lt_trichotomy r r' with h | h | h
    · have := (dateToSerial_strictMono sys hrv hrv').1 h; omega
    · exact h
    · have := (dateToSerial_strictMono sys hrv' hrv).1 h; omega
  subst hrr
  have hback := date_roundtrip sys hrv hr1 hr2
  obtain ⟨u, hu, huv, hum, hud⟩ := edate_spec sys hback hrv b (by rw [hrm', Int.add_assoc]; exact hyb)
  obtain ⟨w, hw, hwv, hwm, hwd⟩ := edate_spec sys hd hv (a + b) hyb
  rw [hu, hw]
  congr 2
  have hmi : u.monthIndex = w.monthIndex := by rw [hum, hwm, hrm', Int.add_assoc]
  have hu1 := huv.1
  have hu2 := huv.2.1
  have hw1 := hwv.1
  have hw2 := hwv.2.1
  have hy : u.year = w.year ∧ u.month = w.month := by
    unfold Date.monthIndex at hmi
    omega
  have hdim1 := daysInMonth_pos r.year hrv.1 hrv.2.1
  have hdim2 := daysInMonth_pos u.year hu1 hu2
  have hdim3 := daysInMonth_pos w.year hw1 hw2
  have hday : u.day = w.day := by omega
  obtain ⟨uy, um, ud⟩ := u
  obtain ⟨wy, wm, wd⟩ := w
  simp only at hy hday
  rw [hy.1, hy.2, hday]

/-- `EDATE` does not refuse results outside the calendar: one month before 1900-01-01 is the serial -30,
which the date functions refuse. -/
theorem edate_unchecked : edateFn .excel1900 (whole 1) (-1) = some (-30) ∧
    tryDate .excel1900 (whole (-30)) = none := by decide

/-! ## C33: WEEKDAY -/

/-- **C33** (1): for every date from 1900-03-01 (1900 system) or 1904-01-01 (1904 system), `WEEKDAY` with
return type 2 numbers Monday to Sunday 1 to 7, where the day of the week advances daily and 2024-01-01 is a
Monday. -/
theorem weekday_calendar (sys : System) {d : Date} (hv : d.Valid)
    (h : (match sys with | .excel1900 => Date.mk 1900 3 1 | .excel1904 => Date.mk 1904 1 1).le d) :
    weekdayFn sys (dateToSerial sys d) 2 = some (1 + (d.dayNumber - (Date.mk 2024 1 1).dayNumber) % 7) := by
  have hm : (Date.mk 2024 1 1).dayNumber = 738886 := by decide
  rw [hm]
  unfold weekdayFn
  cases sys with
  | excel1900 =>
    have h' := (dayNumber_le_iff cutoff_valid hv).2 h
    rw [dn_cutoff] at h'
    rw [dateToSerial_1900 hv, if_pos h', if_neg (by omega)]
    simp only [weekdayIndex]
    rw [if_neg (by decide), if_pos (by decide)]
    simp only
    rw [if_neg (by decide), Int.tmod_eq_emod_of_nonneg (by omega)]
    congr 1
    omega
  | excel1904 =>
    have h' := (dayNumber_le_iff epoch1904_valid hv).2 h
    rw [dn_epoch1904] at h'
    rw [dateToSerial_1904, if_neg (by omega)]
    simp only [weekdayIndex]
    rw [if_neg (by decide), if_pos (by decide)]
    simp only
    rw [if_neg (by decide), Int.tmod_eq_emod_of_nonneg (by omega)]
    congr 1
    omega

example : weekdayFn .excel1904 (dateToSerial .excel1904 ⟨2024, 1, 7⟩) 2 = some 7 := by decide

/-- **C33** (2): each accepted return type is a renumbering: consecutive serials get consecutive numbers,
wrapping after seven, and the result is in 1..7 (0..6 for type 3). -/
theorem weekday_cycle (sys : System) {n rt w : Int} (h : weekdayFn sys n rt = some w) :
    (if rt = 3 then 0 ≤ w ∧ w ≤ 6 else 1 ≤ w ∧ w ≤ 7) ∧
    weekdayFn sys (n + 1) rt = some (if rt = 3 then (w + 1) % 7 else w % 7 + 1) := by
  unfold weekdayFn at *
  by_cases hn : n < 0
  · rw [if_pos hn] at h; cases h
  rw [if_neg hn] at h
  have hn1 : ¬ (n + 1 < 0) := by omega
  rw [if_neg hn1]
  have key : ∀ (startD : Int) (zero : Bool), 0 ≤ startD → startD ≤ 6 → (zero = true ↔ rt = 3) →
      (if zero then some ((weekdayIndex sys n - startD + 7).tmod 7)
        else some ((weekdayIndex sys n - startD + 7).tmod 7 + 1)) = some w →
      (if rt = 3 then 0 ≤ w ∧ w ≤ 6 else 1 ≤ w ∧ w ≤ 7) ∧
      (if zero then some ((weekdayIndex sys (n + 1) - startD + 7).tmod 7)
        else some ((weekdayIndex sys (n + 1) - startD + 7).tmod 7 + 1)) =
        some (if rt = 3 then (w + 1) % 7 else w % 7 + 1) := by
    intro startD zero h0 h6 hz hw
    have b1 : 0 ≤ weekdayIndex sys n ∧ weekdayIndex sys n ≤ 6 ∧
        weekdayIndex sys (n + 1) = (weekdayIndex sys n + 1) % 7 := by
      cases sys <;> simp only [weekdayIndex] <;> omega
    rw [Int.tmod_eq_emod_of_nonneg (by omega)] at hw
    rw [Int.tmod_eq_emod_of_nonneg (by omega)]
    by_cases h3 : rt = 3
    · have hz' := hz.2 h3
      subst hz'
      simp only [if_pos h3, if_true, Option.some.injEq] at hw ⊢
      omega
    · have : zero = false := by
        cases zero
        · rfl
        · exact absurd (hz.1 rfl) h3
      subst this
      simp only [if_neg h3]
      simp only [Bool.false_eq_true, if_false, Option.some.injEq] at hw ⊢
      omega
  by_cases c1 : rt = 1 ∨ rt = 17
  · simp only [if_pos c1] at *; exact key 1 false (by decide) (by decide) (by simp; omega) h
  by_cases c2 : rt = 2 ∨ rt = 11
  · simp only [if_neg c1, if_pos c2] at *; exact key 2 false (by decide) (by decide) (by simp; omega) h
  by_cases c3 : rt = 3
  · simp only [if_neg c1, if_neg c2, if_pos c3] at *
    have := key 2 true (by decide) (by decide) (by simp; omega) (by simpa using h)
    simpa [c3] using this
  by_cases c4 : rt = 12
  · simp only [if_neg c1, if_neg c2, if_neg c3, if_pos c4] at *
    simpa [c3] using key 3 false (by decide) (by decide) (by simp; omega) h
  by_cases c5 : rt = 13
  · simp only [if_neg c1, if_neg c2, if_neg c3, if_neg c4, if_pos c5] at *
    simpa [c3] using key 4 false (by decide) (by decide) (by simp; omega) h
  by_cases c6 : rt = 14
  · simp only [if_neg c1, if_neg c2, if_neg c3, if_neg c4, if_neg c5, if_pos c6] at *
    simpa [c3] using key 5 false (by decide) (by decide) (by simp; omega) h
  by_cases c7 : rt = 15
  · simp only [if_neg c1, if_neg c2, if_neg c3, if_neg c4, if_neg c5, if_neg c6, if_pos c7] at *
    simpa [c3] using key 6 false (by decide) (by decide) (by simp; omega) h
  by_cases c8 : rt = 16
  · simp only [if_neg c1, if_neg c2, if_neg c3, if_neg c4, if_neg c5, if_neg c6, if_neg c7, if_pos c8] at *
    simpa [c3] using key 0 false (by decide) (by decide) (by simp; omega) h
  · simp only [if_neg c1, if_neg c2, if_neg c3, if_neg c4, if_neg c5, if_neg c6, if_neg c7, if_neg c8] at h
    cases h

/-- The day numbered first by each return type, Monday = 0 .. Sunday = 6. -/
def firstDay : Int → Option Int
  | 1 => some 6
  | 2 => some 0
  | 11 => some 0
  | 12 => some 1
  | 13 => some 2
  | 14 => some 3
  | 15 => some 4
  | 16 => some 5
  | 17 => some 6
  | _ => none

/-- **C33** (3): the return types: each numbers its own first day 1; type 3 numbers Monday 0; any other type
is refused, and so is a negative serial. `k` is the number that type 2 (Monday = 1) gives. -/
theorem weekday_types (sys : System) {n : Int} (hn : 0 ≤ n) (rt : Int) :
    ∃ k, weekdayFn sys n 2 = some k ∧
      weekdayFn sys n rt =
        if rt = 3 then some (k - 1) else (firstDay rt).map (fun f => (k - 1 - f) % 7 + 1) := by
  have b1 : 0 ≤ weekdayIndex sys n ∧ weekdayIndex sys n ≤ 6 := by
    cases sys <;> simp only [weekdayIndex] <;> omega
  have hn' : ¬ n < 0 := by omega
  unfold weekdayFn
  simp only [if_neg hn']
  refine ⟨_, rfl, ?_⟩
  have key : ∀ st : Int, 0 ≤ st → st ≤ 6 → (weekdayIndex sys n - st + 7).tmod 7 = (weekdayIndex sys n - st) % 7 := by
    intro st h0 h6
    rw [Int.tmod_eq_emod_of_nonneg (by omega)]
    omega
  have key0 : (weekdayIndex sys n + 7).tmod 7 = weekdayIndex sys n % 7 := by
    have := key 0 (by decide) (by decide)
    simpa using this
  by_cases c : rt = 1 ∨ rt = 2 ∨ rt = 3 ∨ rt = 11 ∨ rt = 12 ∨ rt = 13 ∨ rt = 14 ∨ rt = 15 ∨ rt = 16 ∨ rt = 17
  · rcases c with c | c | c | c | c | c | c | c | c | c <;> subst c <;>
      simp [firstDay, key, key0] <;> omega
  · have hf : firstDay rt = none := by
      unfold firstDay
      split <;> first | rfl | (exfalso; omega)
    rw [hf]
    rw [if_neg (by omega), if_neg (by omega), if_neg (by omega), if_neg (by omega), if_neg (by omega),
      if_neg (by omega), if_neg (by omega), if_neg (by omega), if_neg (by omega)]
    rfl

/-! ## C34: NETWORKDAYS and WORKDAY -/

/-- Number of working days among `d, d+1, ..., d+(n-1)`, as the length of a filtered list. -/
def workingDays (work : Date → Bool) (d : Date) (n : Nat) : Nat :=
  ((List.range n).filter (fun (k : Nat) => work (addDays d k))).length

theorem addDays_next {d : Date} (h : d.Valid) (k : Nat) : addDays d.next k = addDays d (k + 1 : Nat) := by
  apply dayNumber_inj (addDays_spec (next_valid h) _).1 (addDays_spec h _).1
  rw [(addDays_spec (next_valid h) _).2, (addDays_spec h _).2, dayNumber_next h]
  omega

theorem countWork_eq (work : Date → Bool) {d : Date} (h : d.Valid) (n : Nat) :
    countWork work n d = workingDays work d n := by
  induction n generalizing d with
  | zero => simp [countWork, workingDays]
  | succ n ih =>
    rw [countWork, ih (next_valid h)]
    unfold workingDays
    rw [List.range_succ_eq_map, List.filter_cons, List.filter_map]
    have e0 : addDays d ((0 : Nat) : Int) = d := by simp [addDays, iter]
    have : (fun (k : Nat) => work (addDays d.next (k : Int))) =
        (fun (k : Nat) => work (addDays d (k : Int))) ∘ Nat.succ := by
      funext k
      simp only [Function.comp]
      rw [addDays_next h k]
    rw [e0, this]
    split <;> simp <;> omega

/-- **C34** (1): `NETWORKDAYS(a, b)` counts the working days from `a` to `b`, both included, and is negative
when the dates are reversed. -/
theorem networkdays_spec (work : Date → Bool) {a b : Date} (ha : a.Valid) (hb : b.Valid) :
    (a.le b → networkdays work a b = workingDays work a (b.dayNumber - a.dayNumber + 1).toNat) ∧
    (b.lt a → networkdays work a b = - networkdays work b a) := by
  constructor
  · intro h
    unfold networkdays
    simp only [if_pos h, Int.mul_one]
    exact countWork_eq work ha _
  · intro h
    have hd := dayNumber_lt hb ha h
    have h1 : ¬ a.le b := by
      intro hc
      have := (dayNumber_le_iff ha hb).2 hc
      omega
    have h2 : b.le a := Or.inl h
    unfold networkdays
    simp only [if_neg h1, if_pos h2, Int.mul_one, Int.mul_neg]

theorem countWork_add (work : Date → Bool) {d : Date} (h : d.Valid) (n k : Nat) :
    countWork work (n + k) d = countWork work n d + countWork work k (addDays d n) := by
  induction n generalizing d with
  | zero => simp [countWork, addDays, iter]
  | succ n ih =>
    rw [Nat.add_right_comm, countWork, countWork, ih (next_valid h), addDays_next h]
    omega

/-- **C34** (2): splitting an interval splits the count. -/
theorem networkdays_split (work : Date → Bool) {a b c : Date} (ha : a.Valid) (hb : b.Valid) (hc : c.Valid)
    (hab : a.le b) (hbc : b.lt c) :
    networkdays work a c = networkdays work a b + networkdays work b.next c := by
  have h1 := (dayNumber_le_iff ha hb).2 hab
  have h2 := dayNumber_lt hb hc hbc
  have h3 : a.le c := (dayNumber_le_iff ha hc).1 (by omega)
  have h4 : b.next.le c := (dayNumber_le_iff (next_valid hb) hc).1 (by rw [dayNumber_next hb]; omega)
  unfold networkdays
  simp only [if_pos hab, if_pos h3, if_pos h4, Int.mul_one, dayNumber_next hb]
  have e : (c.dayNumber - a.dayNumber + 1).toNat =
      (b.dayNumber - a.dayNumber + 1).toNat + (c.dayNumber - (b.dayNumber + 1) + 1).toNat := by omega
  rw [e, countWork_add work ha]
  congr 2
  apply dayNumber_inj (addDays_spec ha _).1 (next_valid hb)
  rw [(addDays_spec ha _).2, dayNumber_next hb]
  omega

/-- Working days are Monday to Friday. -/
def weekdayWork (d : Date) : Bool := decide (d.weekdayFromMonday < 5)

/-- January 2024 has 23 working days. -/
example : networkdays weekdayWork ⟨2024, 1, 1⟩ ⟨2024, 1, 31⟩ = 23 := by decide

theorem workdayLoop_forward (work : Date → Bool) (fuel : Nat) {d r : Date} (hv : d.Valid) {rem : Int}
    (h0 : 0 ≤ rem) (h : workdayLoop work true fuel d rem = .done r) :
    r.Valid ∧ ∃ n : Nat, r.dayNumber = d.dayNumber + n ∧ countWork work n d.next = rem ∧
      (0 < rem → 0 < n ∧ work r = true) := by
  induction fuel generalizing d rem with
  | zero => simp [workdayLoop] at h
  | succ fuel ih =>
    unfold workdayLoop at h
    by_cases hr : rem > 0
    · rw [if_pos hr] at h
      simp only [step, if_true] at h
      by_cases hc : d.next.InChrono
      · rw [if_pos hc] at h
        simp only at h
        by_cases hw : work d.next = true
        · rw [if_pos hw] at h
          obtain ⟨hrv, n, hn, hcount, hpos⟩ := ih (next_valid hv) (by omega) h
          rw [dayNumber_next hv] at hn
          refine ⟨hrv, n + 1, by omega, ?_, ?_⟩
          · simp only [countWork, hw, if_true]; omega
          · intro _
            refine ⟨by omega, ?_⟩
            by_cases hp : 0 < rem - 1
            · exact (hpos hp).2
            · cases fuel with
              | zero => simp [workdayLoop] at h
              | succ fuel =>
                unfold workdayLoop at h
                rw [if_neg (by omega)] at h
                cases h
                exact hw
        · rw [if_neg hw] at h
          obtain ⟨hrv, n, hn, hcount, hpos⟩ := ih (next_valid hv) h0 h
          rw [dayNumber_next hv] at hn
          refine ⟨hrv, n + 1, by omega, ?_, ?_⟩
          · simp only [countWork, hw]; simp; omega
          · intro hp
            exact ⟨by omega, (hpos hp).2⟩
      · rw [if_neg hc] at h; simp at h
    · rw [if_neg hr] at h
      cases h
      refine ⟨hv, 0, by simp, ?_, fun hp => absurd hp hr⟩
      simp only [countWork]; omega

/-- The loop ends: with as many steps as `chrono` has days after the start, the fuel never runs out. -/
theorem workday_terminates (work : Date → Bool) (forward : Bool) (fuel : Nat) {d : Date} (hv : d.Valid)
    (hc : d.InChrono) (rem : Int)
    (hf : (if forward then yearStart (chronoMaxYear + 1) - d.dayNumber else d.dayNumber - yearStart chronoMinYear)
      < fuel) : workdayLoop work forward fuel d rem ≠ .outOfFuel := by
  induction fuel generalizing d rem with
  | zero =>
    exfalso
    have hb := dayNumber_bounds hv
    have h1 := yearStart_mono (y := d.year + 1) (z := chronoMaxYear + 1) (by have := hc.2; omega)
    have h2 := yearStart_mono (y := chronoMinYear) (z := d.year) hc.1
    split at hf <;> omega
  | succ fuel ih =>
    unfold workdayLoop
    by_cases hr : rem > 0
    · rw [if_pos hr]
      cases forward with
      | true =>
        simp only [step, if_true] at *
        by_cases hcn : d.next.InChrono
        · rw [if_pos hcn]
          exact ih (next_valid hv) hcn _ (by rw [dayNumber_next hv]; omega)
        · rw [if_neg hcn]; simp
      | false =>
        simp only [step, Bool.false_eq_true, if_false] at *
        by_cases hcn : d.prev.InChrono
        · rw [if_pos hcn]
          exact ih (prev_valid hv) hcn _ (by rw [dayNumber_prev hv]; omega)
        · rw [if_neg hcn]; simp
    · rw [if_neg hr]; simp

/-- **C34** (3): `WORKDAY(start, n)` for positive `n` is the working day after `start` such that exactly `n`
working days lie in between (the last one included): it inverts `NETWORKDAYS`. -/
theorem workday_inverts_networkdays (work : Date → Bool) (fuel : Nat) {d r : Date} (hv : d.Valid) {n : Int}
    (h0 : 0 < n) (h1 : n < 9223372036854775808) (h : workday work fuel d n = .done r) :
    d.lt r ∧ work r = true ∧ networkdays work d.next r = n := by
  unfold workday at h
  have e : wrap64 n.natAbs = n := by unfold wrap64; omega
  rw [e, decide_eq_true (by omega)] at h
  obtain ⟨hrv, k, hk, hcount, hpos⟩ := workdayLoop_forward work fuel hv (by omega) h
  obtain ⟨hk0, hw⟩ := hpos h0
  have hlt : d.lt r := (dayNumber_lt_iff hv hrv).1 (by omega)
  have hle : d.next.le r := (dayNumber_le_iff (next_valid hv) hrv).1 (by rw [dayNumber_next hv]; omega)
  refine ⟨hlt, hw, ?_⟩
  unfold networkdays
  simp only [if_pos hle, Int.mul_one, dayNumber_next hv]
  have : (r.dayNumber - (d.dayNumber + 1) + 1).toNat = k := by omega
  rw [this]
  exact hcount

theorem workdayLoop_backward (work : Date → Bool) (fuel : Nat) {d r : Date} (hv : d.Valid) {rem : Int}
    (h0 : 0 ≤ rem) (h : workdayLoop work false fuel d rem = .done r) :
    r.Valid ∧ ∃ n : Nat, r.dayNumber = d.dayNumber - n ∧ countWork work n r = rem ∧
      (0 < rem → 0 < n ∧ work r = true) := by
  induction fuel generalizing d rem with
  | zero => simp [workdayLoop] at h
  | succ fuel ih =>
    unfold workdayLoop at h
    by_cases hr : rem > 0
    · rw [if_pos hr] at h
      simp only [step, Bool.false_eq_true, if_false] at h
      by_cases hc : d.prev.InChrono
      · rw [if_pos hc] at h
        simp only at h
        have hlast : ∀ {n : Nat}, r.Valid → r.dayNumber = d.prev.dayNumber - n →
            countWork work (n + 1) r = countWork work n r + (if work d.prev then 1 else 0) := by
          intro n hrv hn
          rw [countWork_add work hrv n 1]
          have : addDays r n = d.prev := by
            apply dayNumber_inj (addDays_spec hrv _).1 (prev_valid hv)
            rw [(addDays_spec hrv _).2]; omega
          rw [this]
          simp [countWork]
        by_cases hw : work d.prev = true
        · rw [if_pos hw] at h
          obtain ⟨hrv, n, hn, hcount, hpos⟩ := ih (prev_valid hv) (by omega) h
          have hl := hlast hrv hn
          rw [dayNumber_prev hv] at hn
          refine ⟨hrv, n + 1, by omega, ?_, ?_⟩
          · rw [hl, hcount, if_pos hw]; omega
          · intro _
            refine ⟨by omega, ?_⟩
            by_cases hp : 0 < rem - 1
            · exact (hpos hp).2
            · cases fuel with
              | zero => simp [workdayLoop] at h
              | succ fuel =>
                unfold workdayLoop at h
                rw [if_neg (by omega)] at h
                cases h
                exact hw
        · rw [if_neg hw] at h
          obtain ⟨hrv, n, hn, hcount, hpos⟩ := ih (prev_valid hv) h0 h
          have hl := hlast hrv hn
          rw [dayNumber_prev hv] at hn
          refine ⟨hrv, n + 1, by omega, ?_, ?_⟩
          · rw [hl, hcount, if_neg hw]; omega
          · intro hp
            exact ⟨by omega, (hpos hp).2⟩
      · rw [if_neg hc] at h; simp at h
    · rw [if_neg hr] at h
      cases h
      refine ⟨hv, 0, by simp, ?_, fun hp => absurd hp hr⟩
      simp only [countWork]; omega

/-- **C34** (4): for negative `n`, `WORKDAY(start, n)` is the working day before `start` such that exactly
`-n` working days lie in between. -/
theorem workday_backward (work : Date → Bool) (fuel : Nat) {d r : Date} (hv : d.Valid) {n : Int}
    (h0 : n < 0) (h1 : -9223372036854775808 < n) (h : workday work fuel d n = .done r) :
    r.lt d ∧ work r = true ∧ networkdays work r d.prev = -n := by
  unfold workday at h
  have e : wrap64 n.natAbs = -n := by unfold wrap64; omega
  have e2 : decide (n ≥ 0) = false := by simp; omega
  rw [e, e2] at h
  obtain ⟨hrv, k, hk, hcount, hpos⟩ := workdayLoop_backward work fuel hv (by omega) h
  obtain ⟨hk0, hw⟩ := hpos (by omega)
  have hlt : r.lt d := (dayNumber_lt_iff hrv hv).1 (by omega)
  have hle : r.le d.prev := (dayNumber_le_iff hrv (prev_valid hv)).1 (by rw [dayNumber_prev hv]; omega)
  refine ⟨hlt, hw, ?_⟩
  unfold networkdays
  simp only [if_pos hle, Int.mul_one, dayNumber_prev hv]
  have : (d.dayNumber - 1 - r.dayNumber + 1).toNat = k := by omega
  rw [this]
  exact hcount

example : workday weekdayWork 20 ⟨2024, 1, 15⟩ (-10) = .done ⟨2024, 1, 1⟩ := by decide

/-- Ten working days after Monday 2024-01-01 is Monday 2024-01-15. -/
example : workday weekdayWork 20 ⟨2024, 1, 1⟩ 10 = .done ⟨2024, 1, 15⟩ := by decide

/-- `WORKDAY` with the most negative day count does not move at all in a release build. -/
theorem workday_min_wraps (work : Date → Bool) (d : Date) :
    workday work 1 d (-9223372036854775808) = .done d := by
  unfold workday
  have e : wrap64 (-9223372036854775808 : Int).natAbs = -9223372036854775808 := by decide
  rw [e]
  simp [workdayLoop]

/-! ## C35: DATEDIF -/

/-- Year/month/day triples compared lexicographically; unlike a date the day need not exist. -/
def lexLe (y1 : Int) (m1 d1 : Nat) (y2 : Int) (m2 d2 : Nat) : Prop :=
  y1 < y2 ∨ (y1 = y2 ∧ (m1 < m2 ∨ (m1 = m2 ∧ d1 ≤ d2)))

/-- **C35** (1): unit "Y" is the number of complete years: the anniversary `n` years after the start has been
reached, the next one has not. -/
theorem datedif_years (a b : Date) :
    lexLe (a.year + datedifY a b) a.month a.day b.year b.month b.day ∧
    ¬ lexLe (a.year + (datedifY a b + 1)) a.month a.day b.year b.month b.day := by
  unfold datedifY lexLe
  simp only
  split <;> omega

/-- **C35** (2): unit "M" is the number of complete months: months are counted from year 0. -/
theorem datedif_months (a b : Date) :
    (a.monthIndex + datedifM a b < b.monthIndex ∨
      (a.monthIndex + datedifM a b = b.monthIndex ∧ a.day ≤ b.day)) ∧
    ¬ (a.monthIndex + (datedifM a b + 1) < b.monthIndex ∨
      (a.monthIndex + (datedifM a b + 1) = b.monthIndex ∧ a.day ≤ b.day)) := by
  unfold datedifM Date.monthIndex
  simp only
  split <;> omega

/-- **C35** (3): "YM" is what "M" leaves after whole years, and "Y" and "YM" together make "M". -/
theorem datedif_ym {a b : Date} (ha : a.Valid) (hb : b.Valid) :
    datedifYM a b = datedifM a b % 12 ∧ datedifM a b = 12 * datedifY a b + datedifYM a b := by
  obtain ⟨h1, h2, h3, h4⟩ := ha
  obtain ⟨g1, g2, g3, g4⟩ := hb
  unfold datedifYM datedifM datedifY
  simp only
  constructor <;> split <;> split <;> (try split) <;> omega

/-- **C35** (4), partial: if the start day is at most 28, "MD" is the number of days left after the complete
months: never negative, and equal to the distance from the start moved by "M" months. (Missing: start days 29
to 31.) -/
theorem datedif_md_partial {a b : Date} (ha : a.Valid) (hb : b.Valid) (h28 : a.day ≤ 28) :
    0 ≤ datedifMD a b ∧
    datedifMD a b = b.dayNumber - (addDays (monthStart (a.monthIndex + datedifM a b)) (a.day - 1)).dayNumber := by
  obtain ⟨h1, h2, h3, h4⟩ := ha
  obtain ⟨g1, g2, g3, g4⟩ := hb
  have hs := (addDays_spec (monthStart_valid (a.monthIndex + datedifM a b)) ((a.day : Int) - 1)).2
  rw [hs]
  unfold datedifMD
  simp only
  by_cases hd : b.day < a.day
  · rw [if_pos (by omega)]
    have em : a.monthIndex + datedifM a b = b.monthIndex - 1 := by
      unfold datedifM Date.monthIndex; simp only [if_pos hd]; omega
    rw [em]
    by_cases hb1 : b.month = 1
    · rw [if_pos hb1]
      simp only [if_true]
      have e : monthStart (b.monthIndex - 1) = ⟨b.year - 1, 12, 1⟩ := by
        rw [← monthStart_eq (y := b.year - 1) (m := 12) (by decide) (by decide)]
        unfold Date.monthIndex
        congr 1; omega
      rw [e]
      simp only [Date.dayNumber, Int.sub_add_cancel, hb1]
      have := yearStart_succ (b.year - 1)
      rw [Int.sub_add_cancel] at this
      have q := daysBefore_succ (b.year - 1) (m := 12) (by decide) (by decide)
      rw [daysBefore_13] at q
      have q2 := daysInMonth_pos (b.year - 1) (m := 12) (by decide) (by decide)
      have q3 := daysBefore_1 b.year
      omega
    · rw [if_neg hb1]
      have e : monthStart (b.monthIndex - 1) = ⟨b.year, b.month - 1, 1⟩ := by
        rw [← monthStart_eq (y := b.year) (m := b.month - 1) (by omega) (by omega)]
        unfold Date.monthIndex
        congr 1; omega
      rw [e]
      have hne : ¬ (b.month - 1 = 12) := by omega
      simp only [if_neg hne, Date.dayNumber, Nat.sub_add_cancel g1]
      have q := daysBefore_succ b.year (m := b.month - 1) (by omega) (by omega)
      rw [Nat.sub_add_cancel g1] at q
      have q2 := daysInMonth_pos b.year (m := b.month - 1) (by omega) (by omega)
      omega
  · rw [if_neg (by omega)]
    have em : a.monthIndex + datedifM a b = b.monthIndex := by
      unfold datedifM Date.monthIndex; simp only [if_neg hd]; omega
    have e : monthStart b.monthIndex = ⟨b.year, b.month, 1⟩ := by
      rw [← monthStart_eq (y := b.year) (m := b.month) g1 g2]
      unfold Date.monthIndex
      congr 1; omega
    rw [em, e]
    simp only [Date.dayNumber]
    omega

example : datedifMD ⟨2023, 1, 15⟩ ⟨2023, 3, 10⟩ = 23 := by decide

/-- "MD" can be negative: from 2023-01-31 to 2023-03-01 it is -2. -/
theorem datedif_md_fails : datedifMD ⟨2023, 1, 31⟩ ⟨2023, 3, 1⟩ = -2 := by decide

end Verif.Dates

import Mathlib.Order.Interval.Finset.Basic
import Mathlib.Data.Int.Interval
import Mathlib.Data.Finset.Card
import Verif.Days.Frac

/-!
# Week numbers
-/

namespace Verif.Days

open Verif.Dates

/-! ## ISO weeks -/

theorem weekday_lt (d : Date) : d.weekdayFromMonday < 7 ∧ (d.weekdayFromMonday : Int) = (d.dayNumber - 1) % 7 := by
  unfold Date.weekdayFromMonday
  omega

/-- The Thursday of the week of a date. -/
theorem thursday_spec {d : Date} (h : d.Valid) :
    (addDays d (3 - d.weekdayFromMonday)).Valid ∧
      (addDays d (3 - d.weekdayFromMonday)).dayNumber = d.dayNumber + 3 - (d.dayNumber - 1) % 7 := by
  obtain ⟨h1, h2⟩ := addDays_spec h (3 - d.weekdayFromMonday)
  refine ⟨h1, ?_⟩
  rw [h2, (weekday_lt d).2]
  omega

/-- The year a day number lies in is determined. -/
theorem year_unique {d : Date} (h : d.Valid) {y : Int} (h1 : yearStart y < d.dayNumber) (h2 : d.dayNumber ≤ yearStart (y + 1)) :
    d.year = y := by
  have a := year_le_of_dayNumber h h2
  have b := le_year_of_dayNumber h h1
  omega

/-- The week by the day number of the Thursday and its year. -/
theorem isoWeek_eq {d : Date} (h : d.Valid) {y : Int} (h1 : yearStart y < d.dayNumber + 3 - (d.dayNumber - 1) % 7)
    (h2 : d.dayNumber + 3 - (d.dayNumber - 1) % 7 ≤ yearStart (y + 1)) :
    isoWeek d = (d.dayNumber + 3 - (d.dayNumber - 1) % 7 - yearStart y - 1) / 7 + 1 := by
  obtain ⟨t1, t2⟩ := thursday_spec h
  have := year_unique t1 (y := y) (by omega) (by omega)
  unfold isoWeek
  simp only
  rw [this, t2]

theorem isoWeek_year {d : Date} (h : d.Valid) : ∃ y, yearStart y < d.dayNumber + 3 - (d.dayNumber - 1) % 7 ∧
    d.dayNumber + 3 - (d.dayNumber - 1) % 7 ≤ yearStart (y + 1) ∧
    isoWeek d = (d.dayNumber + 3 - (d.dayNumber - 1) % 7 - yearStart y - 1) / 7 + 1 := by
  obtain ⟨t1, t2⟩ := thursday_spec h
  have b := dayNumber_bounds t1
  rw [t2] at b
  exact ⟨_, b.1, b.2, isoWeek_eq h b.1 b.2⟩

theorem yearStart_len (y : Int) : yearStart (y + 1) = yearStart y + 365 ∨ yearStart (y + 1) = yearStart y + 366 := by
  rw [yearStart_succ]
  split <;> omega

/-- **C109** (11): the ISO week of a date is from 1 to 53, the same from Monday to Sunday,
one more in the next week or 1 after week 52 or 53, and 1 on every 4th of January. -/
theorem iso_weeks {d : Date} (h : d.Valid) :
    (1 ≤ isoWeek d ∧ isoWeek d ≤ 53) ∧
      (∀ k : Int, 0 ≤ d.weekdayFromMonday + k → d.weekdayFromMonday + k ≤ 6 → isoWeek (addDays d k) = isoWeek d) ∧
      (isoWeek (addDays d 7) = isoWeek d + 1 ∨ isoWeek (addDays d 7) = 1 ∧ 52 ≤ isoWeek d) ∧
      (d.month = 1 → d.day = 4 → isoWeek d = 1) := by
  obtain ⟨y, y1, y2, e⟩ := isoWeek_year h
  have hl := yearStart_len y
  refine ⟨by omega, ?_, ?_, ?_⟩
  · intro k k1 k2
    obtain ⟨a1, a2⟩ := addDays_spec h k
    have w := (weekday_lt d).2
    have s : (addDays d k).dayNumber + 3 - ((addDays d k).dayNumber - 1) % 7 = d.dayNumber + 3 - (d.dayNumber - 1) % 7 := by
      rw [a2]; omega
    rw [isoWeek_eq a1 (y := y) (by rw [s]; exact y1) (by rw [s]; exact y2), s, e]
  · obtain ⟨a1, a2⟩ := addDays_spec h 7
    have s : (addDays d 7).dayNumber + 3 - ((addDays d 7).dayNumber - 1) % 7 = d.dayNumber + 3 - (d.dayNumber - 1) % 7 + 7 := by
      rw [a2]; omega
    by_cases hy : d.dayNumber + 3 - (d.dayNumber - 1) % 7 + 7 ≤ yearStart (y + 1)
    · rw [isoWeek_eq a1 (y := y) (by rw [s]; omega) (by rw [s]; exact hy), s, e]
      left; omega
    · have hl' := yearStart_len (y + 1)
      rw [isoWeek_eq a1 (y := y + 1) (by rw [s]; omega) (by rw [s]; omega), s, e]
      right; omega
  · intro h1 h4
    have hd : d.dayNumber = yearStart d.year + 4 := by
      unfold Date.dayNumber
      rw [h1, h4, daysBefore_1]; omega
    have hl' := yearStart_len d.year
    rw [isoWeek_eq h (y := d.year) (by omega) (by omega)]
    omega

/-- 2024-12-30 is in the first week of 2025. -/
example : isoWeek ⟨2024, 12, 30⟩ = 1 ∧ isoWeek ⟨2024, 12, 29⟩ = 52 ∧ isoWeek ⟨2021, 1, 3⟩ = 53 := by decide +kernel

/-! ## WEEKNUM -/

theorem tryDate_whole (sys : System) {f : Frac} (h : 0 ≤ f.num) : tryDate sys (some f) = tryDate sys (whole f.trunc) := by
  have ht : 0 ≤ f.trunc := by rw [trunc_of_nonneg h]; exact Int.ediv_nonneg h (by omega)
  unfold tryDate whole validate
  simp only [whole_trunc]
  have h1 : ¬f.num < 0 := by omega
  have h2 : ¬f.trunc < 0 := by omega
  simp only [h1, h2]

/-- How many days of the week there are among numbers. -/
theorem count_residue (s c : Int) (hs : 0 ≤ s ∧ s < 7) (a : Int) (n : Nat) :
    (((Finset.Ioc a (a + n)).filter fun k => (k + c) % 7 = s).card : Int) = (n + (a + c - s) % 7) / 7 := by
  induction n with
  | zero =>
    simp only [Nat.cast_zero, add_zero, Finset.Ioc_self, Finset.filter_empty, Finset.card_empty]
    omega
  | succ n ih =>
    have e : Finset.Ioc a (a + ((n + 1 : Nat) : Int)) = insert (a + n + 1) (Finset.Ioc a (a + n)) := by
      ext k
      simp only [Finset.mem_Ioc, Finset.mem_insert]
      push_cast
      omega
    rw [e, Finset.filter_insert]
    have hn : a + n + 1 ∉ (Finset.Ioc a (a + n)).filter fun k => (k + c) % 7 = s := by
      simp only [Finset.mem_filter, Finset.mem_Ioc]
      omega
    split
    · rename_i q
      rw [Finset.card_insert_of_notMem hn]
      push_cast
      rw [ih]
      omega
    · rename_i q
      rw [ih]
      push_cast
      omega

theorem jan_valid (y : Int) : (Date.mk y 1 1).Valid :=
  ⟨le_refl 1, (show 1 ≤ 12 by decide), le_refl 1, (show 1 ≤ 31 by decide)⟩

theorem jan_le_self {d : Date} (h : d.Valid) : (Date.mk d.year 1 1).le d := by
  apply (dayNumber_le_iff (jan_valid _) h).1
  rw [jan_first]
  have := (dayNumber_bounds h).1
  omega

/-- The serial of the first of January of the year of a serial. -/
theorem jan_le (sys : System) {n : Int} {d : Date} (h : tryDate sys (whole n) = some d) :
    dateToSerial sys ⟨d.year, 1, 1⟩ ≤ n := by
  obtain ⟨hv, e⟩ := serial_roundtrip sys h
  have h1 : dateToSerial sys ⟨d.year, 1, 1⟩ ≤ dateToSerial sys d := by
    rcases jan_le_self hv with h | h
    · exact le_of_lt ((dateToSerial_strictMono sys (jan_valid _) hv).1 h)
    · rw [h]
  rw [e] at h1
  split at h1 <;> omega

theorem num_nonneg (sys : System) {f : Frac} {d : Date} (h : tryDate sys (some f) = some d) : 0 ≤ f.num := by
  obtain ⟨g, hg, h0, -⟩ := (tryDate_isSome_iff sys (some f)).1 (by rw [h]; rfl)
  cases hg
  exact h0

theorem trunc_nonneg {f : Frac} (h : 0 ≤ f.num) : 0 ≤ f.trunc := by
  rw [trunc_of_nonneg h]; exact Int.ediv_nonneg h (by omega)

theorem weekStart_range {rt st : Int} (h : weekStart rt = some st) : (0 ≤ st ∧ st < 7) ∧ rt ≠ 21 := by
  unfold weekStart at h
  split_ifs at h <;> cases h <;> refine ⟨by decide, by omega⟩

/-- **C109** (12): `WEEKNUM` is one more than the number of first days of the week after
the first of January of the year and up to the date, for every kind of week but the ISO
week. The days of the week are those of `WEEKDAY`. -/
theorem weeknum_counts (sys : System) (f : Frac) {rt st : Int} (hst : weekStart rt = some st) {d : Date}
    (hd : tryDate sys (some f) = some d) (h0 : sys = .excel1900 → 1 ≤ f.trunc) :
    weeknum sys f rt = .num (1 + ((Finset.Ioc (dateToSerial sys ⟨d.year, 1, 1⟩) f.trunc).filter
      fun k => weekdayIndex sys k = st).card) := by
  have hf := num_nonneg sys hd
  have ht := trunc_nonneg hf
  have hw : tryDate sys (whole f.trunc) = some d := by rw [← tryDate_whole sys hf]; exact hd
  have hj := jan_le sys hw
  obtain ⟨hs, h21⟩ := weekStart_range hst
  unfold weeknum
  simp only
  rw [if_neg (by omega), if_neg (by rintro ⟨h1, h2⟩; have := h0 h1; omega), if_neg h21, hst]
  unfold weekPlain
  simp only [hd]
  generalize dateToSerial sys ⟨d.year, 1, 1⟩ = jan at *
  generalize f.trunc = n at *
  have e : n = jan + ((n - jan).toNat : Int) := by omega
  have hc : ((Finset.Ioc jan n).filter fun k => weekdayIndex sys k = st).card =
      ((n - jan).toNat + (weekdayIndex sys jan - st) % 7) / 7 := by
    cases sys with
    | excel1900 =>
      have := count_residue st 0 hs jan (n - jan).toNat
      rw [← e] at this
      simp only [add_zero] at this
      rw [Finset.filter_congr (q := fun k => k % 7 = st) (fun k _ => by simp only [weekdayIndex]), this]
      simp only [weekdayIndex]
      omega
    | excel1904 =>
      have := count_residue st 1462 hs jan (n - jan).toNat
      rw [← e] at this
      rw [Finset.filter_congr (q := fun k => (k + 1462) % 7 = st) (fun k _ => by simp only [weekdayIndex]), this]
      simp only [weekdayIndex]
      omega
  rw [hc]
  have hi : 0 ≤ weekdayIndex sys jan ∧ weekdayIndex sys jan < 7 := by
    cases sys <;> simp only [weekdayIndex] <;> omega
  generalize weekdayIndex sys jan = w at *
  congr 1
  rw [Int.tmod_eq_emod_of_nonneg (by omega), Int.tdiv_eq_ediv_of_nonneg (by omega)]
  omega

/-- 1904-01-03 was a Sunday. -/
example : weeknum .excel1904 ⟨2, 1, by decide⟩ 1 = .num 2 ∧ weeknum .excel1904 ⟨2, 1, by decide⟩ 2 = .num 1 := by
  decide +kernel

/-- The day number of the date of a serial. -/
def number (sys : System) (n : Int) : Int :=
  match sys with
  | .excel1900 => if n < 60 then 693595 + n else 693594 + n
  | .excel1904 => 695056 + n

theorem tryDate_number (sys : System) {n : Int} {d : Date} (h : tryDate sys (whole n) = some d) :
    d.Valid ∧ 0 ≤ n ∧ n ≤ maxSerial sys ∧ d.dayNumber = number sys n := by
  have hv : validate sys (whole n) = true := by
    by_cases hv : validate sys (whole n) = true
    · exact hv
    · unfold tryDate at h; rw [if_neg hv] at h; cases h
  unfold tryDate at h
  rw [if_pos hv] at h
  simp only [whole, whole_trunc] at h
  unfold whole at hv
  rw [validate_iff, whole_trunc] at hv
  obtain ⟨r, hr, hrv, hn⟩ := dateForWhole_spec sys hv.1 hv.2
  rw [hr] at h
  cases h
  refine ⟨hrv, hv.1, hv.2, ?_⟩
  rw [hn]
  cases sys <;> rfl

theorem tryDate_exists (sys : System) {n : Int} (h0 : 0 ≤ n) (h1 : n ≤ maxSerial sys) : ∃ d, tryDate sys (whole n) = some d := by
  obtain ⟨d, hd, -⟩ := dateForWhole_spec sys h0 h1
  refine ⟨d, ?_⟩
  have hv : validate sys (whole n) = true := by
    unfold whole
    rw [validate_iff, whole_trunc]
    exact ⟨h0, h1⟩
  unfold tryDate
  rw [if_pos hv]
  simp only [whole, whole_trunc]
  exact hd

theorem thursday_1900 (n : Int) : thursday .excel1900 n = n - (n - 2) % 7 + 3 := by
  unfold thursday
  simp only [weekdayIndex]
  split_ifs <;> omega

theorem thursday_1904 (n : Int) : thursday .excel1904 n = n - (n + 1460) % 7 + 3 := by
  unfold thursday
  simp only [weekdayIndex]
  split_ifs <;> omega

/-- **C109** (13): `WEEKNUM` with type 21 is the ISO week, from serial 58 on in the 1900
system and for all dates in the 1904 system. -/
theorem weeknum_iso_partial (sys : System) {n : Int} {d : Date} (hd : tryDate sys (whole n) = some d)
    (h0 : sys = .excel1900 → 58 ≤ n) :
    weeknum sys ⟨n, 1, by decide⟩ 21 = .num (isoWeek d) ∧ isoweeknum sys (whole n) = some (isoWeek d) := by
  obtain ⟨hv, n0, n1, en⟩ := tryDate_number sys hd
  refine ⟨?_, by unfold isoweeknum; rw [hd]; rfl⟩
  unfold weeknum
  simp only [whole_trunc]
  rw [if_neg (by omega), if_neg (by rintro ⟨h1, h2⟩; have := h0 h1; omega), if_pos trivial]
  have y03 : yearStart 1903 = 694690 := by decide
  have y04 : yearStart 1904 = 695055 := by decide
  have y00 : yearStart 1900 = 693595 := by decide
  have y01 : yearStart 1901 = 693960 := by decide
  unfold weekISO
  cases sys with
  | excel1900 =>
    have hn := h0 rfl
    rw [maxSerial_1900] at n1
    simp only [number] at en
    rw [thursday_1900]
    have f1 : firstSerial .excel1900 = 1 := rfl
    obtain ⟨t, ht⟩ := tryDate_exists .excel1900 (n := n - (n - 2) % 7 + 3) (by omega) (by rw [maxSerial_1900]; omega)
    obtain ⟨tv, -, -, te⟩ := tryDate_number .excel1900 ht
    have hb := dayNumber_bounds tv
    rw [f1, if_neg (by omega), ht]
    simp only [number] at te ⊢
    rw [if_neg (by omega)] at te
    congr 1
    rw [dateToSerial_1900 (jan_valid _), jan_first]
    have hy : 1900 ≤ t.year := le_year_of_dayNumber tv (by omega)
    have e1 : d.dayNumber + 3 - (d.dayNumber - 1) % 7 = t.dayNumber := by
      rw [te]
      split at en <;> omega
    rw [isoWeek_eq hv (y := t.year) (by omega) (by omega), e1]
    by_cases h00 : t.year = 1900
    · rw [h00, y00, if_neg (by decide), Int.tdiv_eq_ediv_of_nonneg (by omega)]
      omega
    · have := yearStart_mono (show (1901 : Int) ≤ t.year by omega)
      rw [if_pos (by omega), Int.tdiv_eq_ediv_of_nonneg (by omega)]
      omega
  | excel1904 =>
    rw [maxSerial_1904] at n1
    simp only [number] at en
    rw [thursday_1904]
    have f1 : firstSerial .excel1904 = 0 := rfl
    have f2 : weekBefore .excel1904 = 53 := rfl
    have e1 : d.dayNumber + 3 - (d.dayNumber - 1) % 7 = 695056 + (n - (n + 1460) % 7 + 3) := by omega
    rw [f1, f2]
    split
    · congr 1
      have e03 : (1903 : Int) + 1 = 1904 := by decide
      rw [isoWeek_eq hv (y := 1903) (by omega) (by rw [e03]; omega), e1, y03]
      omega
    · obtain ⟨t, ht⟩ := tryDate_exists .excel1904 (n := n - (n + 1460) % 7 + 3) (by omega) (by rw [maxSerial_1904]; omega)
      obtain ⟨tv, -, -, te⟩ := tryDate_number .excel1904 ht
      have hb := dayNumber_bounds tv
      rw [ht]
      simp only [number] at te ⊢
      congr 1
      rw [dateToSerial_1904, jan_first]
      rw [isoWeek_eq hv (y := t.year) (by omega) (by omega), e1]
      rw [Int.tdiv_eq_ediv_of_nonneg (by omega)]
      omega

/-- Before, the two differ: 1900-01-01 is in week 52 for one and in week 1 for the other. -/
theorem weeknum_iso_fails :
    weeknum .excel1900 ⟨1, 1, by decide⟩ 21 = .num 52 ∧ isoweeknum .excel1900 (whole 1) = some 1 ∧
      weeknum .excel1900 ⟨57, 1, by decide⟩ 21 = .num 8 ∧ isoweeknum .excel1900 (whole 57) = some 9 := by
  decide +kernel

/-- **C109**: which day begins the week: Sunday for 1, Monday for 2, and the days from Monday to
Sunday for 11 to 17; days count from 0 for Saturday. -/
theorem week_start_spec {rt st : Int} :
    weekStart rt = some st ↔ (rt = 1 ∧ st = 1) ∨ (rt = 2 ∧ st = 2) ∨ (11 ≤ rt ∧ rt ≤ 17 ∧ st = (rt - 9) % 7) := by
  unfold weekStart
  repeat' split
  all_goals (simp only [Option.some.injEq, reduceCtorEq, false_iff]; omega)

example : weekStart 16 = some 0 ∧ weekStart 3 = none := ⟨rfl, rfl⟩

/-- **C109**: after the week of the last date there are no ISO weeks. -/
theorem iso_week_end (sys : System) {n : Int} (h : maxSerial sys + 2 < n) : weeknum sys ⟨n, 1, by decide⟩ 21 = .error := by
  have m00 : maxSerial .excel1900 = 2958465 := maxSerial_1900
  have m04 : maxSerial .excel1904 = 2957003 := maxSerial_1904
  have ht : maxSerial sys < thursday sys n := by
    cases sys with
    | excel1900 => rw [thursday_1900, m00]; rw [m00] at h; omega
    | excel1904 => rw [thursday_1904, m04]; rw [m04] at h; omega
  have h0 : 0 ≤ maxSerial sys := by cases sys <;> omega
  have hf : firstSerial sys ≤ 1 := by cases sys <;> decide
  have hn : tryDate sys (whole (thursday sys n)) = none := by
    unfold tryDate
    rw [if_neg]
    intro hv
    unfold whole at hv
    rw [validate_iff, whole_trunc] at hv
    omega
  unfold weeknum
  simp only [whole_trunc]
  rw [if_neg (by omega), if_neg (by rintro ⟨-, h2⟩; omega), if_pos trivial]
  unfold weekISO
  rw [if_neg (by omega), hn]

/-- The two days after the last date have a week all the same, though they are no dates. -/
theorem iso_week_end_fails (sys : System) :
    weeknum sys ⟨maxSerial sys + 1, 1, by decide⟩ 21 = .num 52 ∧ weeknum sys ⟨maxSerial sys + 2, 1, by decide⟩ 21 = .num 52 ∧
      isoweeknum sys (whole (maxSerial sys + 1)) = none ∧ weeknum sys ⟨maxSerial sys + 1, 1, by decide⟩ 2 = .error := by
  have m00 : maxSerial .excel1900 = 2958465 := maxSerial_1900
  have m04 : maxSerial .excel1904 = 2957003 := maxSerial_1904
  have d30 : (Date.mk 9999 12 30).dayNumber = 3652058 := by decide
  have d01 : (Date.mk 9999 1 1).dayNumber = 3651695 := by decide
  have hd : tryDate sys (whole (maxSerial sys - 1)) = some ⟨9999, 12, 30⟩ := by
    have := date_roundtrip sys (d := ⟨9999, 12, 30⟩) (by decide) (by cases sys <;> decide) (by decide)
    rw [show dateToSerial sys ⟨9999, 12, 30⟩ = maxSerial sys - 1 by
      cases sys with
      | excel1900 => rw [dateToSerial_1900 (by decide), d30, m00]; rfl
      | excel1904 => rw [dateToSerial_1904, d30, m04]; rfl] at this
    exact this
  have hj : dateToSerial sys ⟨9999, 1, 1⟩ = maxSerial sys - 364 := by
    cases sys with
    | excel1900 => rw [dateToSerial_1900 (by decide), d01, m00]; rfl
    | excel1904 => rw [dateToSerial_1904, d01, m04]; rfl
  have t1 : thursday sys (maxSerial sys + 1) = maxSerial sys - 1 := by
    cases sys with
    | excel1900 => rw [thursday_1900, m00]; omega
    | excel1904 => rw [thursday_1904, m04]; omega
  have t2 : thursday sys (maxSerial sys + 2) = maxSerial sys - 1 := by
    cases sys with
    | excel1900 => rw [thursday_1900, m00]; omega
    | excel1904 => rw [thursday_1904, m04]; omega
  have h0 : 10 ≤ maxSerial sys := by cases sys <;> omega
  have hf : firstSerial sys ≤ 1 := by cases sys <;> decide
  have hn : tryDate sys (whole (maxSerial sys + 1)) = none := by
    unfold tryDate
    rw [if_neg]
    intro hv
    unfold whole at hv
    rw [validate_iff, whole_trunc] at hv
    omega
  have hw : ((maxSerial sys - 1 - (maxSerial sys - 364)).tdiv 7 + 1 : Int) = 52 := by
    rw [show maxSerial sys - 1 - (maxSerial sys - 364) = 363 by omega]; decide
  refine ⟨?_, ?_, ?_, ?_⟩
  · unfold weeknum
    simp only [whole_trunc]
    rw [if_neg (by omega), if_neg (by rintro ⟨-, h2⟩; omega), if_pos trivial]
    unfold weekISO
    rw [t1, if_neg (by omega), hd]
    simp only [hj, hw]
  · unfold weeknum
    simp only [whole_trunc]
    rw [if_neg (by omega), if_neg (by rintro ⟨-, h2⟩; omega), if_pos trivial]
    unfold weekISO
    rw [t2, if_neg (by omega), hd]
    simp only [hj, hw]
  · unfold isoweeknum
    rw [hn]; rfl
  · unfold weeknum
    simp only [whole_trunc]
    rw [if_neg (by omega), if_neg (by rintro ⟨-, h2⟩; omega), if_neg (by decide)]
    show weekPlain sys (whole (maxSerial sys + 1)) _ _ = _
    unfold weekPlain
    rw [hn]

/-- **C109**: negative numbers are refused by all types of WEEKNUM, and serial 0 of the 1900 system is in
week 0. -/
theorem weeknum_edges (sys : System) (f : Frac) (rt : Int) :
    (f.trunc < 0 → weeknum sys f rt = .error) ∧ (f.trunc = 0 → weeknum .excel1900 f rt = .num 0) := by
  unfold weeknum
  simp only
  refine ⟨fun h => if_pos h, fun h => ?_⟩
  rw [if_neg (by omega), if_pos ⟨trivial, h⟩]

end Verif.Days

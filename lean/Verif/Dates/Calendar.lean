/-!
# Proleptic Gregorian calendar

The code uses the `chrono` crate for dates.  `chrono` is not part of `/repo`; this file is the model of
the parts of it that are used: `NaiveDate::from_ymd_opt`, `succ_opt`, `pred_opt`, `checked_add_signed`,
subtraction of dates (`num_days`), comparison, `weekday`.  It is the trusted description of that library.
Day counting is *derived* from the next-day function: `dayNumber_next` below.
-/

namespace Verif.Dates

/-- `chrono::NaiveDate` as its three fields. -/
structure Date where
  year : Int
  month : Nat
  day : Nat
deriving DecidableEq, Repr

/-- Gregorian leap year rule. -/
def isLeap (y : Int) : Bool := y % 4 == 0 && (y % 100 != 0 || y % 400 == 0)

/-- Number of days of a month. -/
def daysInMonth (y : Int) : Nat → Nat
  | 1 => 31
  | 2 => if isLeap y then 29 else 28
  | 3 => 31
  | 4 => 30
  | 5 => 31
  | 6 => 30
  | 7 => 31
  | 8 => 31
  | 9 => 30
  | 10 => 31
  | 11 => 30
  | 12 => 31
  | _ => 0

/-- A date of the calendar. -/
def Date.Valid (d : Date) : Prop :=
  1 ≤ d.month ∧ d.month ≤ 12 ∧ 1 ≤ d.day ∧ d.day ≤ daysInMonth d.year d.month

instance (d : Date) : Decidable d.Valid := by unfold Date.Valid; infer_instance

/-- First and last year that `chrono` can represent (`NaiveDate::MIN`, `NaiveDate::MAX`). -/
def chronoMinYear : Int := -262143
def chronoMaxYear : Int := 262142

/-- The year is within `chrono`'s range. -/
def Date.InChrono (d : Date) : Prop := chronoMinYear ≤ d.year ∧ d.year ≤ chronoMaxYear

instance (d : Date) : Decidable d.InChrono := by unfold Date.InChrono; infer_instance

/-- `NaiveDate::from_ymd_opt`. -/
def fromYmd (y : Int) (m d : Nat) : Option Date :=
  if (Date.mk y m d).Valid ∧ (Date.mk y m d).InChrono then some ⟨y, m, d⟩ else none

/-- Chronological order of `NaiveDate` (lexicographic on year, month, day). -/
def Date.lt (a b : Date) : Prop :=
  a.year < b.year ∨ (a.year = b.year ∧ (a.month < b.month ∨ (a.month = b.month ∧ a.day < b.day)))

def Date.le (a b : Date) : Prop := a.lt b ∨ a = b

instance (a b : Date) : Decidable (a.lt b) := by unfold Date.lt; infer_instance
instance (a b : Date) : Decidable (a.le b) := by unfold Date.le; infer_instance

/-- The following day. -/
def Date.next (d : Date) : Date :=
  if d.day < daysInMonth d.year d.month then { d with day := d.day + 1 }
  else if d.month < 12 then { d with month := d.month + 1, day := 1 }
  else ⟨d.year + 1, 1, 1⟩

/-- The preceding day. -/
def Date.prev (d : Date) : Date :=
  if 1 < d.day then { d with day := d.day - 1 }
  else if 1 < d.month then { d with month := d.month - 1, day := daysInMonth d.year (d.month - 1) }
  else ⟨d.year - 1, 12, 31⟩

/-- Apply a function `n` times. -/
def iter (f : Date → Date) : Nat → Date → Date
  | 0, d => d
  | n + 1, d => iter f n (f d)

/-- `n` days later (earlier when `n` is negative). -/
def addDays (d : Date) (n : Int) : Date :=
  if 0 ≤ n then iter Date.next n.toNat d else iter Date.prev (-n).toNat d

/-- `NaiveDate::checked_add_signed(TimeDelta::days(n))`. -/
def checkedAddDays (d : Date) (n : Int) : Option Date :=
  if (addDays d n).InChrono then some (addDays d n) else none

/-- Number of days of the years before `y`. -/
def yearStart (y : Int) : Int := 365 * (y - 1) + (y - 1) / 4 - (y - 1) / 100 + (y - 1) / 400

/-- Number of days of year `y` before month `m` (`m = 13`: the whole year). -/
def daysBefore (y : Int) (m : Nat) : Int :=
  let l : Int := if isLeap y then 1 else 0
  match m with
  | 1 => 0
  | 2 => 31
  | 3 => 59 + l
  | 4 => 90 + l
  | 5 => 120 + l
  | 6 => 151 + l
  | 7 => 181 + l
  | 8 => 212 + l
  | 9 => 243 + l
  | 10 => 273 + l
  | 11 => 304 + l
  | 12 => 334 + l
  | _ => 365 + l

/-- Day count; day 1 is 0001-01-01. `(a - b).num_days()` is `a.dayNumber - b.dayNumber`. -/
def Date.dayNumber (d : Date) : Int := yearStart d.year + daysBefore d.year d.month + d.day

/-! ## Facts -/

theorem isLeap_iff (y : Int) : isLeap y = true ↔ y % 4 = 0 ∧ (y % 100 ≠ 0 ∨ y % 400 = 0) := by
  simp [isLeap]

theorem yearStart_succ (y : Int) :
    yearStart (y + 1) = yearStart y + 365 + (if isLeap y then 1 else 0) := by
  unfold yearStart
  split
  · rename_i h
    rw [isLeap_iff] at h
    omega
  · rename_i h
    rw [isLeap_iff] at h
    omega

theorem yearStart_mono {y z : Int} (h : y ≤ z) : yearStart y ≤ yearStart z := by
  obtain ⟨n, rfl⟩ : ∃ n : Nat, z = y + n := ⟨(z - y).toNat, by omega⟩
  clear h
  induction n with
  | zero => simp
  | succ n ih =>
    have := yearStart_succ (y + n)
    have e : y + ((n + 1 : Nat) : Int) = y + n + 1 := by omega
    rw [e, this]
    split <;> omega

theorem month_cases {m : Nat} (h1 : 1 ≤ m) (h2 : m ≤ 12) :
    m = 1 ∨ m = 2 ∨ m = 3 ∨ m = 4 ∨ m = 5 ∨ m = 6 ∨ m = 7 ∨ m = 8 ∨ m = 9 ∨ m = 10 ∨ m = 11 ∨ m = 12 := by
  omega

theorem daysBefore_succ (y : Int) {m : Nat} (h1 : 1 ≤ m) (h2 : m ≤ 12) :
    daysBefore y (m + 1) = daysBefore y m + daysInMonth y m := by
  rcases month_cases h1 h2 with h | h | h | h | h | h | h | h | h | h | h | h <;> subst h <;>
    simp [daysBefore, daysInMonth] <;> split <;> simp <;> omega

theorem daysInMonth_pos (y : Int) {m : Nat} (h1 : 1 ≤ m) (h2 : m ≤ 12) :
    28 ≤ daysInMonth y m ∧ daysInMonth y m ≤ 31 := by
  rcases month_cases h1 h2 with h | h | h | h | h | h | h | h | h | h | h | h <;> subst h <;>
    simp [daysInMonth] <;> split <;> simp

theorem daysBefore_mono (y : Int) {m n : Nat} (h1 : 1 ≤ m) (hmn : m ≤ n) (h2 : n ≤ 13) :
    daysBefore y m ≤ daysBefore y n := by
  obtain ⟨k, rfl⟩ := Nat.exists_eq_add_of_le hmn
  clear hmn
  induction k with
  | zero => exact Int.le_refl _
  | succ k ih =>
    have := daysBefore_succ y (m := m + k) (by omega) (by omega)
    have := ih (by omega)
    have e : m + (k + 1) = m + k + 1 := by omega
    rw [e]
    omega

theorem daysBefore_13 (y : Int) : daysBefore y 13 = 365 + (if isLeap y then 1 else 0) := rfl

theorem daysBefore_1 (y : Int) : daysBefore y 1 = 0 := rfl

theorem dayNumber_bounds {d : Date} (h : d.Valid) :
    yearStart d.year < d.dayNumber ∧ d.dayNumber ≤ yearStart (d.year + 1) := by
  obtain ⟨h1, h2, h3, h4⟩ := h
  have a := daysBefore_mono d.year (m := 1) (n := d.month) (by omega) h1 (by omega)
  have b := daysBefore_mono d.year (m := d.month + 1) (n := 13) (by omega) (by omega) (by omega)
  have c := daysBefore_succ d.year h1 h2
  have e := yearStart_succ d.year
  rw [daysBefore_1] at a
  rw [daysBefore_13] at b
  unfold Date.dayNumber
  omega

theorem dayNumber_lt {a b : Date} (ha : a.Valid) (hb : b.Valid) (h : a.lt b) :
    a.dayNumber < b.dayNumber := by
  have h1 := dayNumber_bounds ha
  have h2 := dayNumber_bounds hb
  rcases h with h | ⟨h, h'⟩
  · have := yearStart_mono (y := a.year + 1) (z := b.year) (by omega)
    omega
  · rcases h' with h' | ⟨h', h''⟩
    · obtain ⟨p1, p2, p3, p4⟩ := ha
      obtain ⟨q1, q2, q3, q4⟩ := hb
      have b := daysBefore_mono a.year (m := a.month + 1) (n := b.month) (by omega) (by omega) (by omega)
      have c := daysBefore_succ a.year p1 p2
      unfold Date.dayNumber
      rw [← h]
      omega
    · unfold Date.dayNumber
      rw [← h, ← h']
      omega

theorem Date.lt_trichotomy (a b : Date) : a.lt b ∨ a = b ∨ b.lt a := by
  obtain ⟨ay, am, ad⟩ := a
  obtain ⟨by', bm, bd⟩ := b
  simp only [Date.lt, Date.mk.injEq]
  omega

theorem dayNumber_lt_iff {a b : Date} (ha : a.Valid) (hb : b.Valid) :
    a.dayNumber < b.dayNumber ↔ a.lt b := by
  constructor
  · intro h
    rcases Date.lt_trichotomy a b with h' | h' | h'
    · exact h'
    · subst h'; omega
    · have := dayNumber_lt hb ha h'; omega
  · exact dayNumber_lt ha hb

theorem dayNumber_inj {a b : Date} (ha : a.Valid) (hb : b.Valid) (h : a.dayNumber = b.dayNumber) :
    a = b := by
  rcases Date.lt_trichotomy a b with h' | h' | h'
  · have := dayNumber_lt ha hb h'; omega
  · exact h'
  · have := dayNumber_lt hb ha h'; omega

theorem dayNumber_le_iff {a b : Date} (ha : a.Valid) (hb : b.Valid) :
    a.dayNumber ≤ b.dayNumber ↔ a.le b := by
  constructor
  · intro h
    by_cases hl : a.dayNumber < b.dayNumber
    · exact Or.inl ((dayNumber_lt_iff ha hb).1 hl)
    · exact Or.inr (dayNumber_inj ha hb (by omega))
  · rintro (h | h)
    · have := dayNumber_lt ha hb h; omega
    · subst h; omega

theorem next_valid {d : Date} (h : d.Valid) : d.next.Valid := by
  obtain ⟨h1, h2, h3, h4⟩ := h
  unfold Date.next
  split
  · refine ⟨h1, h2, ?_, ?_⟩ <;> simp only <;> omega
  · split
    · refine ⟨?_, ?_, ?_, ?_⟩ <;> simp only
      · omega
      · omega
      · omega
      · have := daysInMonth_pos d.year (m := d.month + 1) (by omega) (by omega); omega
    · refine ⟨?_, ?_, ?_, ?_⟩ <;> simp [daysInMonth]

/-- The day count increases by exactly one from each date to the next. -/
theorem dayNumber_next {d : Date} (h : d.Valid) : d.next.dayNumber = d.dayNumber + 1 := by
  obtain ⟨h1, h2, h3, h4⟩ := h
  unfold Date.next
  split
  · unfold Date.dayNumber; simp only; omega
  · split
    · have := daysBefore_succ d.year h1 h2
      unfold Date.dayNumber; simp only; omega
    · have hm : d.month = 12 := by omega
      have := daysBefore_succ d.year h1 h2
      have e := yearStart_succ d.year
      rw [hm] at this
      simp only [Nat.reduceAdd, daysBefore_13] at this
      unfold Date.dayNumber
      simp only [daysBefore_1]
      rw [hm] at h4 ⊢
      rename_i h5 _
      rw [hm] at h5
      omega

theorem prev_valid {d : Date} (h : d.Valid) : d.prev.Valid := by
  obtain ⟨h1, h2, h3, h4⟩ := h
  unfold Date.prev
  split
  · refine ⟨h1, h2, ?_, ?_⟩ <;> simp only <;> omega
  · split
    · have := daysInMonth_pos d.year (m := d.month - 1) (by omega) (by omega)
      refine ⟨?_, ?_, ?_, ?_⟩ <;> simp only <;> omega
    · refine ⟨?_, ?_, ?_, ?_⟩ <;> simp [daysInMonth]

theorem dayNumber_prev {d : Date} (h : d.Valid) : d.prev.dayNumber = d.dayNumber - 1 := by
  obtain ⟨h1, h2, h3, h4⟩ := h
  unfold Date.prev
  split
  · unfold Date.dayNumber; simp only; omega
  · split
    · have := daysBefore_succ d.year (m := d.month - 1) (by omega) (by omega)
      rw [Nat.sub_add_cancel h1] at this
      unfold Date.dayNumber; simp only; omega
    · have hm : d.month = 1 := by omega
      have e := yearStart_succ (d.year - 1)
      rw [Int.sub_add_cancel] at e
      have := daysBefore_succ (d.year - 1) (m := 12) (by omega) (by omega)
      simp only [Nat.reduceAdd, daysBefore_13, daysInMonth] at this
      unfold Date.dayNumber
      simp only
      rw [hm, daysBefore_1]
      omega

theorem iter_next {d : Date} (h : d.Valid) (n : Nat) :
    (iter Date.next n d).Valid ∧ (iter Date.next n d).dayNumber = d.dayNumber + n := by
  induction n generalizing d with
  | zero => exact ⟨h, by simp [iter]⟩
  | succ n ih =>
    have := ih (next_valid h)
    rw [dayNumber_next h] at this
    refine ⟨this.1, ?_⟩
    simp only [iter]
    omega

theorem iter_prev {d : Date} (h : d.Valid) (n : Nat) :
    (iter Date.prev n d).Valid ∧ (iter Date.prev n d).dayNumber = d.dayNumber - n := by
  induction n generalizing d with
  | zero => exact ⟨h, by simp [iter]⟩
  | succ n ih =>
    have := ih (prev_valid h)
    rw [dayNumber_prev h] at this
    refine ⟨this.1, ?_⟩
    simp only [iter]
    omega

theorem addDays_spec {d : Date} (h : d.Valid) (n : Int) :
    (addDays d n).Valid ∧ (addDays d n).dayNumber = d.dayNumber + n := by
  unfold addDays
  split
  · have := iter_next h n.toNat
    refine ⟨this.1, ?_⟩
    rw [this.2]; omega
  · have := iter_prev h (-n).toNat
    refine ⟨this.1, ?_⟩
    rw [this.2]; omega

/-- A year is reached exactly by the day numbers of its days. -/
theorem year_le_of_dayNumber {d : Date} (h : d.Valid) {y : Int} (hy : d.dayNumber ≤ yearStart (y + 1)) :
    d.year ≤ y := by
  have := dayNumber_bounds h
  by_cases hc : d.year ≤ y
  · exact hc
  · have := yearStart_mono (y := y + 1) (z := d.year) (by omega)
    omega

theorem le_year_of_dayNumber {d : Date} (h : d.Valid) {y : Int} (hy : yearStart y < d.dayNumber) :
    y ≤ d.year := by
  have := dayNumber_bounds h
  by_cases hc : y ≤ d.year
  · exact hc
  · have := yearStart_mono (y := d.year + 1) (z := y) (by omega)
    omega

/-- Adding days succeeds whenever the result stays within `chrono`'s years. -/
theorem checkedAddDays_some {d : Date} (h : d.Valid) {n : Int}
    (h1 : yearStart chronoMinYear < d.dayNumber + n)
    (h2 : d.dayNumber + n ≤ yearStart (chronoMaxYear + 1)) :
    ∃ r, checkedAddDays d n = some r ∧ r.Valid ∧ r.dayNumber = d.dayNumber + n := by
  have hs := addDays_spec h n
  refine ⟨addDays d n, ?_, hs⟩
  unfold checkedAddDays
  rw [if_pos]
  refine ⟨le_year_of_dayNumber hs.1 (by rw [hs.2]; exact h1),
    year_le_of_dayNumber hs.1 (by rw [hs.2]; exact h2)⟩

theorem checkedAddDays_valid {d r : Date} (h : d.Valid) {n : Int} (hr : checkedAddDays d n = some r) :
    r.Valid ∧ r.dayNumber = d.dayNumber + n ∧ r.InChrono := by
  have hs := addDays_spec h n
  unfold checkedAddDays at hr
  split at hr
  · cases hr
    exact ⟨hs.1, hs.2, by assumption⟩
  · cases hr

end Verif.Dates

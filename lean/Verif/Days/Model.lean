import Mathlib.Data.Rat.Defs
import Mathlib.Algebra.Order.Field.Rat
import Verif.Dates.Builtins

/-!
# Day counts, week numbers and coupon dates

Model of
* `/repo/crates/formualizer-eval/src/builtins/datetime/date_parts.rs`: `DAYS360` (28-86,
  230-265), `YEARFRAC` (340-420), `ISOWEEKNUM` (480-490),
* `.../datetime/weekday_workday.rs` 238-331: `WEEKNUM`,
* `.../financial/bonds.rs` 46-228: the counting of days and the coupon dates.

Dates and the conversion of serials are those of `Verif.Dates`. Numbers are exact
rationals where the code uses `f64`.
-/

namespace Verif.Days

open Verif.Dates

/-- `is_last_day_of_month`: date_parts.rs 36-38, bonds.rs 53-56. The last date of `chrono`
is not reached. -/
def isLast (d : Date) : Bool := d.next.month ≠ d.month

/-- `days_in_year`: date_parts.rs 28-34; the same in bonds.rs 48-50 with 366 and 365. -/
def daysInYear (y : Int) : Int := if isLeap y then 366 else 365

/-- `next_month`: date_parts.rs 40-46. -/
def nextMonth (y : Int) (m : Nat) : Int × Nat := if m = 12 then (y + 1, 1) else (y, m + 1)

/-- The last line of the 30/360 counts: date_parts.rs 83-85, bonds.rs 96. -/
def count360 (sy : Int) (sm sd : Nat) (ey : Int) (em ed : Nat) : Int :=
  360 * (ey - sy) + 30 * ((em : Int) - sm) + ((ed : Int) - sd)

/-- The day 31 counts as 30: date_parts.rs 57-63, bonds.rs 109-114. -/
def cap30 (d : Nat) : Nat := if d = 31 then 30 else d

/-- The end of the US count: date_parts.rs 69-79. -/
def endUS (sd : Nat) (b : Date) : Int × Nat × Nat :=
  if b.day = 31 ∨ isLast b = true then
    if sd < 30 then ((nextMonth b.year b.month).1, (nextMonth b.year b.month).2, 1) else (b.year, b.month, 30)
  else (b.year, b.month, b.day)

/-- The first day of the US count: date_parts.rs 65-67. -/
def startUS (a : Date) : Nat := if a.day = 31 ∨ isLast a = true then 30 else a.day

/-- `days_360_between`: date_parts.rs 48-86. -/
def days360 (a b : Date) (european : Bool) : Int :=
  if european then count360 a.year a.month (cap30 a.day) b.year b.month (cap30 b.day)
  else
    let e := endUS (startUS a) b
    count360 a.year a.month (startUS a) e.1 e.2.1 e.2.2

/-- Days from one date to another: `(e - s).num_days()`. -/
def actual (a b : Date) : Int := b.dayNumber - a.dayNumber

/-- The years strictly between two years are added one by one: date_parts.rs 399-401. -/
def addYears : Nat → Rat → Rat
  | 0, out => out
  | n + 1, out => addYears n (out + 1)

/-- Basis 1: date_parts.rs 391-404, bonds.rs 146-162. -/
def actAct (s e : Date) : Rat :=
  if s.year = e.year then (actual s e : Rat) / daysInYear s.year
  else
    addYears (e.year - (s.year + 1)).toNat ((actual s ⟨s.year + 1, 1, 1⟩ : Rat) / daysInYear s.year)
      + (actual ⟨e.year, 1, 1⟩ e : Rat) / daysInYear e.year

/-- The fraction for dates in order: date_parts.rs 389-409. -/
def fraction (s e : Date) (basis : Int) : Rat :=
  if basis = 0 then (days360 s e false : Rat) / 360
  else if basis = 1 then actAct s e
  else if basis = 2 then (actual s e : Rat) / 360
  else if basis = 3 then (actual s e : Rat) / 365
  else (days360 s e true : Rat) / 360

/-- `YEARFRAC` on two dates: date_parts.rs 374-413. `none` is `#NUM!`. -/
def yearfrac (a b : Date) (basis : Int) : Option Rat :=
  if ¬(0 ≤ basis ∧ basis ≤ 4) then none
  else if a = b then some 0
  else if a.le b then some (1 * fraction a b basis) else some (-1 * fraction b a basis)

/-! ## Weeks -/

/-- `chrono`'s `iso_week().week()`, the week of ISO 8601: the place of the Thursday of the
same week among the Thursdays of its year. Trusted description of the library. -/
def isoWeek (d : Date) : Int :=
  let thursday := addDays d (3 - d.weekdayFromMonday)
  (thursday.dayNumber - yearStart thursday.year - 1) / 7 + 1

/-- `ISOWEEKNUM`: date_parts.rs 483-488. -/
def isoweeknum (sys : System) (s : Serial) : Option Int := (tryDate sys s).map isoWeek

/-- A week number or an error. -/
inductive Week where
  | num (n : Int)
  | error
deriving DecidableEq

/-- The Thursday of the ISO week of a serial: weekday_workday.rs 266-271. -/
def thursday (sys : System) (n : Int) : Int :=
  n - (if weekdayIndex sys n < 2 then weekdayIndex sys n + 6 else weekdayIndex sys n - 1) + 4

/-- The first serial: weekday_workday.rs 276-279. -/
def firstSerial : System → Int
  | .excel1900 => 1
  | .excel1904 => 0

/-- The week in which the day before lies: weekday_workday.rs 276-279. -/
def weekBefore : System → Int
  | .excel1900 => 52
  | .excel1904 => 53

/-- ISO weeks by serial: weekday_workday.rs 263-296. -/
def weekISO (sys : System) (n : Int) : Week :=
  if thursday sys n < firstSerial sys then .num (weekBefore sys)
  else
    match tryDate sys (whole (thursday sys n)) with
    | none => .error
    | some t => .num ((thursday sys n - dateToSerial sys ⟨t.year, 1, 1⟩).tdiv 7 + 1)

/-- The first day of the week: weekday_workday.rs 300-313. -/
def weekStart (rt : Int) : Option Int :=
  if rt = 1 ∨ rt = 17 then some 1
  else if rt = 2 ∨ rt = 11 then some 2
  else if rt = 12 then some 3
  else if rt = 13 then some 4
  else if rt = 14 then some 5
  else if rt = 15 then some 6
  else if rt = 16 then some 0
  else none

/-- The week by the first of January: weekday_workday.rs 315-331. -/
def weekPlain (sys : System) (s : Serial) (n start : Int) : Week :=
  match tryDate sys s with
  | none => .error
  | some d =>
    let jan := dateToSerial sys ⟨d.year, 1, 1⟩
    let offset := (weekdayIndex sys jan - start + 7).tmod 7
    .num ((n - jan + 1 + offset - 1).tdiv 7 + 1)

/-- `WEEKNUM` on a finite number: weekday_workday.rs 238-332. -/
def weeknum (sys : System) (f : Frac) (rt : Int) : Week :=
  let n := f.trunc
  if n < 0 then .error
  else if sys = .excel1900 ∧ n = 0 then .num 0
  else if rt = 21 then weekISO sys n
  else
    match weekStart rt with
    | none => .error
    | some start => weekPlain sys (some f) n start

/-! ## Bonds -/

/-- `days_30_360_us` of the bonds: bonds.rs 70-97. -/
def us30 (a b : Date) : Int :=
  let aFeb := a.month = 2 ∧ isLast a = true
  let bFeb := b.month = 2 ∧ isLast b = true
  let ed := if aFeb ∧ bFeb then 30 else b.day
  let sd := if aFeb then 30 else a.day
  let ed := if ed = 31 ∧ 30 ≤ sd then 30 else ed
  let sd := if sd = 31 then 30 else sd
  count360 a.year a.month sd b.year b.month ed

/-- `days_30_360_eu` of the bonds: bonds.rs 100-117. -/
def eu30 (a b : Date) : Int := count360 a.year a.month (cap30 a.day) b.year b.month (cap30 b.day)

/-- `days_between`: bonds.rs 59-67. -/
def daysBetween (a b : Date) (basis : Int) : Int :=
  if basis = 0 then us30 a b else if basis = 4 then eu30 a b else actual a b

/-- `year_fraction` for dates in order: bonds.rs 139-163. -/
def bondFraction (s e : Date) (basis : Int) : Rat :=
  if basis = 0 ∨ basis = 4 then (daysBetween s e basis : Rat) / 360
  else if basis = 2 then (actual s e : Rat) / 360
  else if basis = 3 then (actual s e : Rat) / 365
  else actAct s e

/-- `year_fraction`: bonds.rs 124-166. -/
def yearFraction (a b : Date) (basis : Int) : Rat :=
  if a = b then 0 else if a.le b then 1 * bondFraction a b basis else -1 * bondFraction b a basis

/-- The first day from a given one downwards that the month has: bonds.rs 195-206. -/
def fit (y : Int) (m : Nat) : Nat → Date
  | 0 => ⟨y, m, 1⟩
  | d + 1 =>
    match fromYmd y m (d + 1) with
    | some r => r
    | none => fit y m d

/-- `add_months`: bonds.rs 189-207. The years are positive, so that the division rounds
down. -/
def addMonths (d : Date) (k : Int) : Date :=
  let total := d.year * 12 + d.month - 1 + k
  fit (total.tdiv 12) (total.tmod 12 + 1).toNat d.day

/-- `coupon_date_before`: bonds.rs 169-178. The first argument bounds the number of
steps. -/
def before (settlement : Date) (m : Nat) : Nat → Date → Date
  | 0, c => c
  | n + 1, c => if settlement.le c then before settlement m n (addMonths c (-m)) else c

/-- `coupon_date_after`: bonds.rs 181-185. -/
def after (settlement : Date) (m fuel : Nat) (maturity : Date) : Date := addMonths (before settlement m fuel maturity) m

/-- The loop of `coupons_remaining`: bonds.rs 213-219. -/
def remainingLoop (maturity : Date) (m : Nat) : Nat → Date → Nat
  | 0, _ => 0
  | n + 1, c => if c.le maturity then remainingLoop maturity m n (addMonths c m) + 1 else 0

/-- `coupons_remaining`: bonds.rs 210-220. -/
def remaining (settlement : Date) (m fuel : Nat) (maturity : Date) : Nat :=
  remainingLoop maturity m fuel (after settlement m fuel maturity)

/-- The date from which `ACCRINT` counts: bonds.rs 350-364. -/
def accrualStart (issue first settlement : Date) (m fuel : Nat) (fromIssue : Bool) : Date :=
  if fromIssue then issue
  else
    let prev := before settlement m fuel first
    if prev.lt issue then issue else prev

end Verif.Days

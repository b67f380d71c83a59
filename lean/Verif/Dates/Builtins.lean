import Verif.Dates.Model

/-!
# Model of the date worksheet functions

`crates/formualizer-eval/src/builtins/datetime/{date_time,serial,edate_eomonth,weekday_workday}.rs`.
Arguments are taken after coercion: whole numbers (`i32`/`i64`) or serials.  Machine arithmetic wraps as in a
release build (a debug build panics instead); `wrap32`/`wrap64` mark every place where this can be seen.
-/

namespace Verif.Dates

/-- Two's complement wrap-around to 32 bits. -/
def wrap32 (n : Int) : Int := (n + 2147483648) % 4294967296 - 2147483648

/-- Two's complement wrap-around to 64 bits. -/
def wrap64 (n : Int) : Int := (n + 9223372036854775808) % 18446744073709551616 - 9223372036854775808

/-- `create_date_normalized`, serial.rs:126-136. Rust's `/` and `%` truncate toward zero; a negative month
number becomes a huge `u32`, which `from_ymd_opt` refuses. -/
def createDateNormalized (year month day : Int) : Option Date :=
  let total := wrap32 (wrap32 (wrap32 (year * 12) + month) - 1)
  let y := total.tdiv 12
  let m := total.tmod 12 + 1
  if m < 0 then none
  else
    match fromYmd y m.toNat 1 with
    | none => none
    | some first => checkedAddDays first (wrap32 (day - 1))

/-- `DATE`, date_time.rs:102-127. -/
def dateFn (sys : System) (year month day : Int) : Option Int :=
  let y := if 0 ≤ year ∧ year ≤ 1899 then year + 1900 else year
  match createDateNormalized y month day with
  | none => none
  | some d => some (dateToSerial sys d)

/-- `TIME`, date_time.rs:202-237, as the resulting number of seconds of the day (the function returns it
divided by 86400). -/
def timeFn (hour minute second : Int) : Option Int :=
  let total := wrap32 (wrap32 (wrap32 (hour * 3600) + wrap32 (minute * 60)) + second)
  let norm :=
    if total < 0 then
      let daysBack := (wrap32 (wrap32 (-total) - 1)).tdiv 86400 + 1
      wrap32 (total + wrap32 (daysBack * 86400))
    else total
  let secs := norm.tmod 86400
  if secs < 0 then none else some secs

/-- `last_day_of_month`, edate_eomonth.rs:228-236. -/
def lastDayOfMonth (y : Int) (m : Nat) : Nat :=
  if (fromYmd y m 31).isSome then 31
  else if (fromYmd y m 30).isSome then 30
  else if (fromYmd y m 29).isSome then 29
  else if (fromYmd y m 28).isSome then 28
  else 28

/-- The year and month `n` months after the month of `d`, edate_eomonth.rs:113-119. -/
def targetMonth (d : Date) (n : Int) : Int × Nat :=
  let tm := d.year * 12 + d.month + n - 1
  (tm / 12, (tm % 12 + 1).toNat)

/-- `EDATE`, edate_eomonth.rs:102-132. -/
def edateFn (sys : System) (s : Serial) (months : Int) : Option Int :=
  match tryDate sys s with
  | none => none
  | some d =>
    let t := targetMonth d months
    match fromYmd t.1 t.2 (min d.day (lastDayOfMonth t.1 t.2)) with
    | none => none
    | some r => some (dateToSerial sys r)

/-- `EOMONTH`, edate_eomonth.rs:197-226. -/
def eomonthFn (sys : System) (s : Serial) (months : Int) : Option Int :=
  match tryDate sys s with
  | none => none
  | some d =>
    let t := targetMonth d months
    match fromYmd t.1 t.2 (lastDayOfMonth t.1 t.2) with
    | none => none
    | some r => some (dateToSerial sys r)

/-- `weekday_index_from_serial`, weekday_workday.rs:24-29: 0 = Saturday .. 6 = Friday. -/
def weekdayIndex (sys : System) (serial : Int) : Int :=
  match sys with
  | .excel1900 => serial % 7
  | .excel1904 => (serial + 1462) % 7

/-- `WEEKDAY`, weekday_workday.rs:122-168. -/
def weekdayFn (sys : System) (serial : Int) (returnType : Int) : Option Int :=
  if serial < 0 then none
  else
    let d := weekdayIndex sys serial
    let code : Option (Int × Bool) :=
      if returnType = 1 ∨ returnType = 17 then some (1, false)
      else if returnType = 2 ∨ returnType = 11 then some (2, false)
      else if returnType = 3 then some (2, true)
      else if returnType = 12 then some (3, false)
      else if returnType = 13 then some (4, false)
      else if returnType = 14 then some (5, false)
      else if returnType = 15 then some (6, false)
      else if returnType = 16 then some (0, false)
      else none
    match code with
    | none => none
    | some (startD, zero) =>
      if zero then some ((d - startD + 7).tmod 7) else some ((d - startD + 7).tmod 7 + 1)

/-- `chrono`'s `weekday().num_days_from_monday()`: 0001-01-01 was a Monday. -/
def Date.weekdayFromMonday (d : Date) : Nat := ((d.dayNumber - 1) % 7).toNat

/-- `DATEDIF` with unit "Y", weekday_workday.rs:427-434. -/
def datedifY (a b : Date) : Int :=
  let years := b.year - a.year
  if b.month < a.month ∨ (b.month = a.month ∧ b.day < a.day) then years - 1 else years

/-- `DATEDIF` with unit "M", weekday_workday.rs:435-443. -/
def datedifM (a b : Date) : Int :=
  let months := (b.year - a.year) * 12 + ((b.month : Int) - a.month)
  if b.day < a.day then months - 1 else months

/-- `DATEDIF` with unit "D", weekday_workday.rs:444-447. -/
def datedifD (a b : Date) : Int := b.dayNumber - a.dayNumber

/-- `DATEDIF` with unit "MD", weekday_workday.rs:448-477: the length of the month before `b`'s is computed
as the distance between two first-of-month dates. -/
def datedifMD (a b : Date) : Int :=
  let days : Int := (b.day : Int) - a.day
  if days < 0 then
    let pm : Date := if b.month = 1 then ⟨b.year - 1, 12, 1⟩ else ⟨b.year, b.month - 1, 1⟩
    let nm : Date := ⟨if pm.month = 12 then pm.year + 1 else pm.year, if pm.month = 12 then 1 else pm.month + 1, 1⟩
    days + (nm.dayNumber - pm.dayNumber)
  else days

/-- `DATEDIF` with unit "YM", weekday_workday.rs:478-488. -/
def datedifYM (a b : Date) : Int :=
  let m1 : Int := (b.month : Int) - a.month
  let m2 := if b.day < a.day then m1 - 1 else m1
  if m2 < 0 then m2 + 12 else m2

/-- `NETWORKDAYS`'s and `NETWORKDAYS.INTL`'s loop, weekday_workday.rs:763-770, 993-1000: `n` is the number
of days still to visit. `work` says whether a date is neither a weekend day nor a holiday. -/
def countWork (work : Date → Bool) : Nat → Date → Int
  | 0, _ => 0
  | n + 1, d => (if work d then 1 else 0) + countWork work n d.next

/-- `NETWORKDAYS`, weekday_workday.rs:742-772. -/
def networkdays (work : Date → Bool) (a b : Date) : Int :=
  let lo := if a.le b then a else b
  let hi := if a.le b then b else a
  let sign : Int := if a.le b then 1 else -1
  countWork work (hi.dayNumber - lo.dayNumber + 1).toNat lo * sign

/-- Result of the `WORKDAY` loop. -/
inductive Loop
  | outOfFuel
  | numError
  | done (d : Date)
deriving DecidableEq, Repr

/-- `succ_opt` / `pred_opt`. -/
def step (forward : Bool) (d : Date) : Option Date :=
  let r := if forward then d.next else d.prev
  if r.InChrono then some r else none

/-- `WORKDAY`'s loop, weekday_workday.rs:855-865, 1107-1118. The fuel bounds the number of iterations; it is
shown below that the loop ends within the number of days `chrono` can represent. -/
def workdayLoop (work : Date → Bool) (forward : Bool) : Nat → Date → Int → Loop
  | 0, _, _ => .outOfFuel
  | fuel + 1, d, remaining =>
    if remaining > 0 then
      match step forward d with
      | none => .numError
      | some d' => workdayLoop work forward fuel d' (if work d' then remaining - 1 else remaining)
    else .done d

/-- `WORKDAY`, weekday_workday.rs:840-870; `i64::abs` wraps at the minimum. -/
def workday (work : Date → Bool) (fuel : Nat) (start : Date) (days : Int) : Loop :=
  workdayLoop work (decide (days ≥ 0)) fuel start (wrap64 days.natAbs)

end Verif.Dates

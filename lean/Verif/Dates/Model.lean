import Verif.Dates.Calendar

/-!
# Model of `crates/formualizer-common/src/date_serial.rs`

A serial number is an exact fraction `num / den`, or a value that is not finite.  Every finite `f64` is such
a fraction.  The single floating point operation whose rounding is not modelled is the product
`serial.fract() * 86400.0`; it is taken as exact in `roundSecs`, and `normalizedParts` takes its rounded value
as a parameter so that the carry logic is also proved for any value the multiplication may give.
-/

namespace Verif.Dates

/-- `DateSystem` (`formualizer-common/src/value.rs`). -/
inductive System
  | excel1900
  | excel1904
deriving DecidableEq, Repr

/-- A finite number as a fraction. -/
structure Frac where
  num : Int
  den : Nat
  pos : 0 < den
deriving DecidableEq, Repr

/-- An `f64`: `none` for NaN and the infinities. -/
abbrev Serial := Option Frac

/-- A whole number as a serial. -/
def whole (n : Int) : Serial := some ⟨n, 1, by decide⟩

/-- `EXCEL_1900_EPOCH`, date_serial.rs:13. -/
def epoch1900 : Date := ⟨1899, 12, 31⟩
/-- `EXCEL_1904_EPOCH`, date_serial.rs:14. -/
def epoch1904 : Date := ⟨1904, 1, 1⟩
/-- `EXCEL_MAX_DATE`, date_serial.rs:15. -/
def maxDate : Date := ⟨9999, 12, 31⟩
/-- `EXCEL_1900_PHANTOM_CUTOFF`, date_serial.rs:16. -/
def phantomCutoff : Date := ⟨1900, 3, 1⟩
/-- `EXCEL_1900_PHANTOM_PREVIOUS_DATE`, date_serial.rs:17. -/
def phantomPrevious : Date := ⟨1900, 2, 28⟩

/-- The first date of a system. -/
def epoch : System → Date
  | .excel1900 => epoch1900
  | .excel1904 => epoch1904

/-- `date_to_serial_for`, date_serial.rs:33-45. The result is a whole number. -/
def dateToSerial (sys : System) (d : Date) : Int :=
  match sys with
  | .excel1900 =>
    let days := d.dayNumber - epoch1900.dayNumber
    if phantomCutoff.le d then days + 1 else days
  | .excel1904 => d.dayNumber - epoch1904.dayNumber

/-- `datetime_to_serial_for`, date_serial.rs:51-61, exact. A time is its seconds from midnight. -/
def datetimeToSerial (sys : System) (d : Date) (t : Nat) : Serial :=
  some ⟨dateToSerial sys d * 86400 + t, 86400, by decide⟩

/-- `max_excel_serial_for`, date_serial.rs:193-195. -/
def maxSerial (sys : System) : Int := dateToSerial sys maxDate

/-- `f64::trunc`. -/
def Frac.trunc (s : Frac) : Int := s.num.tdiv s.den

/-- `(serial.fract() * 86400.0).round()`, exact; halves are rounded away from zero. -/
def Frac.roundSecs (s : Frac) : Int :=
  let r : Int := (s.num.natAbs % s.den : Nat)
  let m := (2 * (r * 86400) + s.den) / (2 * s.den)
  if s.num < 0 then -m else m

/-- `validate_excel_serial`, date_serial.rs:198-203; `true` is `Ok`. -/
def validate (sys : System) : Serial → Bool
  | none => false
  | some s => !(decide (s.num < 0) || decide (s.trunc > maxSerial sys))

/-- The carry logic of `normalized_serial_parts`, date_serial.rs:205-224. `secs` is the value of
`(serial.fract() * 86400.0).round()`. The `checked_add(1)` cannot fail below `maxSerial`. -/
def normalizedParts (sys : System) (s : Serial) (secs : Frac → Int) : Option (Int × Nat) :=
  if validate sys s then
    match s with
    | none => none
    | some f =>
      let wholeDays := f.trunc
      let total := secs f
      if total = 86400 then
        if wholeDays + 1 > maxSerial sys then none else some (wholeDays + 1, 0)
      else if 0 ≤ total ∧ total < 86400 then some (wholeDays, total.toNat)
      else none
  else none

/-- `date_for_whole_serial`, date_serial.rs:226-245. -/
def dateForWhole (sys : System) (n : Int) : Option Date :=
  match sys with
  | .excel1900 =>
    if n = 60 then some phantomPrevious
    else
      let offset := if n < 60 then n else n - 1
      checkedAddDays epoch1900 offset
  | .excel1904 => checkedAddDays epoch1904 n

/-- `try_serial_to_date_for`, date_serial.rs:252-255. -/
def tryDate (sys : System) (s : Serial) : Option Date :=
  if validate sys s then
    match s with
    | none => none
    | some f => dateForWhole sys f.trunc
  else none

/-- `try_serial_to_datetime_for`, date_serial.rs:263-270. -/
def tryDatetime (sys : System) (s : Serial) : Option (Date × Nat) :=
  match normalizedParts sys s Frac.roundSecs with
  | none => none
  | some (w, t) =>
    match dateForWhole sys w with
    | none => none
    | some d => some (d, t)

/-- `try_serial_to_display_date_parts_for`, date_serial.rs:277-306; the parts are year, month, day. -/
def displayParts (sys : System) (s : Serial) : Option (Int × Nat × Nat) :=
  if validate sys s then
    match s with
    | none => none
    | some f =>
      if sys = .excel1900 ∧ f.trunc = 0 then some (1900, 1, 0)
      else if sys = .excel1900 ∧ f.trunc = 60 then some (1900, 2, 29)
      else
        match tryDate sys (whole f.trunc) with
        | none => none
        | some d => some (d.year, d.month, d.day)
  else none

/-- `legacy_serial_to_datetime`, date_serial.rs:313-330, on finite input; `none` is a panic of the date
addition. -/
def legacyDatetime (f : Frac) : Option (Date × Nat) :=
  let days := f.trunc
  let secs := f.roundSecs
  let offset := if days = 60 then 59 else if days < 60 then days else days - 1
  match checkedAddDays epoch1900 offset with
  | none => none
  | some d => some (d, (secs % 86400).toNat)

/-- `serial_to_datetime`, date_serial.rs:338-341, on finite input; this is how the value store decodes a
stored date or datetime (`formualizer-eval/src/engine/arena/data_store.rs:266-275`). -/
def serialToDatetime (f : Frac) : Option (Date × Nat) :=
  match tryDatetime .excel1900 (some f) with
  | some r => some r
  | none => legacyDatetime f

end Verif.Dates

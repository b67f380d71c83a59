import Mathlib.Tactic.Linarith
import Mathlib.Tactic.Ring
import Mathlib.Tactic.SplitIfs
import Mathlib.Tactic.FieldSimp
import Mathlib.Algebra.BigOperators.Intervals
import Mathlib.Algebra.BigOperators.Ring.Finset
import Verif.Days.Model
import Verif.Dates.Props
import Verif.Dates.BuiltinProps

/-!
# DAYS360 and YEARFRAC
-/

namespace Verif.Days

open Verif.Dates

theorem isLast_iff {d : Date} (h : d.Valid) : isLast d = true ↔ d.day = daysInMonth d.year d.month := by
  obtain ⟨h1, h2, h3, h4⟩ := h
  unfold isLast Date.next
  by_cases h5 : d.day < daysInMonth d.year d.month
  · rw [if_pos h5]
    simp only [ne_eq, not_true_eq_false, decide_false, Bool.false_eq_true, false_iff]
    omega
  · rw [if_neg h5]
    by_cases h6 : d.month < 12
    · rw [if_pos h6]
      simp only [ne_eq, decide_not, Bool.not_eq_true', decide_eq_false_iff_not]
      omega
    · rw [if_neg h6]
      simp only [ne_eq, decide_not, Bool.not_eq_true', decide_eq_false_iff_not]
      omega

theorem month_length (y : Int) {m : Nat} (h1 : 1 ≤ m) (h2 : m ≤ 12) :
    28 ≤ daysInMonth y m ∧ daysInMonth y m ≤ 31 ∧ (m ≠ 2 → 30 ≤ daysInMonth y m) ∧ (m = 2 → daysInMonth y m ≤ 29) := by
  rcases month_cases h1 h2 with h | h | h | h | h | h | h | h | h | h | h | h <;> subst h <;>
    (simp only [daysInMonth]; try split) <;> decide

/-- **C109** (1): the European count adds up over any dates, changes its sign with them,
and is the count the functions for bonds use. -/
theorem european_count (a b c : Date) :
    days360 a b true + days360 b c true = days360 a c true ∧ days360 b a true = -days360 a b true ∧
      days360 a b true = eu30 a b := by
  unfold days360 eu30 count360
  simp only [if_true]
  refine ⟨by ring, by ring, trivial⟩

/-- The European count is the difference of the dates in a calendar whose months have thirty
days, a 31st being the 30th. -/
theorem european_value {a b : Date} (ha : a.Valid) (hb : b.Valid) :
    days360 a b true =
      (360 * b.year + 30 * (b.month : Int) + min b.day 30) - (360 * a.year + 30 * (a.month : Int) + min a.day 30) := by
  have la := (month_length a.year ha.1 ha.2.1).2.1
  have lb := (month_length b.year hb.1 hb.2.1).2.1
  have a4 := ha.2.2.2
  have b4 := hb.2.2.2
  unfold days360 count360 cap30
  rw [if_pos rfl]
  split_ifs <;> omega

/-- The place of a date in a calendar in which all months have thirty days. -/
theorem days360_months {a b : Date} (ha : a.Valid) (hb : b.Valid) (h : a.day = b.day) (h27 : a.day ≤ 27)
    (european : Bool) : days360 a b european = 30 * (b.monthIndex - a.monthIndex) := by
  have la := (month_length a.year ha.1 ha.2.1).1
  have lb := (month_length b.year hb.1 hb.2.1).1
  have na : ¬isLast a = true := by rw [isLast_iff ha]; omega
  have nb : ¬isLast b = true := by rw [isLast_iff hb]; omega
  unfold days360 Date.monthIndex
  cases european with
  | true => simp only [if_true, count360, cap30]; split <;> split <;> omega
  | false =>
    have sa : startUS a = a.day := by unfold startUS; rw [if_neg]; rintro (h | h); omega; exact na h
    have sb : endUS a.day b = (b.year, b.month, b.day) := by
      unfold endUS; rw [if_neg]; rintro (h | h); omega; exact nb h
    simp only [Bool.false_eq_true, if_false, sa, sb, count360]
    omega

/-- The end of the US count as one number. -/
theorem endUS_value {b : Date} (hb : b.Valid) (sd : Nat) :
    360 * (endUS sd b).1 + 30 * ((endUS sd b).2.1 : Int) + (endUS sd b).2.2 =
      if b.day = 31 ∨ isLast b = true then
        (if sd < 30 then 360 * b.year + 30 * (b.month : Int) + 31 else 360 * b.year + 30 * (b.month : Int) + 30)
      else 360 * b.year + 30 * (b.month : Int) + b.day := by
  unfold endUS
  split
  · split
    · unfold nextMonth
      have := hb.2.1
      split
      · simp only; push_cast; omega
      · simp only; push_cast; omega
    · rfl
  · rfl

theorem days360_us (a : Date) {b : Date} (hb : b.Valid) :
    days360 a b false =
      (if b.day = 31 ∨ isLast b = true then
        (if startUS a < 30 then 360 * b.year + 30 * (b.month : Int) + 31 else 360 * b.year + 30 * (b.month : Int) + 30)
      else 360 * b.year + 30 * (b.month : Int) + b.day) - (360 * a.year + 30 * (a.month : Int) + startUS a) := by
  rw [← endUS_value hb (startUS a)]
  unfold days360 count360
  simp only [Bool.false_eq_true, if_false]
  ring

/-- **C109** (2): a later end never lowers the count, and dates in order count zero or
more, by either method. -/
theorem days360_mono {a b c : Date} (ha : a.Valid) (hb : b.Valid) (hc : c.Valid) (h : b.le c) (european : Bool) :
    days360 a b european ≤ days360 a c european ∧ (a.le b → 0 ≤ days360 a b european) := by
  have lb := month_length b.year hb.1 hb.2.1
  have lc := month_length c.year hc.1 hc.2.1
  have la := month_length a.year ha.1 ha.2.1
  have b4 := hb.2.2.2
  have c4 := hc.2.2.2
  have a4 := ha.2.2.2
  have b3 := hb.2.2.1
  have c3 := hc.2.2.1
  have b1 := hb.1
  have b2 := hb.2.1
  have c1 := hc.1
  have c2 := hc.2.1
  have a1 := ha.1
  have a2 := ha.2.1
  cases european with
  | true =>
    simp only [days360, if_true, count360, cap30]
    constructor
    · rcases h with h | h
      · unfold Date.lt at h
        split <;> split <;> split <;> omega
      · subst h; exact le_refl _
    · intro h
      rcases h with h | h
      · unfold Date.lt at h
        split <;> split <;> omega
      · subst h; split <;> omega
  | false =>
    rw [days360_us a hb, days360_us a hc]
    constructor
    · rcases h with h | h
      · simp only [isLast_iff hb, isLast_iff hc]
        have key : (b.day = 31 ∨ b.day = daysInMonth b.year b.month) → b.year = c.year → b.month = c.month → False := by
          intro h1 h2 h3
          rw [h2, h3] at h1
          unfold Date.lt at h
          omega
        unfold Date.lt at h
        split <;> split <;> (try split) <;> omega
      · subst h; exact le_refl _
    · intro h
      rcases h with h | h
      · have key : (a.day = 31 ∨ a.day = daysInMonth a.year a.month) → a.year = b.year → a.month = b.month → False := by
          intro h1 h2 h3
          rw [h2, h3] at h1
          unfold Date.lt at h
          omega
        unfold startUS
        simp only [isLast_iff hb, isLast_iff ha]
        unfold Date.lt at h
        split <;> (try split) <;> (try split) <;> omega
      · subst h
        unfold startUS
        simp only [isLast_iff ha]
        split <;> (try split) <;> omega

/-- **C109** (3): by the US method exchanging the dates does not just change the sign, and
parts do not add up. -/
theorem us_count_fails :
    days360 ⟨2023, 1, 15⟩ ⟨2023, 1, 31⟩ false = 16 ∧ days360 ⟨2023, 1, 31⟩ ⟨2023, 1, 15⟩ false = -15 ∧
      days360 ⟨2023, 1, 31⟩ ⟨2023, 2, 28⟩ false = 30 ∧
      days360 ⟨2023, 1, 15⟩ ⟨2023, 2, 28⟩ false = 46 ∧
      days360 ⟨2024, 2, 28⟩ ⟨2024, 2, 29⟩ false + days360 ⟨2024, 2, 29⟩ ⟨2024, 3, 1⟩ false ≠
        days360 ⟨2024, 2, 28⟩ ⟨2024, 3, 1⟩ false := by decide

/-- **C109** (4): the functions for dates and those for bonds count alike by the US method
exactly when the last date is not the last of its month, or is a 31st, or the first date
counts as a 30th and a last day of February meets another one. -/
theorem us_agree_iff {a b : Date} (ha : a.Valid) (hb : b.Valid) :
    days360 a b false = us30 a b ↔
      (b.day = daysInMonth b.year b.month → b.day = 31 ∨
        ((30 ≤ a.day ∨ a.day = daysInMonth a.year a.month) ∧ (b.month = 2 → a.month = 2))) := by
  have lb := month_length b.year hb.1 hb.2.1
  have la := month_length a.year ha.1 ha.2.1
  have b4 := hb.2.2.2
  have a4 := ha.2.2.2
  have b3 := hb.2.2.1
  have a3 := ha.2.2.1
  rw [days360_us a hb]
  unfold us30 count360 startUS
  simp only [isLast_iff hb, isLast_iff ha]
  generalize daysInMonth b.year b.month = B at *
  generalize daysInMonth a.year a.month = A at *
  split_ifs <;> omega

/-- `YEARFRAC` counts 120 days to the end of April, `ACCRINTM` 119. -/
theorem us_agree_fails :
    yearfrac ⟨2024, 1, 1⟩ ⟨2024, 4, 30⟩ 0 = some (120 / 360) ∧ yearFraction ⟨2024, 1, 1⟩ ⟨2024, 4, 30⟩ 0 = 119 / 360 := by
  decide +kernel

end Verif.Days

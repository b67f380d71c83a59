import Verif.TextFn.Dates

/-!
# DATEVALUE of dates with slashes

Model of `/repo/crates/formualizer-common/src/date_serial.rs` 70-107 (`parse_excel_date_text`,
`parse_numeric_slash_date`, `parse_excel_year`) and
`/repo/crates/formualizer-eval/src/builtins/datetime/date_value.rs` 12-31 and 118-120, up to the date.
Which days there are (`NaiveDate::from_ymd_opt`), and reading ISO dates and dates with names of
months, are parameters.
-/

namespace Verif.TextFn

open Verif.NumFmt (trim)

/-- A year, a month and a day. -/
abbrev Date := Nat × Nat × Nat

/-- What comes from elsewhere: white space, `from_ymd_opt`, `parse_iso_date` followed by
`parse_month_name_date` (date_serial.rs 118-127), and the form with spaces of date_value.rs 28-30. -/
structure DEnv where
  ws : Char → Bool
  valid : Date → Bool
  other : List Char → Option Date
  spaced : List Char → Option Date

/-- What the parameters promise: digits and slashes are not white space, months go from 1 to 12, and
a text without hyphens and spaces is neither an ISO date nor one with the name of a month. -/
structure DEnv.Good (E : DEnv) : Prop where
  ws : ∀ c, (c.isDigit = true ∨ c = '/') → E.ws c = false
  month : ∀ x, E.valid x = true → 1 ≤ x.2.1 ∧ x.2.1 ≤ 12
  other : ∀ t, '-' ∉ t → ' ' ∉ t → E.other t = none

/-- `part.is_empty()` or not all digits, turned round. -/
def digits (t : List Char) : Bool := !t.isEmpty && t.all Char.isDigit

/-- `parse::<u32>` of digits. -/
def readNat (t : List Char) : Option Nat :=
  let n := t.foldl (fun a c => 10 * a + (c.toNat - 48)) 0
  if n < 2 ^ 32 then some n else none

/-- `parse_excel_year` of digits: date_serial.rs 99-107. Years of two or four digits fit `i32`. -/
def readYear (t : List Char) : Option Nat :=
  match readNat t with
  | none => none
  | some y =>
    if t.length = 2 then some (if y ≤ 29 then 2000 + y else 1900 + y)
    else if t.length = 4 then some y
    else none

/-- `parse_numeric_slash_date` of three parts: date_serial.rs 93-96. -/
def slashParts (E : DEnv) (a b y : List Char) : Option Date :=
  match readNat a, readNat b, readYear y with
  | some m, some d, some y => if E.valid (y, m, d) then some (y, m, d) else none
  | _, _, _ => none

/-- `parse_numeric_slash_date`: date_serial.rs 83-97. -/
def slash (E : DEnv) (t : List Char) : Option Date :=
  match t.splitOn '/' with
  | [a, b, y] => if digits a && digits b && digits y then slashParts E a b y else none
  | _ => none

/-- `parse_excel_date_text`: date_serial.rs 70-81. -/
def readDate (E : DEnv) (text : List Char) : Option Date :=
  let t := trim E.ws text
  if t = [] then none else (slash E t).or (E.other t)

/-- `parse_legacy_datevalue_text`: date_value.rs 12-31. -/
def legacy (E : DEnv) (text : List Char) : Option Date :=
  match (trim E.ws text).splitOn '/' with
  | [a, b, y] =>
    if digits a && digits b && digits y then
      if a.length = 4 then readDate E (a ++ '-' :: (b ++ '-' :: y))
      else readDate E (b ++ '/' :: (a ++ '/' :: y))
    else E.spaced (trim E.ws text)
  | _ => E.spaced (trim E.ws text)

/-- DATEVALUE of a text, up to the date: date_value.rs 118-120. -/
def dateValue (E : DEnv) (text : List Char) : Option Date := (readDate E text).or (legacy E text)

/-! ## Dates with slashes -/

theorem split_slashes (a b y : List Char) (ha : '/' ∉ a) (hb : '/' ∉ b) (hy : '/' ∉ y) :
    (a ++ '/' :: (b ++ '/' :: y)).splitOn '/' = [a, b, y] := by
  have := List.splitOn_intercalate (ls := [a, b, y]) '/' (by
    intro l hl
    simp only [List.mem_cons, List.not_mem_nil, or_false] at hl
    rcases hl with rfl | rfl | rfl <;> assumption) (by simp)
  rw [← this]
  simp [List.intercalate]

theorem digits_spec (t : List Char) (h : digits t = true) : t ≠ [] ∧ ∀ c ∈ t, c.isDigit = true := by
  unfold digits at h
  rw [Bool.and_eq_true, List.all_eq_true] at h
  refine ⟨?_, h.2⟩
  rintro rfl
  simp at h

theorem digits_no (t : List Char) (h : digits t = true) (c : Char) (hc : c.isDigit = false) :
    c ∉ t := fun hm => by
  have := (digits_spec t h).2 c hm
  rw [hc] at this
  cases this

theorem trim_slashes (E : DEnv) (hE : E.Good) (a b y : List Char) (ha : digits a = true)
    (hb : digits b = true) (hy : digits y = true) :
    trim E.ws (a ++ '/' :: (b ++ '/' :: y)) = a ++ '/' :: (b ++ '/' :: y) := by
  have all : ∀ c ∈ a ++ '/' :: (b ++ '/' :: y), E.ws c = false := by
    intro c hc
    apply hE.ws
    simp only [List.mem_append, List.mem_cons] at hc
    rcases hc with h | h | h | h | h
    · exact Or.inl ((digits_spec a ha).2 c h)
    · exact Or.inr h
    · exact Or.inl ((digits_spec b hb).2 c h)
    · exact Or.inr h
    · exact Or.inl ((digits_spec y hy).2 c h)
  exact trim_id _ _ (fun c h => all c (List.mem_of_mem_head? h))
    (fun c h => all c (List.mem_of_mem_getLast? h))

theorem read_slashes (E : DEnv) (hE : E.Good) (a b y : List Char) (ha : digits a = true)
    (hb : digits b = true) (hy : digits y = true) :
    readDate E (a ++ '/' :: (b ++ '/' :: y)) = slashParts E a b y := by
  have no : ∀ c : Char, c.isDigit = false → c ≠ '/' → c ∉ a ++ '/' :: (b ++ '/' :: y) := by
    intro c h1 h2 hc
    simp only [List.mem_append, List.mem_cons] at hc
    rcases hc with h | h | h | h | h
    · exact digits_no a ha c h1 h
    · exact h2 h
    · exact digits_no b hb c h1 h
    · exact h2 h
    · exact digits_no y hy c h1 h
  unfold readDate
  simp only [trim_slashes E hE a b y ha hb hy]
  rw [if_neg (by simp), hE.other _ (no _ (by decide) (by decide)) (no _ (by decide) (by decide)),
    Option.or_none]
  unfold slash
  rw [split_slashes a b y (digits_no a ha _ (by decide)) (digits_no b hb _ (by decide))
    (digits_no y hy _ (by decide))]
  simp [ha, hb, hy]

/-- **C120.** What DATEVALUE makes of three numbers with slashes between: the month, the day and the
year if there is such a day; otherwise, unless the first number has four digits, the day, the month
and the year if there is such a day. -/
theorem date_value_slashes (E : DEnv) (hE : E.Good) (a b y : List Char) (ha : digits a = true)
    (hb : digits b = true) (hy : digits y = true) (h4 : a.length ≠ 4) :
    dateValue E (a ++ '/' :: (b ++ '/' :: y)) = (slashParts E a b y).or (slashParts E b a y) := by
  unfold dateValue legacy
  rw [trim_slashes E hE a b y ha hb hy, split_slashes a b y (digits_no a ha _ (by decide))
    (digits_no b hb _ (by decide)) (digits_no y hy _ (by decide)), read_slashes E hE a b y ha hb hy]
  simp only [ha, hb, hy, Bool.and_self, if_true, if_neg h4]
  rw [read_slashes E hE b a y hb ha hy]

/-- **C120.** Years of two digits are those from 1930 to 2029. -/
theorem year_window (t : List Char) (h : t.length = 2) (n : Nat) (hn : readNat t = some n)
    (h99 : n ≤ 99) : ∃ y, readYear t = some y ∧ 1930 ≤ y ∧ y ≤ 2029 ∧ y % 100 = n := by
  unfold readYear
  simp only [hn, if_pos h]
  by_cases h29 : n ≤ 29
  · exact ⟨2000 + n, by rw [if_pos h29], by omega, by omega, by omega⟩
  · exact ⟨1900 + n, by rw [if_neg h29], by omega, by omega, by omega⟩

/-- **C120.** Years have two or four digits. -/
theorem year_digits (t : List Char) (y : Nat) (h : readYear t = some y) :
    t.length = 2 ∨ t.length = 4 := by
  unfold readYear at h
  cases hn : readNat t with
  | none => simp [hn] at h
  | some n =>
    simp only [hn] at h
    by_cases h2 : t.length = 2
    · exact Or.inl h2
    · by_cases h4 : t.length = 4
      · exact Or.inr h4
      · simp [h2, h4] at h

/-- **C120.** Slash dates are three parts of digits, and nothing else is. -/
theorem slash_iff (E : DEnv) (t : List Char) (x : Date) :
    slash E t = some x ↔ ∃ a b y, digits a = true ∧ digits b = true ∧ digits y = true ∧
      t = a ++ '/' :: (b ++ '/' :: y) ∧ slashParts E a b y = some x := by
  constructor
  · intro h
    unfold slash at h
    split at h
    · rename_i a b y hs
      by_cases hd : (digits a && digits b && digits y) = true
      · rw [if_pos hd] at h
        simp only [Bool.and_eq_true] at hd
        have e := List.intercalate_splitOn (xs := t) '/'
        rw [hs] at e
        exact ⟨a, b, y, hd.1.1, hd.1.2, hd.2, by rw [← e]; simp [List.intercalate], h⟩
      · rw [if_neg hd] at h
        cases h
    · cases h
  · rintro ⟨a, b, y, ha, hb, hy, rfl, h⟩
    unfold slash
    rw [split_slashes a b y (digits_no a ha _ (by decide)) (digits_no b hb _ (by decide))
      (digits_no y hy _ (by decide))]
    simp [ha, hb, hy, h]

/-- **C120.** White space around the text makes no difference. -/
theorem date_value_spaces (E : DEnv) (l t r : List Char) (hl : ∀ c ∈ l, E.ws c = true)
    (hr : ∀ c ∈ r, E.ws c = true) (h0 : t ≠ []) (h1 : ∀ c, t.head? = some c → E.ws c = false)
    (h2 : ∀ c, t.getLast? = some c → E.ws c = false) :
    dateValue E (l ++ (t ++ r)) = dateValue E t := by
  have a : trim E.ws (l ++ (t ++ r)) = t := (NumFmt.parse_spaces E.ws l t r hl hr h0 h1 h2).1
  have b : trim E.ws t = t := trim_id E.ws t h1 h2
  unfold dateValue readDate legacy
  simp only [a, b]

/-! ## There and back -/

theorem pad_digits (w n : Nat) (hw : 0 < w) : digits (pad w n) = true := by
  have all : ∀ w n, ∀ c ∈ pad w n, c.isDigit = true := by
    intro w
    induction w with
    | zero => intro n c hc; cases hc
    | succ w ih =>
      intro n c hc
      rcases List.mem_append.mp hc with hc | hc
      · exact ih _ c hc
      · rw [List.mem_singleton.mp hc]
        unfold digit
        have : n % 10 < 10 := Nat.mod_lt _ (by decide)
        generalize n % 10 = k at this
        interval_cases k <;> decide
  have hl := (pad_value w n).1
  unfold digits
  rw [Bool.and_eq_true, List.all_eq_true]
  refine ⟨?_, all w n⟩
  cases hp : pad w n with
  | nil => rw [hp] at hl; simp at hl; omega
  | cons c l => rfl

theorem read_pad (w n : Nat) (h : n < 10 ^ w) (h' : n < 2 ^ 32) : readNat (pad w n) = some n := by
  unfold readNat
  simp only [(pad_value w n).2 h, if_pos h']

theorem slash_pad (E : DEnv) (y m d : Nat) (hy : y < 10000) (hm : m < 100) (hd : d < 100) :
    slashParts E (pad 2 m) (pad 2 d) (pad 4 y) = if E.valid (y, m, d) then some (y, m, d) else none := by
  have e : readYear (pad 4 y) = some y := by
    unfold readYear
    rw [read_pad 4 y (by omega) (by omega)]
    simp only [(pad_value 4 y).1]
    rfl
  unfold slashParts
  rw [read_pad 2 m (by omega) (by omega), read_pad 2 d (by omega) (by omega), e]

/-- **C120.** DATEVALUE reads back what TEXT writes with `mm/dd/yyyy`, for every day there is. -/
theorem text_back (E : DEnv) (hE : E.Good) (parts : ℚ → Option Date) (n : ℚ) (y m d : Nat)
    (hp : parts n = some (y, m, d)) (hv : E.valid (y, m, d) = true) (hy : y < 10000) (hd : d < 100) :
    (dateText parts n "mm/dd/yyyy".toList).bind (dateValue E) = some (y, m, d) := by
  have hm : m < 100 := by have := (hE.month _ hv).2; simp only at this; omega
  have hs := date_spec parts n [.month, .lit '/', .day, .lit '/', .year] (by
    intro t ht
    simp only [List.mem_cons, List.not_mem_nil, or_false] at ht
    rcases ht with rfl | rfl | rfl | rfl | rfl <;> trivial)
  rw [if_neg (by decide), hp] at hs
  rw [show "mm/dd/yyyy".toList = [Tok.month, .lit '/', .day, .lit '/', .year].flatMap Tok.code by decide,
    hs]
  simp only [Option.map_some, Option.bind_some]
  have e : [Tok.month, .lit '/', .day, .lit '/', .year].flatMap (Tok.shown (pad 4 y) (pad 2 m) (pad 2 d)
      (pad 2 ((clock n).2 / 60) ++ ':' :: pad 2 ((clock n).2 % 60))) =
      pad 2 m ++ '/' :: (pad 2 d ++ '/' :: pad 4 y) := by simp [Tok.shown]
  rw [e, date_value_slashes E hE _ _ _ (pad_digits _ _ (by decide)) (pad_digits _ _ (by decide))
    (pad_digits _ _ (by decide)) (by rw [(pad_value 2 m).1]; decide), slash_pad E y m d hy hm hd,
    if_pos hv, Option.some_or]

/-- **C120.** A day written with `dd/mm/yyyy` is read with the two exchanged if there is such a day,
and as it was meant otherwise. -/
theorem day_first_spec (E : DEnv) (hE : E.Good) (y m d : Nat) (hv : E.valid (y, m, d) = true)
    (hy : y < 10000) (hd : d < 100) :
    dateValue E (pad 2 d ++ '/' :: (pad 2 m ++ '/' :: pad 4 y)) =
      if E.valid (y, d, m) then some (y, d, m) else some (y, m, d) := by
  have hm : m < 100 := by have := (hE.month _ hv).2; simp only at this; omega
  rw [date_value_slashes E hE _ _ _ (pad_digits _ _ (by decide)) (pad_digits _ _ (by decide))
    (pad_digits _ _ (by decide)) (by rw [(pad_value 2 d).1]; decide), slash_pad E y d m hy hd hm,
    slash_pad E y m d hy hm hd, if_pos hv]
  by_cases h : E.valid (y, d, m) = true
  · rw [if_pos h, if_pos h]; rfl
  · rw [if_neg h, if_neg h]; rfl

/-- **C120, refuted.** Slash dates are not always month, day and year: in every year `12/02` is the
second of December, `13/02` the thirteenth of February. -/
theorem order_fails (E : DEnv) (hE : E.Good) (y : Nat) (hy : y < 10000)
    (h2 : E.valid (y, 12, 2) = true) (h13 : E.valid (y, 2, 13) = true) :
    dateValue E (pad 2 12 ++ '/' :: (pad 2 2 ++ '/' :: pad 4 y)) = some (y, 12, 2) ∧
      dateValue E (pad 2 13 ++ '/' :: (pad 2 2 ++ '/' :: pad 4 y)) = some (y, 2, 13) := by
  constructor
  · rw [date_value_slashes E hE _ _ _ (pad_digits _ _ (by decide)) (pad_digits _ _ (by decide))
      (pad_digits _ _ (by decide)) (by decide), slash_pad E y 12 2 hy (by decide) (by decide),
      if_pos h2, Option.some_or]
  · rw [day_first_spec E hE y 2 13 h13 hy (by decide), if_neg]
    intro h
    have := (hE.month _ h).2
    simp at this

/-- Parameters for the examples: months of 28 days. -/
def short : DEnv := ⟨(· = ' '), fun x => 1 ≤ x.2.1 ∧ x.2.1 ≤ 12 ∧ 1 ≤ x.2.2 ∧ x.2.2 ≤ 28,
  fun _ => none, fun _ => none⟩

example : short.Good :=
  ⟨fun c h => by
    rcases h with h | rfl
    · simp only [short, decide_eq_false_iff_not]
      rintro rfl
      revert h
      decide
    · decide,
   fun x h => by simp only [short, decide_eq_true_eq] at h; exact ⟨h.1, h.2.1⟩, fun _ _ _ => rfl⟩

/-- The twelfth and the thirteenth of February. -/
example : let E := short
    dateValue E "12/02/2024".toList = some (2024, 12, 2) ∧
      dateValue E "13/02/2024".toList = some (2024, 2, 13) ∧
      dateValue E " 1/2/30 ".toList = some (1930, 1, 2) := by decide +kernel

end Verif.TextFn

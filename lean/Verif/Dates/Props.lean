import Verif.Dates.Model

/-!
# C07, C08: dates, times and serial numbers

The reader's specification is the calendar of `Calendar.lean`: `Date.Valid` dates, the next day `Date.next`,
chronological order `Date.lt`.  `dateToSerial_next` and `dateToSerial_epoch` together pin down the serial of
every date without mentioning day counts.
-/

namespace Verif.Dates

theorem epoch1900_valid : epoch1900.Valid := by decide
theorem epoch1904_valid : epoch1904.Valid := by decide
theorem maxDate_valid : maxDate.Valid := by decide
theorem cutoff_valid : phantomCutoff.Valid := by decide
theorem epoch_valid (sys : System) : (epoch sys).Valid := by cases sys <;> decide

theorem dn_epoch1900 : epoch1900.dayNumber = 693595 := by decide
theorem dn_epoch1904 : epoch1904.dayNumber = 695056 := by decide
theorem dn_max : maxDate.dayNumber = 3652059 := by decide
theorem dn_cutoff : phantomCutoff.dayNumber = 693655 := by decide
theorem dn_prev : phantomPrevious.dayNumber = 693654 := by decide

theorem cutoff_le_iff {d : Date} (h : d.Valid) : phantomCutoff.le d ↔ 693655 ≤ d.dayNumber := by
  rw [← dn_cutoff, dayNumber_le_iff cutoff_valid h]

theorem dateToSerial_1900 {d : Date} (h : d.Valid) :
    dateToSerial .excel1900 d =
      if 693655 ≤ d.dayNumber then d.dayNumber - 693594 else d.dayNumber - 693595 := by
  simp only [dateToSerial, dn_epoch1900]
  by_cases hc : 693655 ≤ d.dayNumber
  · rw [if_pos ((cutoff_le_iff h).2 hc), if_pos hc]; omega
  · rw [if_neg (fun x => hc ((cutoff_le_iff h).1 x)), if_neg hc]

theorem dateToSerial_1904 (d : Date) : dateToSerial .excel1904 d = d.dayNumber - 695056 := by
  simp only [dateToSerial, dn_epoch1904]

theorem maxSerial_1900 : maxSerial .excel1900 = 2958465 := by
  unfold maxSerial; rw [dateToSerial_1900 maxDate_valid, dn_max]; rfl
theorem maxSerial_1904 : maxSerial .excel1904 = 2957003 := by
  unfold maxSerial; rw [dateToSerial_1904, dn_max]; rfl

theorem chrono_lo : yearStart chronoMinYear < 600000 := by decide
theorem chrono_hi : 3700000 ≤ yearStart (chronoMaxYear + 1) := by decide

/-- Decoding a whole serial in range never fails, and gives a valid date with the expected day count. -/
theorem dateForWhole_spec (sys : System) {n : Int} (h0 : 0 ≤ n) (h1 : n ≤ maxSerial sys) :
    ∃ d, dateForWhole sys n = some d ∧ d.Valid ∧
      d.dayNumber = match sys with
        | .excel1900 => if n < 60 then 693595 + n else 693594 + n
        | .excel1904 => 695056 + n := by
  have lo := chrono_lo
  have hi := chrono_hi
  cases sys with
  | excel1900 =>
    rw [maxSerial_1900] at h1
    simp only [dateForWhole]
    by_cases h60 : n = 60
    · rw [if_pos h60]
      refine ⟨_, rfl, by decide, ?_⟩
      subst h60
      rw [dn_prev]; rfl
    · rw [if_neg h60]
      by_cases hl : n < 60
      · rw [if_pos hl]
        have := checkedAddDays_some epoch1900_valid (n := n)
          (by rw [dn_epoch1900]; omega) (by rw [dn_epoch1900]; omega)
        rw [dn_epoch1900] at this
        simpa only [if_pos hl] using this
      · rw [if_neg hl]
        have := checkedAddDays_some epoch1900_valid (n := n - 1)
          (by rw [dn_epoch1900]; omega) (by rw [dn_epoch1900]; omega)
        rw [dn_epoch1900] at this
        obtain ⟨r, h1, h2, h3⟩ := this
        refine ⟨r, h1, h2, ?_⟩
        simp only [if_neg hl]; omega
  | excel1904 =>
    rw [maxSerial_1904] at h1
    simp only [dateForWhole]
    have := checkedAddDays_some epoch1904_valid (n := n)
      (by rw [dn_epoch1904]; omega) (by rw [dn_epoch1904]; omega)
    rw [dn_epoch1904] at this
    exact this

theorem trunc_of_nonneg {f : Frac} (h : 0 ≤ f.num) : f.trunc = f.num / f.den := by
  unfold Frac.trunc
  rw [Int.tdiv_eq_ediv_of_nonneg h]

theorem whole_trunc (n : Int) : (⟨n, 1, by decide⟩ : Frac).trunc = n := by
  simp [Frac.trunc]

theorem validate_iff (sys : System) (f : Frac) :
    validate sys (some f) = true ↔ 0 ≤ f.num ∧ f.trunc ≤ maxSerial sys := by
  simp [validate]

/-! ## C07 -/

/-- **C07** (1): the serial counts days from the system's first date: each day adds one, except that from
1900-02-28 to 1900-03-01 the 1900 system adds two. -/
theorem dateToSerial_next (sys : System) {d : Date} (h : d.Valid) :
    dateToSerial sys d.next = dateToSerial sys d +
      (if sys = .excel1900 ∧ d = ⟨1900, 2, 28⟩ then 2 else 1) := by
  cases sys with
  | excel1900 =>
    rw [dateToSerial_1900 h, dateToSerial_1900 (next_valid h), dayNumber_next h]
    by_cases hd : d = ⟨1900, 2, 28⟩
    · subst hd; decide
    · have : d.dayNumber ≠ 693654 := by
        intro he
        exact hd (dayNumber_inj h (by decide) (by rw [he]; decide))
      simp only [hd]
      split <;> split <;> simp <;> omega
  | excel1904 =>
    rw [dateToSerial_1904, dateToSerial_1904, dayNumber_next h]
    simp; omega

/-- **C07** (2): the first date of the 1900 system is 1899-12-31 with serial 0, that of the 1904 system is
1904-01-01 with serial 0. -/
theorem dateToSerial_epoch :
    dateToSerial .excel1900 ⟨1899, 12, 31⟩ = 0 ∧ dateToSerial .excel1904 ⟨1904, 1, 1⟩ = 0 := by decide

/-- **C07** (3): every date from the system's first date to 9999-12-31 converts to a serial that is
accepted and converts back to that date. -/
theorem date_roundtrip (sys : System) {d : Date} (h : d.Valid) (h1 : (epoch sys).le d)
    (h2 : d.le ⟨9999, 12, 31⟩) : tryDate sys (whole (dateToSerial sys d)) = some d := by
  have e1 := (dayNumber_le_iff (epoch_valid sys) h).2 h1
  have e2 := (dayNumber_le_iff h maxDate_valid).2 h2
  rw [dn_max] at e2
  have hb : 0 ≤ dateToSerial sys d ∧ dateToSerial sys d ≤ maxSerial sys := by
    cases sys with
    | excel1900 =>
      rw [maxSerial_1900, dateToSerial_1900 h]
      simp only [epoch, dn_epoch1900] at e1
      split <;> omega
    | excel1904 =>
      rw [maxSerial_1904, dateToSerial_1904]
      simp only [epoch, dn_epoch1904] at e1
      omega
  obtain ⟨r, hr, hv, hn⟩ := dateForWhole_spec sys hb.1 hb.2
  have hval : validate sys (whole (dateToSerial sys d)) = true := by
    unfold whole
    rw [validate_iff, whole_trunc]
    exact hb
  unfold tryDate
  rw [if_pos hval]
  simp only [whole, whole_trunc]
  rw [hr]
  congr 1
  apply dayNumber_inj hv h
  rw [hn]
  cases sys with
  | excel1900 =>
    simp only [dateToSerial_1900 h]
    split <;> split <;> omega
  | excel1904 =>
    simp only [dateToSerial_1904]
    omega

example : tryDate .excel1900 (whole (dateToSerial .excel1900 ⟨2024, 2, 29⟩)) = some ⟨2024, 2, 29⟩ :=
  date_roundtrip _ (by decide) (by decide) (by decide)

/-- **C07** (4): serials order dates: a later date has a strictly larger serial. -/
theorem dateToSerial_strictMono (sys : System) {a b : Date} (ha : a.Valid) (hb : b.Valid) :
    a.lt b ↔ dateToSerial sys a < dateToSerial sys b := by
  rw [← dayNumber_lt_iff ha hb]
  cases sys with
  | excel1900 =>
    rw [dateToSerial_1900 ha, dateToSerial_1900 hb]
    split <;> split <;> omega
  | excel1904 =>
    rw [dateToSerial_1904, dateToSerial_1904]
    omega

example : (Date.mk 1900 2 28).lt ⟨1900, 3, 1⟩ := by decide

/-- **C07** (5): a serial is accepted exactly when it is finite, not negative and its whole part does not
exceed the serial of 9999-12-31 (2958465 and 2957003); acceptance always yields a valid date. -/
theorem tryDate_isSome_iff (sys : System) (s : Serial) :
    (tryDate sys s).isSome ↔ ∃ f, s = some f ∧ 0 ≤ f.num ∧
      f.num < ((match sys with | .excel1900 => 2958465 | .excel1904 => 2957003) + 1) * f.den := by
  cases s with
  | none => simp [tryDate, validate]
  | some f =>
    have hm : maxSerial sys = (match sys with | .excel1900 => 2958465 | .excel1904 => 2957003) := by
      cases sys
      · exact maxSerial_1900
      · exact maxSerial_1904
    rw [← hm]
    have hkey : validate sys (some f) = true ↔ 0 ≤ f.num ∧ f.num < (maxSerial sys + 1) * f.den := by
      rw [validate_iff]
      constructor
      · rintro ⟨h1, h2⟩
        refine ⟨h1, ?_⟩
        rw [trunc_of_nonneg h1] at h2
        exact (Int.ediv_lt_iff_lt_mul (by have := f.pos; omega)).1 (by omega)
      · rintro ⟨h1, h2⟩
        refine ⟨h1, ?_⟩
        rw [trunc_of_nonneg h1]
        have := (Int.ediv_lt_iff_lt_mul (a := f.num) (b := maxSerial sys + 1)
          (c := f.den) (by have := f.pos; omega)).2 h2
        omega
    constructor
    · intro h
      refine ⟨f, rfl, ?_⟩
      rw [← hkey]
      by_cases hv : validate sys (some f) = true
      · exact hv
      · unfold tryDate at h; rw [if_neg hv] at h; cases h
    · rintro ⟨g, hg, h⟩
      cases hg
      rw [← hkey] at h
      have h' := (validate_iff sys f).1 h
      have ht : 0 ≤ f.trunc := by
        rw [trunc_of_nonneg h'.1]
        exact Int.ediv_nonneg h'.1 (by omega)
      obtain ⟨d, hd, _⟩ := dateForWhole_spec sys ht h'.2
      simp [tryDate, h, hd]

example : (tryDate .excel1900 (whole 2958465)).isSome := (tryDate_isSome_iff _ _).2 ⟨_, rfl, by decide, by decide⟩
example : ¬ (tryDate .excel1900 (whole 2958466)).isSome := by
  rw [tryDate_isSome_iff]; rintro ⟨f, h, h2⟩; cases h; revert h2; decide

/-- **C07** (6): every accepted whole serial is the serial of the date it decodes to, except 60 in the 1900
system, which decodes to 1900-02-28 (whose serial is 59). -/
theorem serial_roundtrip (sys : System) {n : Int} {d : Date} (h : tryDate sys (whole n) = some d) :
    d.Valid ∧ dateToSerial sys d = (if sys = .excel1900 ∧ n = 60 then 59 else n) := by
  have hv : validate sys (whole n) = true := by
    by_cases hv : validate sys (whole n) = true
    · exact hv
    · unfold tryDate at h; rw [if_neg hv] at h; cases h
  unfold tryDate at h
  rw [if_pos hv] at h
  simp only [whole, whole_trunc] at h
  unfold whole at hv
  rw [validate_iff, whole_trunc] at hv
  obtain ⟨r, hr, hrv, hn⟩ := dateForWhole_spec sys hv.1 hv.2
  rw [hr] at h
  cases h
  refine ⟨hrv, ?_⟩
  cases sys with
  | excel1900 =>
    rw [dateToSerial_1900 hrv, hn]
    simp only [true_and]
    split <;> split <;> split <;> omega
  | excel1904 =>
    rw [dateToSerial_1904, hn]
    simp; omega

/-- **C07** (7): displayed fields. In the 1900 system serial 0 shows as 1900-01-00 and 60 as 1900-02-29;
every other accepted serial shows the fields of the date it decodes to. -/
theorem displayParts_spec (sys : System) (f : Frac) :
    displayParts sys (some f) =
      match tryDate sys (some f) with
      | none => none
      | some d =>
        if sys = .excel1900 ∧ f.num / f.den = 0 then some (1900, 1, 0)
        else if sys = .excel1900 ∧ f.num / f.den = 60 then some (1900, 2, 29)
        else some (d.year, d.month, d.day) := by
  unfold displayParts
  by_cases hv : validate sys (some f) = true
  · have hv' := (validate_iff sys f).1 hv
    have ht := trunc_of_nonneg hv'.1
    have ht0 : 0 ≤ f.trunc := by rw [ht]; exact Int.ediv_nonneg hv'.1 (by omega)
    obtain ⟨d, hd, -, -⟩ := dateForWhole_spec sys ht0 hv'.2
    have hw : validate sys (some ⟨f.trunc, 1, by decide⟩) = true := by
      rw [validate_iff, whole_trunc]; exact ⟨ht0, hv'.2⟩
    simp only [tryDate, hv, hw, hd, whole_trunc, whole, if_true, ← ht]
  · simp [hv, tryDate]

example : displayParts .excel1900 (whole 60) = some (1900, 2, 29) := by
  unfold whole
  rw [displayParts_spec]; decide

/-! ## C08 -/

/-- Whatever non-negative value up to 86400 the multiplication and rounding produce, the carry logic returns
seconds below 86400 and the same total number of seconds; it refuses exactly invalid serials and a carry
past the last day. -/
theorem normalizedParts_carry (sys : System) (f : Frac) (secs : Frac → Int)
    (h0 : 0 ≤ secs f) (h1 : secs f ≤ 86400) :
    normalizedParts sys (some f) secs =
      if validate sys (some f) = true ∧ f.trunc * 86400 + secs f < (maxSerial sys + 1) * 86400 then
        some ((f.trunc * 86400 + secs f) / 86400, ((f.trunc * 86400 + secs f) % 86400).toNat)
      else none := by
  unfold normalizedParts
  by_cases hv : validate sys (some f) = true
  · have hv' := ((validate_iff sys f).1 hv).2
    simp only [hv, if_true, true_and]
    by_cases he : secs f = 86400
    · rw [if_pos he, he]
      by_cases hm : f.trunc + 1 > maxSerial sys
      · rw [if_pos hm, if_neg (by omega)]
      · rw [if_neg hm, if_pos (by omega)]
        have a : (f.trunc * 86400 + 86400) / 86400 = f.trunc + 1 := by omega
        have b : (f.trunc * 86400 + 86400) % 86400 = 0 := by omega
        rw [a, b]; rfl
    · rw [if_neg he, if_pos (by omega), if_pos (by omega)]
      have a : (f.trunc * 86400 + secs f) / 86400 = f.trunc := by omega
      have b : (f.trunc * 86400 + secs f) % 86400 = secs f := by omega
      rw [a, b]
  · simp [hv]

/-- The number of seconds of a fraction of a day, rounded to the nearest second, halves up. -/
def nearestSecond (num : Int) (den : Nat) : Int := (2 * num * 86400 + den) / (2 * den)

theorem nearest_aux {r den : Int} (hd : 0 < den) (h0 : 0 ≤ r) (h1 : r < den) :
    0 ≤ (2 * (r * 86400) + den) / (2 * den) ∧ (2 * (r * 86400) + den) / (2 * den) ≤ 86400 := by
  constructor
  · exact Int.ediv_nonneg (by omega) (by omega)
  · have : (2 * (r * 86400) + den) / (2 * den) < 86401 := by
      rw [Int.ediv_lt_iff_lt_mul (by omega)]
      omega
    omega

theorem total_eq_nearest {f : Frac} (h : 0 ≤ f.num) :
    f.trunc * 86400 + f.roundSecs = nearestSecond f.num f.den ∧ 0 ≤ f.roundSecs ∧ f.roundSecs ≤ 86400 := by
  obtain ⟨num, den, pos⟩ := f
  simp only at h
  have hr : Frac.roundSecs ⟨num, den, pos⟩ = (2 * ((num % den) * 86400) + den) / (2 * den) := by
    unfold Frac.roundSecs
    simp only
    rw [if_neg (by omega)]
    congr 4
    have : ((num.natAbs : Nat) : Int) = num := by omega
    rw [Int.natCast_emod, this]
  rw [trunc_of_nonneg h, hr]
  simp only [nearestSecond]
  have hm0 := Int.emod_nonneg num (b := (den : Int)) (by omega)
  have hm1 := Int.emod_lt_of_pos num (b := (den : Int)) (by omega)
  have hdm := Int.mul_ediv_add_emod num (den : Int)
  refine ⟨?_, nearest_aux (by omega) hm0 hm1⟩
  have : 2 * num * 86400 + (den : Int) = (2 * ((num % den) * 86400) + den) + (num / den * 86400) * (2 * den) := by
    have e : num / (den : Int) * 86400 * (2 * den) = (den * (num / den)) * 172800 := by
      rw [Int.mul_comm (den : Int) (num / den), Int.mul_assoc, Int.mul_assoc]
      congr 1
      omega
    rw [e]
    omega
  rw [this, Int.add_mul_ediv_right _ _ (by omega)]
  omega

/-- **C08** (1): splitting a serial into day and time of day. The result is the serial's nearest second
(halves up) divided into whole days and a time below 24:00, so rounding up to 24:00 carries into the next
day; the serial is refused exactly when it is not finite, negative, or rounds past the end of 9999-12-31. -/
theorem normalized_spec (sys : System) (f : Frac) :
    normalizedParts sys (some f) Frac.roundSecs =
      if 0 ≤ f.num ∧ nearestSecond f.num f.den < (maxSerial sys + 1) * 86400 then
        some (nearestSecond f.num f.den / 86400, (nearestSecond f.num f.den % 86400).toNat)
      else none := by
  by_cases h : 0 ≤ f.num
  · obtain ⟨h1, h2, h3⟩ := total_eq_nearest h
    rw [normalizedParts_carry sys f Frac.roundSecs h2 h3, h1]
    have hiff : (validate sys (some f) = true ∧ nearestSecond f.num f.den < (maxSerial sys + 1) * 86400) ↔
        (0 ≤ f.num ∧ nearestSecond f.num f.den < (maxSerial sys + 1) * 86400) := by
      rw [validate_iff]
      constructor
      · rintro ⟨a, b⟩; exact ⟨h, b⟩
      · rintro ⟨a, b⟩; exact ⟨⟨h, by omega⟩, b⟩
    simp only [hiff]
  · rw [if_neg (fun x => h x.1)]
    unfold normalizedParts
    rw [if_neg]
    rw [validate_iff]
    exact fun x => h x.1

/-- `nearestSecond` is what its name says: within half a second of the exact value. -/
theorem nearestSecond_near (num : Int) {den : Nat} (hd : 0 < den) :
    2 * (nearestSecond num den * den - num * 86400) ≤ den ∧
    - (den : Int) < 2 * (nearestSecond num den * den - num * 86400) := by
  unfold nearestSecond
  have h := Int.mul_ediv_add_emod (2 * num * 86400 + den) (2 * den)
  have h0 := Int.emod_nonneg (2 * num * 86400 + den) (b := 2 * (den : Int)) (by omega)
  have h1 := Int.emod_lt_of_pos (2 * num * 86400 + den) (b := 2 * (den : Int)) (by omega)
  generalize (2 * num * 86400 + (den : Int)) / (2 * den) = q at *
  generalize (2 * num * 86400 + (den : Int)) % (2 * den) = r at *
  have e : 2 * (den : Int) * q = 2 * (q * den) := by rw [Int.mul_assoc, Int.mul_comm (den : Int)]
  rw [e] at h
  omega

/-- **C08** (2): the time part is always a time of day, and day and time together are a valid date. -/
theorem tryDatetime_valid (sys : System) {s : Serial} {d : Date} {t : Nat}
    (h : tryDatetime sys s = some (d, t)) : d.Valid ∧ t < 86400 := by
  unfold tryDatetime at h
  cases s with
  | none => simp [normalizedParts, validate] at h
  | some f =>
    rw [normalized_spec] at h
    by_cases hc : 0 ≤ f.num ∧ nearestSecond f.num f.den < (maxSerial sys + 1) * 86400
    · rw [if_pos hc] at h
      simp only at h
      have hn : 0 ≤ nearestSecond f.num f.den := Int.ediv_nonneg (by omega) (by omega)
      obtain ⟨r, hr, hv, -⟩ := dateForWhole_spec sys (n := nearestSecond f.num f.den / 86400)
        (by omega) (by omega)
      rw [hr] at h
      simp only [Option.some.injEq, Prod.mk.injEq] at h
      obtain ⟨rfl, rfl⟩ := h
      exact ⟨hv, by omega⟩
    · rw [if_neg hc] at h; cases h

/-- **C08** (3): a date and time of day survive conversion to a serial and back, even when the serial is off
by less than half a second (the rounding of the floating point representation is far below that). -/
theorem datetime_roundtrip (sys : System) {d : Date} (hd : d.Valid) (h1 : (epoch sys).le d)
    (h2 : d.le ⟨9999, 12, 31⟩) {t : Nat} (ht : t < 86400) (f : Frac) (hf : 0 ≤ f.num)
    (hlo : 2 * ((dateToSerial sys d * 86400 + t) * f.den - f.num * 86400) ≤ f.den)
    (hhi : - (f.den : Int) < 2 * ((dateToSerial sys d * 86400 + t) * f.den - f.num * 86400)) :
    tryDatetime sys (some f) = some (d, t) := by
  have hrt := date_roundtrip sys hd h1 h2
  have hpos := f.pos
  have hnear : nearestSecond f.num f.den = dateToSerial sys d * 86400 + t := by
    unfold nearestSecond
    generalize dateToSerial sys d * 86400 + (t : Int) = N at *
    have e : (2 * (f.den : Int)) * N = 2 * (N * f.den) := by
      rw [Int.mul_assoc, Int.mul_comm (f.den : Int)]
    have := Int.ediv_emod_unique (a := 2 * f.num * 86400 + f.den) (b := 2 * (f.den : Int))
      (r := 2 * f.num * 86400 + f.den - 2 * (N * f.den)) (q := N) (by omega)
    exact (this.2 ⟨by omega, by omega, by omega⟩).1
  have hv : validate sys (whole (dateToSerial sys d)) = true := by
    by_cases hv : validate sys (whole (dateToSerial sys d)) = true
    · exact hv
    · unfold tryDate at hrt; rw [if_neg hv] at hrt; cases hrt
  unfold tryDate at hrt
  rw [if_pos hv] at hrt
  simp only [whole, whole_trunc] at hrt
  unfold whole at hv
  rw [validate_iff, whole_trunc] at hv
  simp only at hv
  unfold tryDatetime
  rw [normalized_spec, hnear, if_pos ⟨hf, by omega⟩]
  have a : (dateToSerial sys d * 86400 + (t : Int)) / 86400 = dateToSerial sys d := by omega
  have b : (dateToSerial sys d * 86400 + (t : Int)) % 86400 = t := by omega
  rw [a, b]
  simp only [hrt]
  simp

/-- The exact serial is a special case. -/
theorem datetime_roundtrip_exact (sys : System) {d : Date} (hd : d.Valid) (h1 : (epoch sys).le d)
    (h2 : d.le ⟨9999, 12, 31⟩) {t : Nat} (ht : t < 86400) :
    tryDatetime sys (datetimeToSerial sys d t) = some (d, t) := by
  have e1 := (dayNumber_le_iff (epoch_valid sys) hd).2 h1
  have hs : 0 ≤ dateToSerial sys d := by
    cases sys with
    | excel1900 =>
      rw [dateToSerial_1900 hd]
      simp only [epoch, dn_epoch1900] at e1
      split <;> omega
    | excel1904 =>
      rw [dateToSerial_1904]
      simp only [epoch, dn_epoch1904] at e1
      omega
  exact datetime_roundtrip sys hd h1 h2 ht ⟨dateToSerial sys d * 86400 + t, 86400, by decide⟩
    (by simp only; omega) (by simp only; omega) (by simp only; omega)

example : tryDatetime .excel1904 (datetimeToSerial .excel1904 ⟨2024, 2, 29⟩ 86399) =
    some (⟨2024, 2, 29⟩, 86399) :=
  datetime_roundtrip_exact _ (by decide) (by decide) (by decide) (by decide)

/-- The carry is real: 1.999999 in the 1904 system is 1904-01-03 00:00:00. -/
example : tryDatetime .excel1904 (some ⟨1999999, 1000000, by decide⟩) = some (⟨1904, 1, 3⟩, 0) := by
  unfold tryDatetime
  rw [normalized_spec]
  have : (0 ≤ (1999999 : Int) ∧ nearestSecond 1999999 1000000 < (maxSerial .excel1904 + 1) * 86400) := by
    decide
  rw [if_pos this]
  decide

end Verif.Dates

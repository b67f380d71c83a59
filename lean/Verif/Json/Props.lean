import Verif.Json.Model
import Mathlib.Tactic.IntervalCases
import Mathlib.Tactic.Ring

/-!
# C101 — a value saved as JSON is the value read again, except …

Specification: `Exact` says which values survive (nothing but a whole number of seconds, a finite number, an error without
message), `cut` what the others become, `fractional` and `infinite` which of them cannot be read at all.
-/
namespace Verif.Json

/-! ### Digits -/

theorem digitVal_digit : ∀ n < 10, digitVal (digit n) = some n := by decide

theorem digs_head : ∀ w n : Nat, ∃ d tl, d < 10 ∧ digs (w + 1) n = digit d :: tl
  | 0, n => ⟨n % 10, [], Nat.mod_lt _ (by decide), rfl⟩
  | w + 1, n => by
    obtain ⟨d, tl, hd, h⟩ := digs_head w (n / 10)
    exact ⟨d, tl ++ [digit (n % 10)], hd, by rw [digs, h]; rfl⟩

theorem digs_length : ∀ w n : Nat, (digs w n).length = w
  | 0, _ => rfl
  | w + 1, n => by simp [digs, digs_length w]

theorem scan_digs : ∀ (w k acc n : Nat) (rest : List Char),
    scan (w + k) acc (digs w n ++ rest) = scan k (acc * 10 ^ w + n % 10 ^ w) rest
  | 0, k, acc, n, rest => by simp [digs, Nat.mod_one]
  | w + 1, k, acc, n, rest => by
    have e : w + 1 + k = w + (k + 1) := by omega
    rw [e, digs, List.append_assoc, scan_digs w (k + 1), List.singleton_append, scan,
      digitVal_digit _ (Nat.mod_lt _ (by decide))]
    have h : n % 10 ^ (w + 1) = n % 10 + 10 * (n / 10 % 10 ^ w) := by
      rw [Nat.pow_succ, Nat.mul_comm, Nat.mod_mul]
    simp only
    rw [h]
    congr 1
    ring

theorem scan_stop : ∀ (k acc : Nat) (c : Char) (cs : List Char), digitVal c = none → scan k acc (c :: cs) = (acc, c :: cs)
  | 0, _, _, _, _ => rfl
  | _ + 1, _, _, _, h => by rw [scan, h]

theorem number_digs (w k n : Nat) (rest : List Char) :
    number (w + 1 + k) (digs (w + 1) n ++ rest) = some (scan k (n % 10 ^ (w + 1)) rest) := by
  obtain ⟨d, tl, hd, h⟩ := digs_head w n
  have := scan_digs (w + 1) k 0 n rest
  rw [Nat.zero_mul, Nat.zero_add] at this
  rw [← this, h]
  simp [number, digitVal_digit d hd]

theorem number_two (n : Nat) (h : n < 100) (rest : List Char) : number 2 (digs 2 n ++ rest) = some (n, rest) := by
  have := number_digs 1 0 n rest
  rw [show n % 10 ^ (1 + 1) = n from Nat.mod_eq_of_lt h] at this
  simpa [scan] using this

theorem yearDigs_eq (n : Nat) (h : n < 1000000) : ∃ w, yearDigs n = digs (w + 1) n ∧ n < 10 ^ (w + 1) := by
  unfold yearDigs
  split
  · exact ⟨3, rfl, by omega⟩
  · split
    · exact ⟨4, rfl, by omega⟩
    · exact ⟨5, rfl, by omega⟩

theorem number_year (n : Nat) (h : n < 1000000) (rest : List Char) (hr : ∃ cs, rest = '-' :: cs) :
    number (yearDigs n ++ rest).length (yearDigs n ++ rest) = some (n, rest) := by
  obtain ⟨w, e, hl⟩ := yearDigs_eq n h
  obtain ⟨cs, rfl⟩ := hr
  rw [e]
  have := number_digs w (('-' :: cs).length) n ('-' :: cs)
  rw [List.length_append, digs_length, this, Nat.mod_eq_of_lt hl, scan_stop _ _ _ _ (by decide)]

theorem parseYear_digit (d : Nat) (h : d < 10) (tl : List Char) :
    parseYear (digit d :: tl) = (number 4 (digit d :: tl)).map fun p => ((p.1 : Int), p.2) := by
  interval_cases d <;> rfl

theorem parseYear_text (y : Int) (h1 : -262143 ≤ y) (h2 : y ≤ 262142) (cs : List Char) :
    parseYear (yearText y ++ '-' :: cs) = some (y, '-' :: cs) := by
  unfold yearText
  split
  · next h =>
    obtain ⟨d, tl, hd, e⟩ := digs_head 3 y.toNat
    have := number_digs 3 0 y.toNat ('-' :: cs)
    rw [e] at this ⊢
    rw [List.cons_append, parseYear_digit d hd]
    rw [List.cons_append] at this
    rw [this, Nat.mod_eq_of_lt (by omega)]
    simp only [scan, Option.map_some, Option.some.injEq, Prod.mk.injEq, and_true]
    omega
  · split
    · have := number_year y.natAbs (by omega) ('-' :: cs) ⟨cs, rfl⟩
      simp only [List.cons_append, parseYear, this, Option.map_some, Option.some.injEq, Prod.mk.injEq, and_true]
      omega
    · have := number_year y.natAbs (by omega) ('-' :: cs) ⟨cs, rfl⟩
      simp only [List.cons_append, parseYear, this, Option.map_some, Option.some.injEq, Prod.mk.injEq, and_true]
      omega

theorem daysIn_le (y : Int) (m : Nat) : daysIn y m ≤ 31 := by
  unfold daysIn
  split
  · split <;> omega
  · split <;> omega

/-- A written date is read again, whatever follows it. -/
theorem parseDateFront_text (d : Date) (hd : d.Valid) (rest : List Char) :
    parseDateFront (d.text ++ rest) = some (d, rest) := by
  have h := hd
  obtain ⟨h1, h2, h3, h4, h5, h6⟩ := h
  have h7 := daysIn_le d.year d.month
  have e1 : d.text ++ rest = yearText d.year ++ '-' :: (digs 2 d.month ++ '-' :: (digs 2 d.day ++ rest)) := by
    simp [Date.text]
  unfold parseDateFront
  rw [e1, parseYear_text d.year h1 h2]
  simp only [Option.bind_eq_bind, Option.bind_some, lit, if_true]
  rw [number_two d.month (by omega)]
  simp only [Option.bind_some, lit, if_true]
  rw [number_two d.day (by omega)]
  simp only [Option.bind_some]
  rw [if_pos hd]

/-- Of a written time, hours, minutes and seconds are read; the fraction is left. -/
theorem parseTimeFront_text (t : Time) (ht : t.Valid) :
    parseTimeFront t.text = some ({ t with nano := 0 }, fraction t.nano) := by
  obtain ⟨h1, h2, h3, h4⟩ := ht
  unfold parseTimeFront Time.text
  rw [number_two t.hour (by omega)]
  simp only [Option.bind_eq_bind, Option.bind_some, lit, if_true]
  rw [number_two t.minute (by omega)]
  simp only [Option.bind_some, lit, if_true]
  rw [number_two t.second (by omega)]
  simp only [Option.bind_some]
  rw [if_pos ⟨h1, h2, h3, Nat.succ_pos _⟩]

theorem fraction_nil (n : Nat) : fraction n = [] ↔ n = 0 := by
  unfold fraction
  split
  · simp [*]
  · split
    · simp [*]
    · split <;> simp [*]

/-- **Dates are kept.** -/
theorem date_kept (d : Date) (hd : d.Valid) : parseDate d.text = some d := by
  have := parseDateFront_text d hd []
  rw [List.append_nil] at this
  rw [parseDate, this]; rfl

/-- **A time is read again exactly if it has no fraction of a second.** -/
theorem time_kept (t : Time) (ht : t.Valid) : parseTime t.text = if t.nano = 0 then some t else none := by
  rw [parseTime, parseTimeFront_text t ht]
  split
  · next h =>
    rw [(fraction_nil t.nano).2 h]
    simp only [whole]
    rw [← h]
  · next h =>
    cases hf : fraction t.nano with
    | nil => exact absurd ((fraction_nil _).1 hf) h
    | cons c cs => rfl

/-- **A date with a time is read again exactly if it has no fraction of a second.** -/
theorem dateTime_kept (d : Date) (t : Time) (hd : d.Valid) (ht : t.Valid) :
    parseDateTime (d.text ++ ' ' :: t.text) = if t.nano = 0 then some (d, t) else none := by
  have e := parseDateFront_text d hd (' ' :: t.text)
  unfold parseDateTime parseDateTimeSep
  simp only [e, lit, if_true, time_kept t ht]
  by_cases h : t.nano = 0
  · simp [h]
  · simp [h]

/-- **The kind of an error is kept**, its message is not. -/
theorem error_kept (k : Kind) : Err.ofText k.text = ⟨k, none⟩ := by
  cases k <;> decide

/-! ### Values -/

mutual
/-- Dates and times of the value are such. -/
def Lit.Valid : Lit → Prop
  | .date d => d.Valid
  | .dateTime d t => d.Valid ∧ t.Valid
  | .time t => t.Valid
  | .array rows => validRows rows
  | _ => True
def validRow : List Lit → Prop
  | [] => True
  | v :: vs => v.Valid ∧ validRow vs
def validRows : List (List Lit) → Prop
  | [] => True
  | r :: rs => validRow r ∧ validRows rs
end

mutual
/-- Specification: the values that survive. -/
def Exact : Lit → Prop
  | .num n => ∃ q, n = .fin q
  | .dateTime _ t => t.nano = 0
  | .time t => t.nano = 0
  | .duration ns => (1000000000 : Int) ∣ ns
  | .err e => e.message = none
  | .array rows => exactRows rows
  | _ => True
def exactRow : List Lit → Prop
  | [] => True
  | v :: vs => Exact v ∧ exactRow vs
def exactRows : List (List Lit) → Prop
  | [] => True
  | r :: rs => exactRow r ∧ exactRows rs
end

mutual
/-- Specification: somewhere in the value there is a time with a fraction of a second. -/
def fractional : Lit → Bool
  | .dateTime _ t => t.nano != 0
  | .time t => t.nano != 0
  | .array rows => fractionalRows rows
  | _ => false
def fractionalRow : List Lit → Bool
  | [] => false
  | v :: vs => fractional v || fractionalRow vs
def fractionalRows : List (List Lit) → Bool
  | [] => false
  | r :: rs => fractionalRow r || fractionalRows rs
end

mutual
/-- Specification: somewhere in the value there is a number that is not finite. -/
def infinite : Lit → Bool
  | .num (.fin _) => false
  | .num _ => true
  | .array rows => infiniteRows rows
  | _ => false
def infiniteRow : List Lit → Bool
  | [] => false
  | v :: vs => infinite v || infiniteRow vs
def infiniteRows : List (List Lit) → Bool
  | [] => false
  | r :: rs => infiniteRow r || infiniteRows rs
end

mutual
/-- Specification: what a value becomes. Durations lose their fraction, errors their message, and times with a fraction
become text. -/
def cut : Lit → Lit
  | .dateTime d t => if t.nano = 0 then .dateTime d t else .text (d.text ++ ' ' :: t.text)
  | .time t => if t.nano = 0 then .time t else .text t.text
  | .duration ns => .duration (ns.tdiv 1000000000 * 1000000000)
  | .err e => .err ⟨e.kind, none⟩
  | .array rows => .array (cutRows rows)
  | v => v
def cutRow : List Lit → List Lit
  | [] => []
  | v :: vs => cut v :: cutRow vs
def cutRows : List (List Lit) → List (List Lit)
  | [] => []
  | r :: rs => cutRow r :: cutRows rs
end

mutual
theorem serde_spec : ∀ v : Lit, serde (toJson v) = if infinite v then none else some (toJson v)
  | .num (.fin _) => rfl
  | .num (.inf _) => rfl
  | .num .nan => rfl
  | .array rows => by
    rw [toJson, serde, serdeRows_spec rows, infinite]
    cases infiniteRows rows <;> rfl
  | .int _ => rfl
  | .text _ => rfl
  | .bool _ => rfl
  | .empty => rfl
  | .date _ => rfl
  | .dateTime _ _ => rfl
  | .time _ => rfl
  | .duration _ => rfl
  | .err _ => rfl
  | .pending => rfl
theorem serdeRow_spec : ∀ vs : List Lit, serdeRow (rowJson vs) = if infiniteRow vs then none else some (rowJson vs)
  | [] => rfl
  | v :: vs => by
    rw [rowJson, serdeRow, serde_spec v, infiniteRow]
    cases infinite v
    · simp only [Bool.false_or]
      rw [if_neg (by decide), serdeRow_spec vs]
      cases infiniteRow vs <;> rfl
    · rfl
theorem serdeRows_spec : ∀ rs : List (List Lit),
    serdeRows (rowsJson rs) = if infiniteRows rs then none else some (rowsJson rs)
  | [] => rfl
  | r :: rs => by
    rw [rowsJson, serdeRows, serdeRow_spec r, infiniteRows]
    cases infiniteRow r
    · simp only [Bool.false_or]
      rw [if_neg (by decide), serdeRows_spec rs]
      cases infiniteRows rs <;> rfl
    · rfl
end

theorem invalid_spec (strict : Bool) (s : List Char) :
    invalid strict s = if strict then none else some (.text s) := rfl

mutual
theorem ofJson_spec (strict : Bool) : ∀ v : Lit, v.Valid →
    ofJson strict (toJson v) = if strict && fractional v then none else some (cut v)
  | .num _, _ => by simp [toJson, ofJson, fractional, cut]
  | .array rows, h => by
    rw [toJson, ofJson, ofJson_rows strict rows h, fractional, cut]
    cases (strict && fractionalRows rows) <;> rfl
  | .int _, _ => by simp [toJson, ofJson, fractional, cut]
  | .text _, _ => by simp [toJson, ofJson, fractional, cut]
  | .bool _, _ => by simp [toJson, ofJson, fractional, cut]
  | .empty, _ => by simp [toJson, ofJson, fractional, cut]
  | .date d, h => by
    have h : d.Valid := h
    simp [toJson, ofJson, fractional, cut, date_kept d h]
  | .dateTime d t, h => by
    have h : d.Valid ∧ t.Valid := h
    simp only [toJson, ofJson, fractional, cut, dateTime_kept d t h.1 h.2, invalid]
    by_cases e : t.nano = 0
    · simp [e]
    · cases strict <;> simp [e]
  | .time t, h => by
    have h : t.Valid := h
    simp only [toJson, ofJson, fractional, cut, time_kept t h, invalid]
    by_cases e : t.nano = 0
    · simp [e]
    · cases strict <;> simp [e]
  | .duration _, _ => by simp [toJson, ofJson, fractional, cut]
  | .err e, _ => by simp [toJson, ofJson, fractional, cut, error_kept]
  | .pending, _ => by simp [toJson, ofJson, fractional, cut]
theorem ofJson_row (strict : Bool) : ∀ vs : List Lit, validRow vs →
    rowOf strict (rowJson vs) = if strict && fractionalRow vs then none else some (cutRow vs)
  | [], _ => by simp [rowJson, rowOf, fractionalRow, cutRow]
  | v :: vs, h => by
    rw [rowJson, rowOf, ofJson_spec strict v h.1, ofJson_row strict vs h.2, fractionalRow, cutRow]
    cases strict <;> cases fractional v <;> cases fractionalRow vs <;> rfl
theorem ofJson_rows (strict : Bool) : ∀ rs : List (List Lit), validRows rs →
    rowsOf strict (rowsJson rs) = if strict && fractionalRows rs then none else some (cutRows rs)
  | [], _ => by simp [rowsJson, rowsOf, fractionalRows, cutRows]
  | r :: rs, h => by
    rw [rowsJson, rowsOf, ofJson_row strict r h.1, ofJson_rows strict rs h.2, fractionalRows, cutRows]
    cases strict <;> cases fractionalRow r <;> cases fractionalRows rs <;> rfl
end

/-- **What a saved value is when read again**: nothing, if it has a number that is not finite, or, in the default strict
mode, a time with a fraction of a second; otherwise the value without fractions and messages. -/
theorem saved_spec (strict : Bool) (v : Lit) (hv : v.Valid) :
    saved strict v = if infinite v || (strict && fractional v) then none else some (cut v) := by
  rw [saved, serde_spec v]
  cases infinite v
  · simp only [Bool.false_or]
    rw [if_neg (by decide)]
    exact ofJson_spec strict v hv
  · rfl

mutual
theorem exact_iff : ∀ v : Lit, Exact v ↔ infinite v = false ∧ cut v = v
  | .num (.fin q) => by simp [Exact, infinite, cut]
  | .num (.inf _) => by simp [Exact, infinite]
  | .num .nan => by simp [Exact, infinite]
  | .array rows => by simp [Exact, infinite, cut, exactRows_iff rows]
  | .int _ => by simp [Exact, infinite, cut]
  | .text _ => by simp [Exact, infinite, cut]
  | .bool _ => by simp [Exact, infinite, cut]
  | .empty => by simp [Exact, infinite, cut]
  | .date _ => by simp [Exact, infinite, cut]
  | .dateTime d t => by
    by_cases e : t.nano = 0 <;> simp [Exact, infinite, cut, e]
  | .time t => by
    by_cases e : t.nano = 0 <;> simp [Exact, infinite, cut, e]
  | .duration ns => by
    simp only [Exact, infinite, cut, true_and, Lit.duration.injEq]
    constructor
    · intro h; exact Int.tdiv_mul_cancel h
    · intro h; exact ⟨_, by rw [Int.mul_comm]; exact h.symm⟩
  | .err ⟨k, m⟩ => by
    simp only [Exact, infinite, cut, true_and, Lit.err.injEq, Err.mk.injEq]
    exact eq_comm
  | .pending => by simp [Exact, infinite, cut]
theorem exactRow_iff : ∀ vs : List Lit, exactRow vs ↔ infiniteRow vs = false ∧ cutRow vs = vs
  | [] => by simp [exactRow, infiniteRow, cutRow]
  | v :: vs => by
    simp only [exactRow, infiniteRow, cutRow, exact_iff v, exactRow_iff vs, Bool.or_eq_false_iff, List.cons.injEq]
    constructor
    · rintro ⟨⟨a, b⟩, c, d⟩; exact ⟨⟨a, c⟩, b, d⟩
    · rintro ⟨⟨a, c⟩, b, d⟩; exact ⟨⟨a, b⟩, c, d⟩
theorem exactRows_iff : ∀ rs : List (List Lit), exactRows rs ↔ infiniteRows rs = false ∧ cutRows rs = rs
  | [] => by simp [exactRows, infiniteRows, cutRows]
  | r :: rs => by
    simp only [exactRows, infiniteRows, cutRows, exactRow_iff r, exactRows_iff rs, Bool.or_eq_false_iff, List.cons.injEq]
    constructor
    · rintro ⟨⟨a, b⟩, c, d⟩; exact ⟨⟨a, c⟩, b, d⟩
    · rintro ⟨⟨a, c⟩, b, d⟩; exact ⟨⟨a, b⟩, c, d⟩
end

mutual
theorem cut_frac : ∀ v : Lit, cut v = v → fractional v = false
  | .array rows => by
    intro h
    rw [cut] at h
    exact cutRows_frac rows (by injection h)
  | .dateTime d t => by
    by_cases e : t.nano = 0 <;> simp [fractional, cut, e]
  | .time t => by
    by_cases e : t.nano = 0 <;> simp [fractional, cut, e]
  | .num _ => fun _ => rfl
  | .int _ => fun _ => rfl
  | .text _ => fun _ => rfl
  | .bool _ => fun _ => rfl
  | .empty => fun _ => rfl
  | .date _ => fun _ => rfl
  | .duration _ => fun _ => rfl
  | .err _ => fun _ => rfl
  | .pending => fun _ => rfl
theorem cutRow_frac : ∀ vs : List Lit, cutRow vs = vs → fractionalRow vs = false
  | [] => fun _ => rfl
  | v :: vs => by
    intro h
    rw [cutRow] at h
    injection h with h1 h2
    rw [fractionalRow, cut_frac v h1, cutRow_frac vs h2]; rfl
theorem cutRows_frac : ∀ rs : List (List Lit), cutRows rs = rs → fractionalRows rs = false
  | [] => fun _ => rfl
  | r :: rs => by
    intro h
    rw [cutRows] at h
    injection h with h1 h2
    rw [fractionalRows, cutRow_frac r h1, cutRows_frac rs h2]; rfl
end

/-- **A value saved and read again is the same exactly if** all its numbers are finite, its times and durations are whole
seconds and its errors have no message — in either mode, for arrays of any depth. -/
theorem round_trip (strict : Bool) (v : Lit) (hv : v.Valid) : saved strict v = some v ↔ Exact v := by
  rw [saved_spec strict v hv, exact_iff]
  constructor
  · intro h
    split at h
    · cases h
    · next hb =>
      injection h with h
      simp only [Bool.or_eq_true, not_or, Bool.not_eq_true] at hb
      exact ⟨hb.1, h⟩
  · rintro ⟨h1, h2⟩
    rw [h1, cut_frac v h2, h2]
    simp

example : saved true (.array [[.date ⟨2024, 2, 29⟩, .time ⟨23, 59, 58, 0⟩], [.err ⟨.div, none⟩, .array [[.duration (-3000000000)]]]])
    = some (.array [[.date ⟨2024, 2, 29⟩, .time ⟨23, 59, 58, 0⟩], [.err ⟨.div, none⟩, .array [[.duration (-3000000000)]]]]) := by
  rw [round_trip _ _ (by simp [Lit.Valid, validRows, validRow]; decide)]
  simp [Exact, exactRows, exactRow]

/-- **Refuted: what is saved can be read.** A time of half a second past midnight is written as `00:00:00.500` and then
refused: the workbook does not open in the default mode, and has a text in its place in the other. -/
theorem fraction_refuted : saved true (.time ⟨0, 0, 0, 500000000⟩) = none ∧
    saved true (.dateTime ⟨2024, 1, 1⟩ ⟨12, 0, 0, 1⟩) = none ∧
    saved false (.time ⟨0, 0, 0, 500000000⟩) = some (.text "00:00:00.500".toList) := by
  refine ⟨?_, ?_, ?_⟩
  · rw [saved_spec _ _ (by simp [Lit.Valid]; decide)]; rfl
  · rw [saved_spec _ _ (by simp [Lit.Valid]; decide)]; rfl
  · rw [saved_spec _ _ (by simp [Lit.Valid]; decide)]
    simp [infinite, cut, Time.text, digs, fraction, digit]

/-- **Refuted: values are kept.** A duration of -1.5 seconds becomes one of -1 second, an error loses its message, and
an infinite number makes the file unreadable. -/
theorem value_refuted : saved true (.duration (-1500000000)) = some (.duration (-1000000000)) ∧
    saved true (.err ⟨.value, some ['x']⟩) = some (.err ⟨.value, none⟩) ∧
    saved true (.num (.inf false)) = none := by
  refine ⟨?_, ?_, ?_⟩
  · rw [saved_spec _ _ (by simp [Lit.Valid])]; rfl
  · rw [saved_spec _ _ (by simp [Lit.Valid])]; rfl
  · rfl

end Verif.Json

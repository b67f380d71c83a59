import Mathlib.Algebra.Order.Floor.Ring
import Mathlib.Data.Rat.Floor
import Mathlib.Tactic.IntervalCases
import Mathlib.Tactic.Linarith
import Verif.TextFn.NumberValue

/-!
# TEXT of dates

Model of `format_serial_date`, `/repo/crates/formualizer-eval/src/builtins/text/value_text.rs`
439-472.  Serial numbers are rationals; the year, month and day of a serial number
(`try_serial_to_display_date_parts_for`) are a parameter.
-/

namespace Verif.TextFn

/-- A digit. -/
def digit (n : Nat) : Char := Char.ofNat (48 + n % 10)

/-- `{:0w}` of a number with at most `w` digits. -/
def pad : Nat → Nat → List Char
  | 0, _ => []
  | w + 1, n => pad w (n / 10) ++ [digit n]

/-- The serial number shown and the minutes of the day, for a code with `hh:mm`: value_text.rs
450-457.  For serial numbers from 0 on, where `fract` and `round` are those of the floor. -/
def clock (n : ℚ) : ℚ × Nat :=
  let total := ⌊(n - ⌊n⌋) * 1440 + 1 / 2⌋.toNat
  if total = 1440 then ((⌊n⌋ : ℚ) + 1, 0) else (n, total)

/-- `format_serial_date`: value_text.rs 439-472. -/
def dateText (parts : ℚ → Option (Nat × Nat × Nat)) (n : ℚ) (fmt : List Char) :
    Option (List Char) :=
  let timed := NumFmt.has "hh:mm".toList fmt
  let c := clock n
  match parts (if timed then c.1 else n) with
  | none => none
  | some (year, month, day) =>
    let out := if timed then
        replace "hh:mm".toList (pad 2 (c.2 / 60) ++ ':' :: pad 2 (c.2 % 60)) fmt
      else fmt
    let out := replace "yyyy".toList (pad 4 year) out
    let out := replace "mm".toList (pad 2 month) out
    some (replace "dd".toList (pad 2 day) out)

/-! ## The clock -/

/-- **C118.** The day and the minutes shown are those of the moment half a minute away or nearer, and
there are never 24 hours. -/
theorem clock_near (n : ℚ) (h : 0 ≤ n) :
    (clock n).2 < 1440 ∧ |(⌊(clock n).1⌋ : ℚ) * 1440 + (clock n).2 - n * 1440| ≤ 1 / 2 := by
  have _ := h
  have f0 : 0 ≤ n - ⌊n⌋ := by linarith [Int.floor_le n]
  have f1 : n - ⌊n⌋ < 1 := by linarith [Int.lt_floor_add_one n]
  have t0 : 0 ≤ ⌊(n - ⌊n⌋) * 1440 + 1 / 2⌋ := Int.floor_nonneg.mpr (by linarith)
  have t1 : ⌊(n - ⌊n⌋) * 1440 + 1 / 2⌋ < 1441 := Int.floor_lt.mpr (by push_cast; linarith)
  have r1 := Int.floor_le ((n - ⌊n⌋) * 1440 + 1 / 2)
  have r2 := Int.lt_floor_add_one ((n - ⌊n⌋) * 1440 + 1 / 2)
  unfold clock
  generalize hT : ⌊(n - ⌊n⌋) * 1440 + 1 / 2⌋ = T at *
  obtain ⟨k, rfl⟩ := Int.eq_ofNat_of_zero_le t0
  simp only [Int.toNat_natCast]
  simp only [Int.cast_natCast] at r1 r2
  by_cases hk : k = 1440
  · subst hk
    rw [if_pos rfl]
    refine ⟨by simp only; omega, ?_⟩
    have e : ⌊(⌊n⌋ : ℚ) + 1⌋ = ⌊n⌋ + 1 := by
      rw [Int.floor_add_one, Int.floor_intCast]
    simp only [e]
    push_cast at r1 r2 ⊢
    rw [abs_le]
    constructor <;> linarith
  · rw [if_neg hk]
    refine ⟨by simp only; omega, ?_⟩
    simp only
    rw [abs_le]
    constructor <;> linarith

/-! ## Codes made of tokens -/

theorem replace_skip (p r s t : List Char) :
    replaceGo p r s.length (s ++ t) = replaceGo p r 0 t := by
  induction s with
  | nil => rfl
  | cons c s ih => exact ih

theorem replace_segments (c : Char) (p r : List Char) (segs : List (List Char))
    (h : ∀ s ∈ segs, s = c :: p ∨ c ∉ s) :
    replace (c :: p) r segs.flatten = (segs.map fun s => if s = c :: p then r else s).flatten := by
  unfold replace
  rw [if_neg (by simp)]
  induction segs with
  | nil => rfl
  | cons s segs ih =>
    have ih := ih fun s hs => h s (List.mem_cons_of_mem _ hs)
    rw [List.flatten_cons, List.map_cons, List.flatten_cons]
    rcases h s (List.mem_cons_self ..) with rfl | hs
    · rw [if_pos rfl, List.cons_append, replaceGo, if_pos, List.length_cons, Nat.add_sub_cancel,
        replace_skip, ih]
      exact List.isPrefixOf_iff_prefix.mpr ⟨segs.flatten, rfl⟩
    · rw [if_neg (by rintro rfl; exact hs (List.mem_cons_self ..)), ← ih]
      induction s with
      | nil => rfl
      | cons x s ihs =>
        have hx : x ≠ c := fun h => hs (by rw [h]; exact List.mem_cons_self ..)
        rw [List.cons_append, replaceGo, if_neg, List.cons_append]
        · congr 1
          refine ihs ?_ fun h => hs (List.mem_cons_of_mem _ h)
          intro s' hs'
          rcases List.mem_cons.mp hs' with rfl | h'
          · exact Or.inr fun h => hs (List.mem_cons_of_mem _ h)
          · exact h s' (List.mem_cons_of_mem _ h')
        · simp [List.isPrefixOf, Ne.symm hx]

/-- A part of a code of dates: four, two or two letters, a time, or another character. -/
inductive Tok where
  | year
  | month
  | day
  | time
  | lit (c : Char)
deriving DecidableEq

/-- How it is written. -/
def Tok.code : Tok → List Char
  | .year => "yyyy".toList
  | .month => "mm".toList
  | .day => "dd".toList
  | .time => "hh:mm".toList
  | .lit c => [c]

/-- What it stands for. -/
def Tok.shown (y m d t : List Char) : Tok → List Char
  | .year => y
  | .month => m
  | .day => d
  | .time => t
  | .lit c => [c]

/-- A character that is none of the letters `y`, `m`, `d`, `h`. -/
def Tok.Ok : Tok → Prop
  | .lit c => c ≠ 'y' ∧ c ≠ 'm' ∧ c ≠ 'd' ∧ c ≠ 'h'
  | _ => True

theorem digit_ne (n : Nat) (c : Char) (h : c = 'y' ∨ c = 'm' ∨ c = 'd' ∨ c = 'h') : digit n ≠ c := by
  unfold digit
  have : n % 10 < 10 := Nat.mod_lt _ (by decide)
  generalize n % 10 = k at this
  revert this h
  rintro (rfl | rfl | rfl | rfl) hk <;> interval_cases k <;> decide

theorem pad_no (w n : Nat) (c : Char) (h : c = 'y' ∨ c = 'm' ∨ c = 'd' ∨ c = 'h') : c ∉ pad w n := by
  induction w generalizing n with
  | zero => exact List.not_mem_nil
  | succ w ih =>
    intro hc
    rcases List.mem_append.mp hc with hc | hc
    · exact ih _ hc
    · exact digit_ne n c h (List.mem_singleton.mp hc).symm

theorem digit_value (n : Nat) : (digit n).toNat = 48 + n % 10 := by
  unfold digit
  have : n % 10 < 10 := Nat.mod_lt _ (by decide)
  generalize n % 10 = k at this
  interval_cases k <;> decide

/-- **C118.** A padded number has the digits asked for, which read as the number if it has no more. -/
theorem pad_value (w n : Nat) : (pad w n).length = w ∧
    (n < 10 ^ w → (pad w n).foldl (fun a c => 10 * a + (c.toNat - 48)) 0 = n) := by
  induction w generalizing n with
  | zero =>
    refine ⟨rfl, fun h => ?_⟩
    rw [pow_zero] at h
    simp only [pad, List.foldl_nil]
    omega
  | succ w ih =>
    constructor
    · rw [pad, List.length_append, (ih (n / 10)).1]
      rfl
    · intro h
      rw [pow_succ] at h
      rw [pad, List.foldl_append, (ih (n / 10)).2 (by omega), List.foldl_cons, List.foldl_nil,
        digit_value]
      omega

theorem replace_stage (c : Char) (p r : List Char) (ts : List Tok) (a b : Tok → List Char)
    (h : ∀ t ∈ ts, (a t = c :: p ∧ b t = r) ∨ (c ∉ a t ∧ b t = a t)) :
    replace (c :: p) r (ts.flatMap a) = ts.flatMap b := by
  rw [List.flatMap_def, replace_segments c p r (ts.map a) (by
    intro s hs
    obtain ⟨t, ht, rfl⟩ := List.mem_map.mp hs
    rcases h t ht with h | h
    · exact Or.inl h.1
    · exact Or.inr h.1), List.map_map, List.flatMap_def]
  congr 1
  apply List.map_congr_left
  intro t ht
  simp only [Function.comp]
  rcases h t ht with ⟨h1, h2⟩ | ⟨h1, h2⟩
  · rw [if_pos h1, h2]
  · rw [if_neg (fun e => h1 (by rw [e]; exact List.mem_cons_self ..)), h2]

theorem has_append (p a b : List Char) : NumFmt.has p (a ++ (p ++ b)) = true := by
  induction a with
  | nil =>
    have hp : p.isPrefixOf (p ++ b) = true := List.isPrefixOf_iff_prefix.mpr ⟨b, rfl⟩
    cases hc : p ++ b with
    | nil => rw [hc] at hp; exact hp
    | cons x l => rw [hc] at hp; simp [NumFmt.has, hp]
  | cons x a ih => simp [NumFmt.has, ih]

/-- **C118.** In a code made of `yyyy`, `mm`, `dd`, `hh:mm` and other characters, every part is
replaced by what it stands for and everything else stays: the year with four digits, the month, the
day, hours and minutes with two.  With a time the date is that of the moment shown. -/
theorem date_spec (parts : ℚ → Option (Nat × Nat × Nat)) (n : ℚ) (ts : List Tok)
    (hok : ∀ t ∈ ts, t.Ok) :
    dateText parts n (ts.flatMap Tok.code) =
      (parts (if Tok.time ∈ ts then (clock n).1 else n)).map fun x =>
        ts.flatMap (Tok.shown (pad 4 x.1) (pad 2 x.2.1) (pad 2 x.2.2)
          (pad 2 ((clock n).2 / 60) ++ ':' :: pad 2 ((clock n).2 % 60))) := by
  have htimed : NumFmt.has "hh:mm".toList (ts.flatMap Tok.code) = true ↔
      Tok.time ∈ ts := by
    constructor
    · intro h
      have hm := NumFmt.has_mem _ _ h 'h' (by decide)
      obtain ⟨t, ht, hc⟩ := List.mem_flatMap.mp hm
      have : t = .time := by
        cases t with
        | time => rfl
        | lit c =>
          have := hok _ ht
          exact absurd (List.mem_singleton.mp hc).symm this.2.2.2
        | year => revert hc; decide
        | month => revert hc; decide
        | day => revert hc; decide
      subst this
      exact ht
    · intro h
      obtain ⟨a, b, rfl⟩ := List.append_of_mem h
      rw [List.flatMap_append, List.flatMap_cons]
      exact has_append _ _ _
  generalize ht : pad 2 ((clock n).2 / 60) ++ ':' :: pad 2 ((clock n).2 % 60) = tm
  have htm : ∀ c, (c = 'y' ∨ c = 'm' ∨ c = 'd' ∨ c = 'h') → c ∉ tm := by
    intro c hc h
    rw [← ht] at h
    rcases List.mem_append.mp h with h | h
    · exact pad_no _ _ c hc h
    · rcases List.mem_cons.mp h with h | h
      · rcases hc with rfl | rfl | rfl | rfl <;> revert h <;> decide
      · exact pad_no _ _ c hc h
  have s1 : (if NumFmt.has "hh:mm".toList (ts.flatMap Tok.code) then
      replace "hh:mm".toList tm (ts.flatMap Tok.code) else ts.flatMap Tok.code) =
      ts.flatMap (Tok.shown "yyyy".toList "mm".toList "dd".toList tm) := by
    by_cases hh : NumFmt.has "hh:mm".toList (ts.flatMap Tok.code) = true
    · rw [if_pos hh]
      apply replace_stage 'h' "h:mm".toList
      intro t h
      cases t with
      | time => exact Or.inl ⟨rfl, rfl⟩
      | lit c => exact Or.inr ⟨fun hc => (hok _ h).2.2.2 (List.mem_singleton.mp hc).symm, rfl⟩
      | year => exact Or.inr ⟨by decide, rfl⟩
      | month => exact Or.inr ⟨by decide, rfl⟩
      | day => exact Or.inr ⟨by decide, rfl⟩
    · rw [if_neg hh]
      have hno : ∀ t ∈ ts, t ≠ .time := by
        rintro t h rfl
        exact hh (htimed.mpr h)
      apply List.flatMap_congr
      intro t h
      cases t with
      | time => exact absurd rfl (hno _ h)
      | _ => rfl
  have hif : (if NumFmt.has "hh:mm".toList (ts.flatMap Tok.code) then (clock n).1 else n) =
      if Tok.time ∈ ts then (clock n).1 else n := by
    by_cases hh : NumFmt.has "hh:mm".toList (ts.flatMap Tok.code) = true
    · rw [if_pos hh, if_pos (htimed.mp hh)]
    · rw [if_neg hh, if_neg fun h => hh (htimed.mpr h)]
  unfold dateText
  simp only [ht, s1, hif]
  cases parts (if Tok.time ∈ ts then (clock n).1 else n) with
  | none => rfl
  | some x =>
    obtain ⟨y, m, d⟩ := x
    simp only [Option.map_some, Option.some.injEq]
    have s2 : replace "yyyy".toList (pad 4 y)
        (ts.flatMap (Tok.shown "yyyy".toList "mm".toList "dd".toList tm)) =
        ts.flatMap (Tok.shown (pad 4 y) "mm".toList "dd".toList tm) := by
      apply replace_stage 'y' "yyy".toList
      intro t h
      cases t with
      | year => exact Or.inl ⟨rfl, rfl⟩
      | lit c => exact Or.inr ⟨fun hc => (hok _ h).1 (List.mem_singleton.mp hc).symm, rfl⟩
      | time => exact Or.inr ⟨htm _ (by simp), rfl⟩
      | month => exact Or.inr ⟨show 'y' ∉ "mm".toList by decide, rfl⟩
      | day => exact Or.inr ⟨show 'y' ∉ "dd".toList by decide, rfl⟩
    have s3 : replace "mm".toList (pad 2 m)
        (ts.flatMap (Tok.shown (pad 4 y) "mm".toList "dd".toList tm)) =
        ts.flatMap (Tok.shown (pad 4 y) (pad 2 m) "dd".toList tm) := by
      apply replace_stage 'm' "m".toList
      intro t h
      cases t with
      | month => exact Or.inl ⟨rfl, rfl⟩
      | lit c => exact Or.inr ⟨fun hc => (hok _ h).2.1 (List.mem_singleton.mp hc).symm, rfl⟩
      | time => exact Or.inr ⟨htm _ (by simp), rfl⟩
      | year => exact Or.inr ⟨pad_no _ _ _ (by simp), rfl⟩
      | day => exact Or.inr ⟨show 'm' ∉ "dd".toList by decide, rfl⟩
    have s4 : replace "dd".toList (pad 2 d)
        (ts.flatMap (Tok.shown (pad 4 y) (pad 2 m) "dd".toList tm)) =
        ts.flatMap (Tok.shown (pad 4 y) (pad 2 m) (pad 2 d) tm) := by
      apply replace_stage 'd' "d".toList
      intro t h
      cases t with
      | day => exact Or.inl ⟨rfl, rfl⟩
      | lit c => exact Or.inr ⟨fun hc => (hok _ h).2.2.1 (List.mem_singleton.mp hc).symm, rfl⟩
      | time => exact Or.inr ⟨htm _ (by simp), rfl⟩
      | year => exact Or.inr ⟨pad_no _ _ _ (by simp), rfl⟩
      | month => exact Or.inr ⟨pad_no _ _ _ (by simp), rfl⟩
    rw [s2, s3, s4]

/-- **C118.** TEXT takes a code for one of dates if it has one of the four parts and none of the
characters `%`, `#` and `0`, whatever else stands between. -/
theorem text_date (fixed : Nat → ℚ → List Char) (shw : ℚ → List Char)
    (parts : ℚ → Option (Nat × Nat × Nat)) (n : ℚ) (ts : List Tok)
    (hlit : ∀ c, Tok.lit c ∈ ts → c ≠ '%' ∧ c ≠ '#' ∧ c ≠ '0')
    (hd : ∃ t ∈ ts, ∀ c, t ≠ .lit c) :
    text ⟨fixed, shw, dateText parts⟩ n (ts.flatMap Tok.code) =
      dateText parts n (ts.flatMap Tok.code) := by
  have no : ∀ c : Char, (c = '%' ∨ c = '#' ∨ c = '0') → c ∉ ts.flatMap Tok.code := by
    intro c hc hm
    obtain ⟨t, ht, h⟩ := List.mem_flatMap.mp hm
    cases t with
    | lit x =>
      have := hlit x ht
      rw [← List.mem_singleton.mp h] at this
      rcases hc with rfl | rfl | rfl
      · exact this.1 rfl
      · exact this.2.1 rfl
      · exact this.2.2 rfl
    | year => rcases hc with rfl | rfl | rfl <;> revert h <;> decide
    | month => rcases hc with rfl | rfl | rfl <;> revert h <;> decide
    | day => rcases hc with rfl | rfl | rfl <;> revert h <;> decide
    | time => rcases hc with rfl | rfl | rfl <;> revert h <;> decide
  have k : ∀ c : Char, (c = '%' ∨ c = '#' ∨ c = '0') → (ts.flatMap Tok.code).contains c = false :=
    fun c hc => by simpa using no c hc
  have h0 : NumFmt.has "0.00".toList (ts.flatMap Tok.code) = false :=
    NumFmt.has_not _ _ '0' (by decide) (no '0' (by simp))
  have hdate : (NumFmt.has "yyyy".toList (ts.flatMap Tok.code) ||
      NumFmt.has "dd".toList (ts.flatMap Tok.code) ||
      NumFmt.has "mm".toList (ts.flatMap Tok.code)) = true := by
    obtain ⟨t, ht, hl⟩ := hd
    obtain ⟨a, b, rfl⟩ := List.append_of_mem ht
    rw [List.flatMap_append, List.flatMap_cons]
    cases t with
    | lit c => exact absurd rfl (hl c)
    | year => rw [show Tok.year.code = "yyyy".toList from rfl, has_append "yyyy".toList]; rfl
    | day =>
      rw [show Tok.day.code = "dd".toList from rfl, has_append "dd".toList, Bool.or_true]; rfl
    | month =>
      rw [show Tok.month.code = "mm".toList from rfl, has_append "mm".toList, Bool.or_true]
    | time =>
      have := has_append "mm".toList (a.flatMap Tok.code ++ "hh:".toList) (b.flatMap Tok.code)
      rw [List.append_assoc] at this
      rw [show Tok.time.code ++ b.flatMap Tok.code =
        "hh:".toList ++ ("mm".toList ++ b.flatMap Tok.code) from rfl, this, Bool.or_true]
  have hne : ts.flatMap Tok.code ≠ [] := by
    intro h
    rw [h] at hdate
    revert hdate
    decide
  unfold text
  rw [if_neg hne, k '%' (by simp), k '#' (by simp), k '0' (by simp), h0, hdate]
  rfl

/-- Half past nine in the evening of some day, and a moment before midnight. -/
example : dateText (fun q => if q < 45001 then some (2023, 3, 15) else some (2023, 3, 16))
      (45000 + 43 / 48) "dd.mm.yyyy hh:mm".toList = some "15.03.2023 21:30".toList ∧
    dateText (fun q => if q < 45001 then some (2023, 3, 15) else some (2023, 3, 16))
      (45001 - 1 / 86400) "yyyy-mm-dd hh:mm".toList = some "2023-03-16 00:00".toList := by
  decide +kernel

/-! ## What fails -/

/-- **C118, refuted.** Seconds, names of months and halves of the day are not understood: the letters
stay, and `mmm` is a number and a letter. -/
theorem date_letters_fail (n : ℚ) (y m d : Nat) (parts : ℚ → Option (Nat × Nat × Nat))
    (h : ∀ q, parts q = some (y, m, d)) :
    dateText parts n "mmm".toList = some (pad 2 m ++ ['m']) ∧
      dateText parts n "hh:mm:ss".toList =
        some (pad 2 ((clock n).2 / 60) ++ ':' :: pad 2 ((clock n).2 % 60) ++ ":ss".toList) := by
  constructor
  · unfold dateText
    simp only [h]
    rw [if_neg (by decide)]
    change some (replace "dd".toList (pad 2 d) (pad 2 m ++ ['m'])) = _
    have hd : 'd' ∉ pad 2 m ++ ['m'] := by
      intro hc
      rcases List.mem_append.mp hc with hc | hc
      · exact pad_no _ _ _ (by simp) hc
      · revert hc; decide
    have e := replace_segments 'd' "d".toList (pad 2 d) [pad 2 m ++ ['m']] (by
      intro s hs
      rw [List.mem_singleton.mp hs]
      exact Or.inr hd)
    rw [List.map_cons, List.map_nil, if_neg (fun he => hd (by rw [he]; exact List.mem_cons_self ..)),
      List.flatten_singleton] at e
    exact congrArg some e
  · have := date_spec parts n [.time, .lit ':', .lit 's', .lit 's'] (by
      intro t ht
      rcases List.mem_cons.mp ht with rfl | ht
      · trivial
      · rcases List.mem_cons.mp ht with rfl | ht
        · exact ⟨by decide, by decide, by decide, by decide⟩
        · have : t = .lit 's' := by simpa using ht
          subst this
          exact ⟨by decide, by decide, by decide, by decide⟩)
    rw [show "hh:mm:ss".toList = [Tok.time, .lit ':', .lit 's', .lit 's'].flatMap Tok.code by decide,
      this, h]
    simp [Tok.shown]

end Verif.TextFn

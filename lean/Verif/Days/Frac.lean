import Mathlib.Algebra.Order.BigOperators.Group.Finset
import Verif.Days.Count

/-!
# YEARFRAC
-/

namespace Verif.Days

open Verif.Dates

theorem daysInYear_eq (y : Int) : daysInYear y = yearStart (y + 1) - yearStart y := by
  rw [yearStart_succ]
  unfold daysInYear
  split <;> omega

theorem daysInYear_pos (y : Int) : (0 : Rat) < daysInYear y := by
  unfold daysInYear
  split <;> norm_num

/-- How far the calendar has gone at the beginning of a day: the year, and the share of it
that has passed. -/
def position (d : Date) : Rat := d.year + ((d.dayNumber - yearStart d.year - 1 : Int) : Rat) / daysInYear d.year

theorem addYears_eq (n : Nat) (x : Rat) : addYears n x = x + n := by
  induction n generalizing x with
  | zero => simp [addYears]
  | succ n ih => rw [addYears, ih]; push_cast; ring

theorem jan_first (y : Int) : (Date.mk y 1 1).dayNumber = yearStart y + 1 := by
  unfold Date.dayNumber
  simp only [daysBefore_1]
  omega

theorem year_le_of_le {a b : Date} (h : a.le b) : a.year ≤ b.year := by
  rcases h with h | h
  · unfold Date.lt at h; omega
  · rw [h]

theorem actAct_position {a b : Date} (h : a.le b) : actAct a b = position b - position a := by
  have hp := daysInYear_pos a.year
  have hq := daysInYear_pos b.year
  unfold actAct
  split
  · rename_i e
    unfold position actual
    rw [← e]
    push_cast
    field_simp
    ring
  · rename_i e
    have hy := year_le_of_le h
    rw [addYears_eq]
    unfold position actual
    rw [jan_first, jan_first]
    have e1 : (((b.year - (a.year + 1)).toNat : Nat) : Rat) = b.year - a.year - 1 := by
      have : (((b.year - (a.year + 1)).toNat : Nat) : Int) = b.year - a.year - 1 := by omega
      have := congrArg (fun z : Int => (z : Rat)) this
      push_cast at this
      exact this
    rw [e1]
    have e2 : ((yearStart (a.year + 1) + 1 - a.dayNumber : Int) : Rat) / daysInYear a.year =
        1 - ((a.dayNumber - yearStart a.year - 1 : Int) : Rat) / daysInYear a.year := by
      have e3 := congrArg (fun z : Int => (z : Rat)) (daysInYear_eq a.year)
      rw [eq_sub_iff_add_eq, ← add_div, div_eq_one_iff_eq (ne_of_gt hp), e3]
      push_cast
      ring
    rw [e2]
    push_cast
    ring

theorem position_next {d : Date} (h : d.Valid) : position d.next = position d + 1 / daysInYear d.year := by
  have hp := daysInYear_pos d.year
  have hn := dayNumber_next h
  have hy : d.next.year = d.year ∨ d.next = ⟨d.year + 1, 1, 1⟩ := by
    unfold Date.next
    split
    · exact Or.inl rfl
    · split
      · exact Or.inl rfl
      · exact Or.inr rfl
  rcases hy with hy | hy
  · unfold position
    rw [hy, hn]
    push_cast
    field_simp
    ring
  · have e : d.dayNumber = yearStart (d.year + 1) := by
      have := jan_first (d.year + 1)
      rw [← hy] at this
      omega
    unfold position
    rw [hy, jan_first, e]
    have e3 := daysInYear_eq d.year
    have e4 : ((yearStart (d.year + 1) - yearStart d.year - 1 : Int) : Rat) = daysInYear d.year - 1 := by
      rw [e3]; push_cast; ring
    rw [e4]
    simp only [add_sub_cancel_left, sub_self, Int.cast_zero, zero_div]
    push_cast
    field_simp
    ring

theorem position_sum {a : Date} (ha : a.Valid) (n : Nat) :
    position (addDays a n) - position a = ∑ i ∈ Finset.range n, 1 / (daysInYear (addDays a i).year : Rat) := by
  induction n with
  | zero => simp [addDays, iter]
  | succ n ih =>
    rw [Finset.sum_range_succ, ← ih]
    have hv := (addDays_spec ha n).1
    have hd := (addDays_spec ha n).2
    have e : addDays a ((n + 1 : Nat) : Int) = (addDays a n).next := by
      apply dayNumber_inj (addDays_spec ha _).1 (next_valid hv)
      rw [(addDays_spec ha _).2, dayNumber_next hv, hd]
      push_cast; ring
    rw [e, position_next hv]
    ring

/-- The place of a date on the scale of a basis. -/
def scale (basis : Int) (d : Date) : Rat :=
  if basis = 1 then position d
  else if basis = 2 then (d.dayNumber : Rat) / 360
  else if basis = 3 then (d.dayNumber : Rat) / 365
  else ((360 * d.year + 30 * d.month + cap30 d.day : Int) : Rat) / 360

theorem fraction_scale {a b : Date} (h : a.le b) {k : Int} (hk : k ≠ 0) :
    fraction a b k = scale k b - scale k a := by
  unfold fraction scale
  rw [if_neg hk]
  by_cases h1 : k = 1
  · rw [if_pos h1, if_pos h1, if_pos h1]; exact actAct_position h
  rw [if_neg h1, if_neg h1, if_neg h1]
  by_cases h2 : k = 2
  · rw [if_pos h2, if_pos h2, if_pos h2]; unfold actual; push_cast; ring
  rw [if_neg h2, if_neg h2, if_neg h2]
  by_cases h3 : k = 3
  · rw [if_pos h3, if_pos h3, if_pos h3]; unfold actual; push_cast; ring
  rw [if_neg h3, if_neg h3, if_neg h3]
  unfold days360 count360
  simp only [if_true]
  push_cast
  ring

theorem le_or {a b : Date} : a.le b ∨ b.le a := by
  rcases Date.lt_trichotomy a b with h | h | h
  · exact Or.inl (Or.inl h)
  · exact Or.inl (Or.inr h)
  · exact Or.inr (Or.inl h)

theorem yearfrac_scale (a b : Date) {k : Int} (h1 : 1 ≤ k) (h2 : k ≤ 4) :
    yearfrac a b k = some (scale k b - scale k a) := by
  unfold yearfrac
  rw [if_neg (by omega)]
  split
  · rename_i e; rw [e]; simp
  · split
    · rename_i h; rw [fraction_scale h (by omega)]; simp
    · rename_i h
      rw [fraction_scale (le_or.resolve_left h) (by omega)]
      congr 1
      ring

/-- **C109** (5): by actual days, every day counts as one part of the year it lies in. -/
theorem yearfrac_days {a b : Date} (ha : a.Valid) (hb : b.Valid) (h : a.le b) :
    yearfrac a b 1 = some (∑ i ∈ Finset.range (actual a b).toNat, 1 / (daysInYear (addDays a i).year : Rat)) := by
  rw [yearfrac_scale a b (by decide) (by decide)]
  have hn : 0 ≤ actual a b := by
    have := (dayNumber_le_iff ha hb).2 h
    unfold actual; omega
  have e : addDays a ((actual a b).toNat : Int) = b := by
    apply dayNumber_inj (addDays_spec ha _).1 hb
    rw [(addDays_spec ha _).2]
    unfold actual at *
    omega
  rw [← position_sum ha, e]
  rfl

/-- **C109** (6): by the bases 1 to 4 fractions of a year add up, whatever the order of the
dates. -/
theorem yearfrac_split (a b c : Date) {k : Int} (h1 : 1 ≤ k) (h2 : k ≤ 4) :
    ∃ x y, yearfrac a b k = some x ∧ yearfrac b c k = some y ∧ yearfrac a c k = some (x + y) := by
  refine ⟨_, _, yearfrac_scale a b h1 h2, yearfrac_scale b c h1 h2, ?_⟩
  rw [yearfrac_scale a c h1 h2]
  congr 1
  ring

/-- By basis 0 they do not. -/
theorem yearfrac_split_fails :
    yearfrac ⟨2024, 2, 28⟩ ⟨2024, 2, 29⟩ 0 = some (3 / 360) ∧ yearfrac ⟨2024, 2, 29⟩ ⟨2024, 3, 1⟩ 0 = some (1 / 360) ∧
      yearfrac ⟨2024, 2, 28⟩ ⟨2024, 3, 1⟩ 0 = some (3 / 360) := by decide +kernel

/-- **C109** (7): exchanging the dates changes the sign, by every basis; other bases are
errors. -/
theorem yearfrac_swap (a b : Date) (k : Int) :
    yearfrac b a k = (yearfrac a b k).map (- ·) ∧ (yearfrac a b k = none ↔ k < 0 ∨ 4 < k) := by
  constructor
  · unfold yearfrac
    by_cases hk : ¬(0 ≤ k ∧ k ≤ 4)
    · rw [if_pos hk, if_pos hk]; rfl
    rw [if_neg hk, if_neg hk]
    by_cases e : a = b
    · rw [if_pos e, if_pos e.symm]; simp
    rw [if_neg e, if_neg (fun h => e h.symm)]
    have ex : ¬(a.le b ∧ b.le a) := by
      rintro ⟨h1, h2⟩
      rcases h1 with h1 | h1
      · rcases h2 with h2 | h2
        · unfold Date.lt at h1 h2; omega
        · exact e h2.symm
      · exact e h1
    by_cases h : a.le b
    · rw [if_pos h, if_neg (fun h' => ex ⟨h, h'⟩)]
      simp
    · rw [if_neg h, if_pos (le_or.resolve_left h)]
      simp
  · unfold yearfrac
    by_cases hk : ¬(0 ≤ k ∧ k ≤ 4)
    · rw [if_pos hk]; simp only [true_iff]; omega
    · rw [if_neg hk]
      have : ¬(k < 0 ∨ 4 < k) := by omega
      simp only [this, iff_false]
      split
      · simp
      · split <;> simp

theorem position_mono {a b : Date} (ha : a.Valid) (hb : b.Valid) (h : a.le b) : position a ≤ position b := by
  have hn : 0 ≤ actual a b := by
    have := (dayNumber_le_iff ha hb).2 h
    unfold actual; omega
  have e : addDays a ((actual a b).toNat : Int) = b := by
    apply dayNumber_inj (addDays_spec ha _).1 hb
    rw [(addDays_spec ha _).2]
    unfold actual at *
    omega
  have hs := position_sum ha (actual a b).toNat
  rw [e] at hs
  have : (0 : Rat) ≤ ∑ i ∈ Finset.range (actual a b).toNat, 1 / (daysInYear (addDays a i).year : Rat) :=
    Finset.sum_nonneg fun i _ => le_of_lt (div_pos one_pos (daysInYear_pos _))
  linarith

/-- **C109** (8): a later end never gives a smaller fraction, and dates in order give zero
or more, by every basis. -/
theorem yearfrac_mono {a b c : Date} (ha : a.Valid) (hb : b.Valid) (hc : c.Valid) (hab : a.le b) (hbc : b.le c)
    {k : Int} (h1 : 0 ≤ k) (h2 : k ≤ 4) :
    ∃ x y, yearfrac a b k = some x ∧ yearfrac a c k = some y ∧ 0 ≤ x ∧ x ≤ y := by
  have hac : a.le c := by
    have u := (dayNumber_le_iff ha hb).2 hab
    have v := (dayNumber_le_iff hb hc).2 hbc
    exact (dayNumber_le_iff ha hc).1 (le_trans u v)
  have F : ∀ d : Date, a.le d → d.Valid → ∃ x, yearfrac a d k = some x ∧ (a = d → x = 0) ∧ (a ≠ d → x = fraction a d k) := by
    intro d h hd
    unfold yearfrac
    rw [if_neg (by omega)]
    by_cases e : a = d
    · rw [if_pos e]; exact ⟨0, rfl, fun _ => rfl, fun h => absurd e h⟩
    · rw [if_neg e, if_pos h]; exact ⟨_, rfl, fun h => absurd h e, fun _ => one_mul _⟩
  have G : ∀ d e : Date, d.Valid → e.Valid → d.le e → a.le d → a.le e →
      fraction a d k ≤ fraction a e k ∧ 0 ≤ fraction a d k := by
    intro d e hd he hde had hae
    by_cases k0 : k = 0
    · subst k0
      have m := days360_mono ha hd he hde false
      simp only [fraction, if_true]
      constructor
      · have : (days360 a d false : Rat) ≤ days360 a e false := by exact_mod_cast m.1
        linarith
      · have : (0 : Rat) ≤ days360 a d false := by exact_mod_cast m.2 had
        linarith
    · rw [fraction_scale had k0, fraction_scale hae k0]
      have hs : ∀ p q : Date, p.Valid → q.Valid → p.le q → scale k p ≤ scale k q := by
        intro p q hp hq hpq
        have hdn : (p.dayNumber : Rat) ≤ q.dayNumber := by exact_mod_cast (dayNumber_le_iff hp hq).2 hpq
        unfold scale
        split
        · exact position_mono hp hq hpq
        · split
          · linarith
          · split
            · linarith
            · have m := (days360_mono hp hp hq hpq true).1
              simp only [days360, count360, if_true] at m
              have : ((360 * p.year + 30 * p.month + cap30 p.day : Int) : Rat) ≤
                  ((360 * q.year + 30 * q.month + cap30 q.day : Int) : Rat) := by
                exact_mod_cast (show (360 * p.year + 30 * p.month + cap30 p.day : Int) ≤ 360 * q.year + 30 * q.month + cap30 q.day by omega)
              linarith
      have h1 := hs d e hd he hde
      have h2 := hs a d ha hd had
      constructor <;> linarith
  obtain ⟨x, hx, x0, x1⟩ := F b hab hb
  obtain ⟨y, hy, y0, y1⟩ := F c hac hc
  refine ⟨x, y, hx, hy, ?_, ?_⟩
  · by_cases e : a = b
    · exact le_of_eq (x0 e).symm
    · rw [x1 e]; exact (G b c hb hc hbc hab hac).2
  · by_cases e : a = b
    · rw [x0 e]
      by_cases e' : a = c
      · exact le_of_eq (y0 e').symm
      · rw [y1 e']; exact (G c c hc hc (Or.inr rfl) hac hac).2
    · rw [x1 e]
      have e' : a ≠ c := by
        intro e'
        subst e'
        have u := (dayNumber_le_iff ha hb).2 hab
        have v := (dayNumber_le_iff hb ha).2 hbc
        exact e (dayNumber_inj ha hb (le_antisymm u v))
      rw [y1 e']
      exact (G b c hb hc hbc hab hac).1

/-- **C109** (9): from a New Year's Day to another one it is the number of years, by the
bases 0, 1 and 4. -/
theorem yearfrac_years (y : Int) (n : Nat) {k : Int} (hk : k = 0 ∨ k = 1 ∨ k = 4) :
    yearfrac ⟨y, 1, 1⟩ ⟨y + n, 1, 1⟩ k = some (n : Rat) := by
  have v : ∀ z : Int, (Date.mk z 1 1).Valid := fun z => ⟨le_refl 1, (show 1 ≤ 12 by decide), le_refl 1, (show 1 ≤ 31 by decide)⟩
  have hle : (Date.mk y 1 1).le ⟨y + n, 1, 1⟩ := by
    apply (dayNumber_le_iff (v _) (v _)).1
    rw [jan_first, jan_first]
    have := yearStart_mono (show y ≤ y + n by omega)
    omega
  unfold yearfrac
  rw [if_neg (by omega)]
  split
  · rename_i e
    have : y = y + n := congrArg Date.year e
    have : n = 0 := by omega
    rw [this]; rfl
  · congr 1
    rw [one_mul]
    rcases hk with hk | hk | hk
    · subst hk
      simp only [fraction, if_true]
      rw [days360_months (v y) (v (y + n)) rfl (show 1 ≤ 27 by decide)]
      unfold Date.monthIndex
      push_cast
      ring
    · subst hk
      rw [fraction_scale hle (by decide)]
      simp only [scale, if_true]
      unfold position
      rw [jan_first, jan_first]
      simp only [add_sub_cancel_left, sub_self, Int.cast_zero, zero_div]
      push_cast
      ring
    · subst hk
      have : fraction ⟨y, 1, 1⟩ ⟨y + n, 1, 1⟩ 4 = (days360 ⟨y, 1, 1⟩ ⟨y + n, 1, 1⟩ true : Rat) / 360 := rfl
      rw [this, days360_months (v y) (v (y + n)) rfl (show 1 ≤ 27 by decide)]
      unfold Date.monthIndex
      push_cast
      ring

/-- By actual days a year from the middle of one to the middle of the next need not be
one. -/
theorem yearfrac_year_fails :
    yearfrac ⟨2023, 7, 1⟩ ⟨2024, 7, 1⟩ 1 = some (184 / 365 + 182 / 366) ∧
      (184 / 365 + 182 / 366 : Rat) ≠ 1 ∧
      yearfrac ⟨2023, 7, 1⟩ ⟨2024, 7, 1⟩ 0 = some 1 := by decide +kernel

/-- **C109** (10): the functions for bonds take the same fraction of a year as `YEARFRAC`,
by the bases 1 to 4. -/
theorem yearfrac_bond (a b : Date) {k : Int} (h1 : 1 ≤ k) (h2 : k ≤ 4) : yearfrac a b k = some (yearFraction a b k) := by
  have hf : ∀ s e : Date, bondFraction s e k = fraction s e k := by
    intro s e
    unfold bondFraction fraction daysBetween days360 eu30
    have : k = 1 ∨ k = 2 ∨ k = 3 ∨ k = 4 := by omega
    rcases this with h | h | h | h <;> subst h <;> simp
  unfold yearfrac yearFraction
  rw [if_neg (by omega), hf, hf]
  split
  · rfl
  · split <;> rfl

end Verif.Days

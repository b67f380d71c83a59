import Verif.Fin.Model
import Mathlib.Algebra.BigOperators.Intervals
import Mathlib.Algebra.BigOperators.Field
import Mathlib.Tactic.Linarith
import Mathlib.Tactic.Ring
import Mathlib.Tactic.FieldSimp
import Mathlib.Tactic.NormNum

/-!
# Depreciation and dollars in fractions
-/

namespace Verif.Fin

open Finset

/-- C87.  SLN over the whole life is the loss of value. -/
theorem sln_total (cost salvage life : ℝ) (hl : life ≠ 0) : ∃ d, SLN cost salvage life = some d ∧ life * d = cost - salvage :=
  ⟨_, if_neg hl, mul_div_cancel₀ _ hl⟩

theorem syd_at (cost salvage : ℝ) (n k : ℕ) (hk : k < n) : SYD cost salvage n (k + 1 : ℕ) = some ((cost - salvage) / (n * (n + 1) / 2) * (n - k)) := by
  have hn : (0 : ℝ) < n := by exact_mod_cast (by omega : 0 < n)
  have hk' : ((k + 1 : ℕ) : ℝ) ≤ n := by exact_mod_cast hk
  unfold SYD
  rw [if_neg (by rw [not_or, not_or, not_le, not_le, not_lt]; exact ⟨hn, by positivity, hk'⟩)]
  congr 1
  push_cast
  ring

theorem sum_left (n : ℕ) : ∑ k ∈ range n, ((n : ℝ) - k) = n * (n + 1) / 2 := by
  rw [sum_sub_distrib, sum_const, card_range, nsmul_eq_mul]
  have : ∀ m : ℕ, ∑ k ∈ range m, (k : ℝ) = m * (m - 1) / 2 := by
    intro m
    induction m with
    | zero => simp
    | succ m ih => rw [sum_range_succ, ih]; push_cast; ring
  rw [this]
  ring

/-- C87.  SYD over the whole life is the loss of value. -/
theorem syd_total (cost salvage : ℝ) (n : ℕ) (hn : 0 < n) : ∑ k ∈ range n, (SYD cost salvage n (k + 1 : ℕ)).getD 0 = cost - salvage := by
  have e : ∀ k ∈ range n, (SYD cost salvage n (k + 1 : ℕ)).getD 0 = (cost - salvage) / (n * (n + 1) / 2) * (n - k) := by
    intro k hk
    rw [syd_at cost salvage n k (mem_range.mp hk)]
    rfl
  rw [sum_congr rfl e, ← mul_sum, sum_left]
  have : (0 : ℝ) < n := by exact_mod_cast hn
  field_simp

/-! ## DDB -/

theorem ddb_at (cost salvage life factor : ℝ) (k : ℕ) (hc : 0 ≤ cost) (hs : 0 ≤ salvage) (hf : 0 < factor) (hk : (k + 1 : ℕ) ≤ life) :
    DDB cost salvage life (k + 1 : ℕ) factor = some (ddbStep salvage (factor / life) (ddbValue cost salvage (factor / life) k)) := by
  have h1 : (1 : ℝ) ≤ (k + 1 : ℕ) := by exact_mod_cast Nat.succ_pos k
  unfold DDB
  rw [if_neg (by simp only [not_or, not_lt, not_le]; exact ⟨hc, hs, by linarith, by linarith, hf⟩), Nat.floor_natCast,
    if_neg (by simp only [not_or, not_lt]; exact ⟨by omega, hk⟩), Nat.add_sub_cancel]

theorem ddbStep_nonneg {salvage rate value : ℝ} (hr : 0 ≤ rate) (hv : 0 ≤ value) : 0 ≤ ddbStep salvage rate value := by
  unfold ddbStep
  split
  · exact le_max_right _ _
  · exact mul_nonneg hv hr

theorem ddbValue_ge {cost salvage rate : ℝ} (h : salvage ≤ cost) : ∀ n, salvage ≤ ddbValue cost salvage rate n
  | 0 => h
  | n + 1 => by
    have ih := ddbValue_ge (rate := rate) h n
    simp only [ddbValue, ddbStep]
    split
    · rw [max_eq_left (by linarith)]
      linarith
    · linarith

/-- C87.  DDB never takes more than the loss of value: the book value, what is left of the cost, stays above the salvage value, no amount is negative, and each is the same part of the book value until the salvage value is met. -/
theorem ddb_spec (cost salvage life factor : ℝ) (n : ℕ) (hs : 0 ≤ salvage) (hc : salvage ≤ cost) (hf : 0 < factor) (hn : (n + 1 : ℕ) ≤ life) :
    ∃ d, DDB cost salvage life (n + 1 : ℕ) factor = some d ∧ 0 ≤ d ∧
      d = min ((cost - ∑ k ∈ range n, (DDB cost salvage life (k + 1 : ℕ) factor).getD 0) * (factor / life)) ((cost - ∑ k ∈ range n, (DDB cost salvage life (k + 1 : ℕ) factor).getD 0) - salvage) := by
  have hlife : 0 < life := lt_of_lt_of_le (by exact_mod_cast Nat.succ_pos n) hn
  have hr : 0 ≤ factor / life := by positivity
  have hsum : ∀ m ≤ n, cost - ∑ k ∈ range m, (DDB cost salvage life (k + 1 : ℕ) factor).getD 0 = ddbValue cost salvage (factor / life) m := by
    intro m
    induction m with
    | zero => intro _; simp [ddbValue]
    | succ m ih =>
      intro hm
      rw [sum_range_succ, ← sub_sub, ih (by omega), ddb_at cost salvage life factor m (hs.trans hc) hs hf (le_trans (by exact_mod_cast (by omega : m + 1 ≤ n + 1)) hn)]
      rfl
  have hv := ddbValue_ge (rate := factor / life) hc n
  refine ⟨_, ddb_at cost salvage life factor n (hs.trans hc) hs hf hn, ddbStep_nonneg hr (hs.trans hv), ?_⟩
  rw [hsum n le_rfl]
  unfold ddbStep
  split
  · rw [max_eq_left (by linarith), min_eq_right (by linarith)]
  · rw [min_eq_left (by linarith)]

/-- Nothing is lost from what is worth less than its salvage value. -/
theorem ddb_zero (cost salvage life factor : ℝ) (n : ℕ) (hc0 : 0 ≤ cost) (hc : cost < salvage) (hf : 0 < factor) (hn : (n + 1 : ℕ) ≤ life) : DDB cost salvage life (n + 1 : ℕ) factor = some 0 := by
  have hlife : 0 < life := lt_of_lt_of_le (by exact_mod_cast Nat.succ_pos n) hn
  have hr : 0 ≤ factor / life := by positivity
  have h0 : ddbStep salvage (factor / life) cost = 0 := by
    unfold ddbStep
    rw [if_pos (by have := mul_nonneg hc0 hr; linarith), max_eq_right (by linarith)]
  have hv : ∀ m, ddbValue cost salvage (factor / life) m = cost := by
    intro m
    induction m with
    | zero => rfl
    | succ m ih => rw [ddbValue, ih, h0, sub_zero]
  rw [ddb_at cost salvage life factor n hc0 (by linarith) hf hn, hv, h0]

example : (0 : ℝ) ≤ 1000 ∧ (1000 : ℝ) ≤ 10000 ∧ (0 : ℝ) < 2 ∧ ((4 + 1 : ℕ) : ℝ) ≤ 5 := by norm_num

/-! ## DB -/

theorem db_at (cost salvage month : ℝ) (life k : ℕ) (hl : 0 < life) (hm : 1 ≤ month ∧ month ≤ 12) (hk : k ≤ life) :
    DB cost salvage life (k + 1 : ℕ) month = some (dbTotal cost salvage (dbRate cost salvage life) month life (k + 1) - dbTotal cost salvage (dbRate cost salvage life) month life k) := by
  have h1 : (0 : ℝ) < (k + 1 : ℕ) := by exact_mod_cast Nat.succ_pos k
  have hl' : (0 : ℝ) < life := by exact_mod_cast hl
  unfold DB
  rw [if_neg (by rw [not_or, not_or, not_le, not_le, not_not]; exact ⟨hl', h1, hm⟩), Nat.floor_natCast, Nat.floor_natCast, if_neg (by omega), Nat.add_sub_cancel, dbTotal, add_sub_cancel_left]

theorem db_sum (cost salvage month : ℝ) (life : ℕ) (hl : 0 < life) (hm : 1 ≤ month ∧ month ≤ 12) : ∀ n ≤ life + 1,
    ∑ k ∈ range n, (DB cost salvage life (k + 1 : ℕ) month).getD 0 = dbTotal cost salvage (dbRate cost salvage life) month life n := by
  intro n
  induction n with
  | zero => intro _; rfl
  | succ n ih =>
    intro hn
    rw [sum_range_succ, ih (by omega), db_at cost salvage month life n hl hm (by omega)]
    simp

theorem dbRate_bounds {cost salvage life : ℝ} (hs : 0 ≤ salvage) (hc : salvage ≤ cost) (hl : 0 < life) : 0 ≤ dbRate cost salvage life ∧ dbRate cost salvage life ≤ 1 := by
  unfold dbRate
  split
  · norm_num
  · rename_i h
    rw [not_or, not_le, not_le] at h
    have hq : salvage / cost ≤ 1 := (div_le_one h.1).mpr hc
    have hq0 : 0 < salvage / cost := div_pos h.2 h.1
    have hp : (salvage / cost) ^ (1 / life) ≤ 1 := Real.rpow_le_one hq0.le hq (by positivity)
    have hp0 : 0 < (salvage / cost) ^ (1 / life) := Real.rpow_pos_of_pos hq0 _
    simp only
    rw [if_pos (by linarith)]
    generalize (salvage / cost) ^ (1 / life) = x at *
    have hf0 : 0 ≤ ⌊(1 - x) * 1000 + 1 / 2⌋ := Int.floor_nonneg.mpr (by linarith)
    have hf1 : ⌊(1 - x) * 1000 + 1 / 2⌋ < 1001 := Int.floor_lt.mpr (by push_cast; linarith)
    have hf0' : (0 : ℝ) ≤ ⌊(1 - x) * 1000 + 1 / 2⌋ := by exact_mod_cast hf0
    have hf1' : (⌊(1 - x) * 1000 + 1 / 2⌋ : ℝ) ≤ 1000 := by exact_mod_cast (by omega : ⌊(1 - x) * 1000 + 1 / 2⌋ ≤ 1000)
    constructor
    · positivity
    · linarith

theorem dbTotal_le {cost salvage rate month : ℝ} {life : ℕ} (hc : 0 ≤ cost) (hs : 0 ≤ salvage) (hr : 0 ≤ rate ∧ rate ≤ 1) (hm : 1 ≤ month ∧ month ≤ 12) :
    ∀ n, 0 ≤ dbTotal cost salvage rate month life n ∧ dbTotal cost salvage rate month life n ≤ cost ∧ 0 ≤ dbStep cost salvage rate month life (n + 1) (dbTotal cost salvage rate month life n) ∧
      dbStep cost salvage rate month life (n + 1) (dbTotal cost salvage rate month life n) ≤ cost - dbTotal cost salvage rate month life n := by
  have step : ∀ n t, 0 ≤ t → t ≤ cost → (n = 0 → t = 0) → 0 ≤ dbStep cost salvage rate month life (n + 1) t ∧ dbStep cost salvage rate month life (n + 1) t ≤ cost - t := by
    intro n t h0 h1 hn
    unfold dbStep
    split
    · rw [hn (by omega)]
      have a := mul_nonneg hc hr.1
      have b : cost * rate ≤ cost := mul_le_of_le_one_right hc hr.2
      constructor
      · have := mul_nonneg a (by linarith : 0 ≤ month)
        linarith
      · have := mul_le_mul_of_nonneg_left hm.2 a
        linarith
    · split
      · exact ⟨le_min (le_max_right _ _) (by linarith), min_le_right _ _⟩
      · exact ⟨mul_nonneg (by linarith) hr.1, mul_le_of_le_one_right (by linarith) hr.2⟩
  intro n
  induction n with
  | zero =>
    have := step 0 0 le_rfl hc (fun _ => rfl)
    exact ⟨le_rfl, hc, this.1, this.2⟩
  | succ n ih =>
    obtain ⟨a, b, c, d⟩ := ih
    have e : dbTotal cost salvage rate month life (n + 1) = dbTotal cost salvage rate month life n + dbStep cost salvage rate month life (n + 1) (dbTotal cost salvage rate month life n) := rfl
    have a' : 0 ≤ dbTotal cost salvage rate month life (n + 1) := by rw [e]; linarith
    have b' : dbTotal cost salvage rate month life (n + 1) ≤ cost := by rw [e]; linarith
    have := step (n + 1) _ a' b' (by omega)
    exact ⟨a', b', this.1, this.2⟩

/-- C87.  DB gives no negative amounts, no more than the cost together. -/
theorem db_bounds (cost salvage month : ℝ) (life n : ℕ) (hs : 0 ≤ salvage) (hc : salvage ≤ cost) (hl : 0 < life) (hm : 1 ≤ month ∧ month ≤ 12) (hn : n ≤ life) :
    ∃ d, DB cost salvage life (n + 1 : ℕ) month = some d ∧ 0 ≤ d ∧ ∑ k ∈ range n, (DB cost salvage life (k + 1 : ℕ) month).getD 0 + d ≤ cost := by
  have hr := dbRate_bounds (life := life) hs hc (by exact_mod_cast hl)
  have h := dbTotal_le (life := life) (hs.trans hc) hs hr hm n
  have h' := dbTotal_le (life := life) (hs.trans hc) hs hr hm (n + 1)
  refine ⟨_, db_at cost salvage month life n hl hm hn, ?_, ?_⟩
  · rw [dbTotal]
    linarith [h.2.2.1]
  · rw [db_sum cost salvage month life hl hm n (by omega)]
    linarith [h'.2.1]

/-- C87.  The first period takes the part of the first year, and there is no period after the one following the last. -/
theorem db_ends (cost salvage month : ℝ) (life : ℕ) (hl : 0 < life) (hm : 1 ≤ month ∧ month ≤ 12) :
    DB cost salvage life (1 : ℕ) month = some (cost * dbRate cost salvage life * (month / 12)) ∧
    ∀ n : ℕ, (DB cost salvage life n month).isSome ↔ 1 ≤ n ∧ n ≤ life + 1 := by
  have hl' : (0 : ℝ) < life := by exact_mod_cast hl
  constructor
  · have := db_at cost salvage month life 0 hl hm (by omega)
    rw [show (0 + 1 : ℕ) = 1 from rfl] at this
    have h0 : dbTotal cost salvage (dbRate cost salvage life) month life 0 = 0 := rfl
    have h1 : dbTotal cost salvage (dbRate cost salvage life) month life 1 = 0 + dbStep cost salvage (dbRate cost salvage life) month life 1 0 := rfl
    rw [this, h1, h0, dbStep, if_pos rfl]
    congr 1
    ring
  · intro n
    unfold DB
    rw [Nat.floor_natCast, Nat.floor_natCast]
    by_cases hn : n = 0
    · subst hn
      rw [if_pos (Or.inr (Or.inl (by simp)))]
      simp
    · have h1 : (0 : ℝ) < n := by exact_mod_cast Nat.pos_of_ne_zero hn
      rw [if_neg (by rw [not_or, not_or, not_le, not_le, not_not]; exact ⟨hl', h1, hm⟩)]
      by_cases hb : n < 1 ∨ n > life + 1
      · rw [if_pos hb]; simp; omega
      · rw [if_neg hb]; simp; omega

/-- C87.  The period after the last takes what is missing to the loss of value, and nothing when DB has taken more already. -/
theorem db_residual (cost salvage month : ℝ) (life : ℕ) (hs : 0 ≤ salvage) (hc : salvage ≤ cost) (hl : 0 < life) (hm : 1 ≤ month ∧ month ≤ 12) :
    ∑ k ∈ range (life + 1), (DB cost salvage life (k + 1 : ℕ) month).getD 0 = max (cost - salvage) (∑ k ∈ range life, (DB cost salvage life (k + 1 : ℕ) month).getD 0) := by
  have hr := dbRate_bounds (life := life) hs hc (by exact_mod_cast hl)
  have h := dbTotal_le (life := life) (hs.trans hc) hs hr hm life
  rw [db_sum cost salvage month life hl hm _ le_rfl, db_sum cost salvage month life hl hm _ (by omega), dbTotal]
  obtain ⟨-, h1, -, -⟩ := h
  generalize dbTotal cost salvage (dbRate cost salvage life) month life life = t at *
  unfold dbStep
  rw [if_neg (by omega), if_pos rfl]
  rcases le_total t (cost - salvage) with a | a
  · rw [max_eq_left (by linarith), min_eq_left (by linarith), max_eq_left a]
    ring
  · rw [max_eq_right (by linarith), min_eq_left (by linarith), max_eq_right a]
    ring

example : (0 : ℝ) ≤ 1000 ∧ (1000 : ℝ) ≤ 10000 ∧ 0 < 5 ∧ ((1 : ℝ) ≤ 7 ∧ (7 : ℝ) ≤ 12) := by norm_num

/-! ## Dollars -/

theorem digits_eq {fraction d : ℕ} (h : fraction ≤ 10 ^ d) (h' : ∀ e, fraction ≤ 10 ^ e → d ≤ e) : digits fraction = d := by
  unfold digits
  refine le_antisymm ((Nat.clog_le_iff_le_pow (by omega)).mpr h) (h' _ (Nat.le_pow_clog (by omega) _))

/-- C87.  With `d` digits, the least number that holds the denominator, DOLLARDE reads the `d` decimals as numerator ... -/
theorem dollarde_reads (i m fraction d : ℕ) (hm : m < fraction) (h : fraction ≤ 10 ^ d) (h' : ∀ e, fraction ≤ 10 ^ e → d ≤ e) :
    DOLLARDE (i + m / 10 ^ d) fraction = some ((i : ℚ) + (m : ℚ) / (fraction : ℚ)) := by
  have hpos : (0 : ℚ) < 10 ^ d := by positivity
  have hlt : (m : ℚ) < 10 ^ d := by exact_mod_cast (by omega : m < 10 ^ d)
  have h0 : (0 : ℚ) ≤ m / 10 ^ d := by positivity
  have h1 : (m : ℚ) / 10 ^ d < 1 := (div_lt_one hpos).mpr hlt
  have hx : (0 : ℚ) ≤ i + m / 10 ^ d := by positivity
  have hw : ⌊(i : ℚ) + m / 10 ^ d⌋ = i := by
    rw [Int.floor_eq_iff]
    push_cast
    exact ⟨by linarith, by linarith⟩
  unfold DOLLARDE
  rw [if_neg (by omega), digits_eq h h']
  simp only [abs_of_nonneg hx, not_lt.mpr hx, if_false, hw, Int.cast_natCast, add_sub_cancel_left, one_mul]
  rw [div_mul_cancel₀ _ hpos.ne']
  have : ⌊(m : ℚ) + 1 / 2⌋ = m := by
    rw [Int.floor_eq_iff]
    push_cast
    exact ⟨by linarith, by linarith⟩
  rw [this]
  rfl

/-- ... and DOLLARFR writes it there. -/
theorem dollarfr_writes (i m fraction d : ℕ) (hm : m < fraction) (h : fraction ≤ 10 ^ d) (h' : ∀ e, fraction ≤ 10 ^ e → d ≤ e) :
    DOLLARFR (i + m / fraction) fraction = some ((i : ℚ) + (m : ℚ) / 10 ^ d) := by
  have hf : (0 : ℚ) < fraction := by exact_mod_cast (by omega : 0 < fraction)
  have h0 : (0 : ℚ) ≤ (m : ℚ) / fraction := by positivity
  have h1 : (m : ℚ) / fraction < 1 := (div_lt_one hf).mpr (by exact_mod_cast hm)
  have hx : (0 : ℚ) ≤ (i : ℚ) + m / fraction := by positivity
  have hw : ⌊(i : ℚ) + m / fraction⌋ = i := by
    rw [Int.floor_eq_iff]
    push_cast
    exact ⟨by linarith, by linarith⟩
  unfold DOLLARFR
  rw [if_neg (by omega), digits_eq h h']
  simp only [abs_of_nonneg hx, not_lt.mpr hx, if_false, hw, Int.cast_natCast, add_sub_cancel_left, one_mul]
  rw [div_mul_cancel₀ _ hf.ne']

/-- Both turn the sign with their argument. -/
theorem dollar_neg (x : ℚ) (fraction : ℕ) (hx : x ≠ 0) : DOLLARDE (-x) fraction = (DOLLARDE x fraction).map (- ·) ∧ DOLLARFR (-x) fraction = (DOLLARFR x fraction).map (- ·) := by
  have hs : (if -x < 0 then (-1 : ℚ) else 1) = -(if x < 0 then -1 else 1) := by
    rcases lt_or_gt_of_ne hx with h | h
    · rw [if_neg (by linarith), if_pos h]; norm_num
    · rw [if_pos (by linarith), if_neg (by linarith)]
  unfold DOLLARDE DOLLARFR
  constructor
  · split
    · rfl
    · simp only [abs_neg, hs, Option.map_some, neg_mul]
  · split
    · rfl
    · simp only [abs_neg, hs, Option.map_some, neg_mul]

/-- C87.  DOLLARDE after DOLLARFR changes amounts that are not a whole number of parts. -/
theorem dollar_wrong : DOLLARFR (11 / 10) 16 = some (127 / 125) ∧ (DOLLARDE (127 / 125) 16) = some (9 / 8) := by
  have hd : digits 16 = 2 := digits_eq (by norm_num) (by
    intro e he
    by_contra hc
    have : e = 0 ∨ e = 1 := by omega
    rcases this with rfl | rfl <;> norm_num at he)
  constructor
  · unfold DOLLARFR
    rw [hd]
    norm_num [abs_of_nonneg]
  · unfold DOLLARDE
    rw [hd]
    norm_num [abs_of_nonneg]

example : DOLLARDE (1 + 2 / 100) 16 = some (1 + 2 / 16) := by
  have := dollarde_reads 1 2 16 2 (by omega) (by norm_num) (by
    intro e he
    by_contra hc
    have : e = 0 ∨ e = 1 := by omega
    rcases this with rfl | rfl <;> norm_num at he)
  norm_num at this ⊢
  exact this

end Verif.Fin

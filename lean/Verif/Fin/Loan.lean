import Verif.Fin.Model
import Mathlib.Tactic.FieldSimp
import Mathlib.Tactic.Linarith
import Mathlib.Tactic.Ring
import Mathlib.Tactic.NormNum
import Mathlib.Tactic.Positivity

/-!
# Loans
-/

namespace Verif.Fin

theorem tiny_zero : Tiny 0 := by norm_num [Tiny]

theorem ne_zero_of_not_tiny {r : ℝ} (h : ¬Tiny r) : r ≠ 0 := by rintro rfl; exact h tiny_zero

/-- The balance in closed form. -/
theorem balance_closed {rate : ℝ} (h : rate ≠ 0) (pmt pv : ℝ) (due : Bool) (n : ℕ) : balance rate pmt pv due n = pv * (1 + rate) ^ n + pmt * adj rate due * ((1 + rate) ^ n - 1) / rate := by
  induction n with
  | zero => simp [balance]
  | succ n ih =>
    rw [balance, ih, pow_succ]
    cases due
    · simp only [adj, Bool.false_eq_true, if_false]
      field_simp
      ring
    · simp only [adj, if_true]
      field_simp
      ring

theorem balance_zero (pmt pv : ℝ) (due : Bool) (n : ℕ) : balance 0 pmt pv due n = pv + pmt * n := by
  induction n with
  | zero => simp [balance]
  | succ n ih =>
    rw [balance, ih]
    push_cast
    cases due <;> simp <;> ring

/-- C87.  FV is what is left of a loan after whole periods, as a payment to make. -/
theorem fv_balance (rate pmt pv : ℝ) (due : Bool) (n : ℕ) (h : Usual rate) : FV rate n pmt pv due = -balance rate pmt pv due n := by
  unfold FV
  rcases h with rfl | h
  · rw [if_pos tiny_zero, balance_zero]; ring
  · rw [if_neg h, balance_closed (ne_zero_of_not_tiny h), Real.rpow_natCast]; ring

theorem adj_ne {rate : ℝ} (h : 0 < 1 + rate) (due : Bool) : adj rate due ≠ 0 := by
  unfold adj
  split
  · exact h.ne'
  · exact one_ne_zero

theorem growth_ne_one {rate nper : ℝ} (h : 0 < 1 + rate) (hr : rate ≠ 0) (hn : nper ≠ 0) : (1 + rate) ^ nper - 1 ≠ 0 := by
  intro hc
  have h1 : (1 + rate) ^ nper = 1 := by linarith
  have h2 := Real.log_rpow h nper
  rw [h1, Real.log_one] at h2
  rcases mul_eq_zero.mp h2.symm with h3 | h3
  · exact hn h3
  · rcases Real.log_eq_zero.mp h3 with h4 | h4 | h4
    · linarith
    · exact hr (by linarith)
    · linarith

/-- C87.  The payment found by PMT leads to the future value asked for, in any number of periods, whole or not. -/
theorem pmt_fv (rate nper pv fv p : ℝ) (due : Bool) (h : 0 < 1 + rate) (hp : PMT rate nper pv fv due = some p) : FV rate nper p pv due = fv := by
  unfold PMT at hp
  split at hp
  · cases hp
  · rename_i hn
    cases hp
    unfold FV payment
    by_cases ht : Tiny rate
    · rw [if_pos ht, if_pos ht, div_mul_cancel₀ _ hn]; ring
    · have hr := ne_zero_of_not_tiny ht
      have ha := adj_ne h due
      have hg := growth_ne_one h hr hn
      rw [if_neg ht, if_neg ht]
      field_simp
      ring

/-- C87.  PV is the loan that a payment pays off: FV of it is the future value, PMT of it the payment. -/
theorem pv_fv (rate nper pmt fv : ℝ) (due : Bool) (h : 0 < 1 + rate) : FV rate nper pmt (PV rate nper pmt fv due) due = fv := by
  unfold FV PV
  by_cases ht : Tiny rate
  · rw [if_pos ht, if_pos ht]; ring
  · have hr := ne_zero_of_not_tiny ht
    have hf : (1 + rate) ^ nper ≠ 0 := (Real.rpow_pos_of_pos h nper).ne'
    rw [if_neg ht, if_neg ht]
    field_simp
    ring

theorem fv_pv (rate nper pmt pv : ℝ) (due : Bool) (h : 0 < 1 + rate) : PV rate nper pmt (FV rate nper pmt pv due) due = pv := by
  unfold FV PV
  by_cases ht : Tiny rate
  · rw [if_pos ht, if_pos ht]; ring
  · have hr := ne_zero_of_not_tiny ht
    have hf : (1 + rate) ^ nper ≠ 0 := (Real.rpow_pos_of_pos h nper).ne'
    rw [if_neg ht, if_neg ht]
    field_simp
    ring

theorem fv_pmt (rate nper pmt pv : ℝ) (due : Bool) (h : 0 < 1 + rate) (hn : nper ≠ 0) : PMT rate nper pv (FV rate nper pmt pv due) due = some pmt := by
  unfold FV PMT payment
  rw [if_neg hn]
  congr 1
  by_cases ht : Tiny rate
  · rw [if_pos ht, if_pos ht]
    field_simp
    ring
  · have hr := ne_zero_of_not_tiny ht
    have ha := adj_ne h due
    have hg := growth_ne_one h hr hn
    rw [if_neg ht, if_neg ht]
    field_simp
    ring

/-- C87.  After the number of periods found by NPER the future value is reached. -/
theorem nper_fv (rate pmt pv fv n : ℝ) (due : Bool) (h : 0 < 1 + rate) (hn : NPER rate pmt pv fv due = some n) : FV rate n pmt pv due = fv := by
  unfold NPER at hn
  unfold FV
  by_cases ht : Tiny rate
  · rw [if_pos ht] at hn ⊢
    by_cases hp : Tiny pmt
    · rw [if_pos hp] at hn; cases hn
    · rw [if_neg hp] at hn
      cases hn
      rw [mul_div_cancel₀ _ (ne_zero_of_not_tiny hp)]
      ring
  · rw [if_neg ht] at hn ⊢
    simp only at hn
    split at hn
    · cases hn
    · rename_i hq
      cases hn
      have hr := ne_zero_of_not_tiny ht
      generalize hx : (pmt * adj rate due - fv * rate) / (pv * rate + pmt * adj rate due) = x at hq
      have hx0 : 0 < x := not_le.mp hq
      have hd : pv * rate + pmt * adj rate due ≠ 0 := by
        intro hc
        rw [hc, div_zero] at hx
        linarith
      have hl : Real.log (1 + rate) ≠ 0 := by
        intro hc
        rcases Real.log_eq_zero.mp hc with h1 | h1 | h1
        · linarith
        · exact hr (by linarith)
        · linarith
      have hpow : (1 + rate) ^ (Real.log x / Real.log (1 + rate)) = x := by
        rw [Real.rpow_def_of_pos h, mul_div_cancel₀ _ hl, Real.exp_log hx0]
      rw [hpow]
      have hx' : pmt * adj rate due - fv * rate = x * (pv * rate + pmt * adj rate due) := by rw [← hx, div_mul_cancel₀ _ hd]
      field_simp
      linarith

/-- C87.  Where NPER is #NUM!, no number of periods leads to the future value. -/
theorem nper_none (rate pmt pv fv : ℝ) (due : Bool) (hr : ¬Tiny rate) (h : 0 < 1 + rate) (hd : pv * rate + pmt * adj rate due ≠ 0) (hn : NPER rate pmt pv fv due = none) : ∀ n, FV rate n pmt pv due ≠ fv := by
  intro n hfv
  unfold NPER at hn
  rw [if_neg hr] at hn
  simp only at hn
  split at hn
  · rename_i hq
    have hr0 := ne_zero_of_not_tiny hr
    have hpos := Real.rpow_pos_of_pos h n
    unfold FV at hfv
    rw [if_neg hr] at hfv
    have : (pmt * adj rate due - fv * rate) / (pv * rate + pmt * adj rate due) = (1 + rate) ^ n := by
      rw [div_eq_iff hd, ← hfv]
      field_simp
      ring
    rw [this] at hq
    linarith
  · cases hn

/-! ## Interest and principal -/

theorem fvAtStart_eq (rate pmt pv : ℝ) (due : Bool) (k : ℕ) (h : Usual rate) :
    (if Tiny rate then -pv - pmt * (((k + 1 : ℕ) : ℝ) - 1) else -pv * (1 + rate) ^ (((k + 1 : ℕ) : ℝ) - 1) - pmt * adj rate due * ((1 + rate) ^ (((k + 1 : ℕ) : ℝ) - 1) - 1) / rate) = -balance rate pmt pv due k := by
  have e : ((k + 1 : ℕ) : ℝ) - 1 = (k : ℝ) := by push_cast; ring
  rw [e]
  exact fv_balance rate pmt pv due k h

theorem ipmt_at (rate pv fv : ℝ) (due : Bool) (k n : ℕ) (h : Usual rate) (hk : k < n) :
    IPMT rate (k + 1 : ℕ) n pv fv due = some (if due = true ∧ k = 0 then 0 else -balance rate (payment rate n pv fv due) pv due k * rate) := by
  unfold IPMT
  have h1 : ¬(((k + 1 : ℕ) : ℝ) < 1 ∨ ((k + 1 : ℕ) : ℝ) > n) := by
    rw [not_or, not_lt, gt_iff_lt, not_lt]
    exact ⟨by exact_mod_cast Nat.le_add_left 1 k, by exact_mod_cast hk⟩
  rw [if_neg h1]
  simp only
  rw [fvAtStart_eq rate _ pv due k h]
  have h2 : (due = true ∧ ((k + 1 : ℕ) : ℝ) = 1) ↔ (due = true ∧ k = 0) := by
    constructor
    · rintro ⟨h1, h2⟩; exact ⟨h1, by have : k + 1 = 1 := by exact_mod_cast h2
                                     omega⟩
    · rintro ⟨h1, h2⟩; exact ⟨h1, by rw [h2]; norm_num⟩
  simp only [h2]

/-- C87.  With payments at the end of periods, IPMT is the interest on the balance, to be paid, and PPMT the change of the balance. -/
theorem ipmt_end (rate pv fv : ℝ) (n k : ℕ) (h : Usual rate) (hk : k < n) (p : ℝ) (hp : PMT rate n pv fv false = some p) :
    IPMT rate (k + 1 : ℕ) n pv fv false = some (-(rate * balance rate p pv false k)) ∧
    PPMT rate (k + 1 : ℕ) n pv fv false = some (balance rate p pv false (k + 1) - balance rate p pv false k) := by
  have hpay : payment rate n pv fv false = p := by
    unfold PMT at hp
    rw [if_neg (by exact_mod_cast (by omega : n ≠ 0))] at hp
    exact Option.some.inj hp
  have hi := ipmt_at rate pv fv false k n h hk
  rw [hpay] at hi
  simp only [Bool.false_eq_true, false_and, if_false] at hi
  refine ⟨by rw [hi]; congr 1; ring, ?_⟩
  unfold PPMT
  rw [hi, hpay, Option.map_some]
  congr 1
  simp only [balance, Bool.false_eq_true, if_false]
  ring

/-- C87.  The principal parts pay off the loan: together with the interest parts they are the payments. -/
theorem ppmt_sum_end (rate pv fv : ℝ) (n : ℕ) (h : Usual rate) (h1 : 0 < 1 + rate) (hn : n ≠ 0) : ((List.range n).map fun k => (PPMT rate (k + 1 : ℕ) n pv fv false).getD 0).sum = -(pv + fv) := by
  have hnr : (n : ℝ) ≠ 0 := by exact_mod_cast hn
  have hp : PMT rate n pv fv false = some (payment rate n pv fv false) := by unfold PMT; rw [if_neg hnr]
  have hfv := pmt_fv rate n pv fv _ false h1 hp
  rw [fv_balance rate _ pv false n h] at hfv
  have key : ∀ m ≤ n, ((List.range m).map fun k => (PPMT rate (k + 1 : ℕ) n pv fv false).getD 0).sum = balance rate (payment rate n pv fv false) pv false m - pv := by
    intro m
    induction m with
    | zero => intro _; simp [balance]
    | succ m ih =>
      intro hm
      rw [List.range_succ, List.map_append, List.sum_append, ih (by omega), List.map_singleton, List.sum_singleton, (ipmt_end rate pv fv n m h (by omega) _ hp).2, Option.getD_some]
      ring
  rw [key n (le_refl _)]
  linarith

/-- The principal part is the payment without the interest part, for either type. -/
theorem ppmt_ipmt (rate per nper pv fv : ℝ) (due : Bool) (i q : ℝ) (hi : IPMT rate per nper pv fv due = some i) (hq : PPMT rate per nper pv fv due = some q) (hn : nper ≠ 0) :
    PMT rate nper pv fv due = some (i + q) := by
  unfold PPMT at hq
  rw [hi, Option.map_some] at hq
  cases hq
  unfold PMT
  rw [if_neg hn]
  congr 1
  ring

/-- With payments at the beginning IPMT is too large: the interest in a payment is that of the period before, on the balance after the payment before. -/
theorem ipmt_due (rate pv fv : ℝ) (n k : ℕ) (h : Usual rate) (hk : k + 1 < n) (p : ℝ) (hp : PMT rate n pv fv true = some p) :
    IPMT rate (k + 2 : ℕ) n pv fv true = some (-(rate * (balance rate p pv true k + p)) * (1 + rate)) := by
  have hpay : payment rate n pv fv true = p := by
    unfold PMT at hp
    rw [if_neg (by exact_mod_cast (by omega : n ≠ 0))] at hp
    exact Option.some.inj hp
  have hi := ipmt_at rate pv fv true (k + 1) n h hk
  rw [hpay] at hi
  rw [show k + 2 = k + 1 + 1 from rfl, hi]
  rw [if_neg (by simp)]
  congr 1
  simp only [balance, if_true]
  ring

/-- So the principal parts of payments at the beginning do not pay off the loan. -/
theorem ppmt_due_wrong : ∃ (rate pv : ℝ) (n : ℕ), 0 < rate ∧ ((List.range n).map fun k => (PPMT rate (k + 1 : ℕ) n pv 0 true).getD 0).sum ≠ -pv := by
  refine ⟨1, 3, 2, by norm_num, ?_⟩
  have hu : Usual (1 : ℝ) := .inr (by unfold Tiny; norm_num)
  have hpay : payment 1 2 3 0 true = -2 := by
    unfold payment
    rw [if_neg (by unfold Tiny; norm_num)]
    have : (1 + 1 : ℝ) ^ (2 : ℝ) = 4 := by
      rw [show (2 : ℝ) = ((2 : ℕ) : ℝ) by norm_num, Real.rpow_natCast]; norm_num
    rw [this]
    norm_num [adj]
  have h0 := ipmt_at 1 3 0 true 0 2 hu (by norm_num)
  have h1 := ipmt_at 1 3 0 true 1 2 hu (by norm_num)
  simp only [Nat.cast_ofNat, hpay] at h0 h1
  simp only [List.range_succ, List.range_zero, List.nil_append, List.map_append, List.map_singleton, List.sum_append, List.sum_singleton, PPMT, Nat.cast_ofNat, hpay, h0, h1, Option.map_some, Option.getD_some]
  norm_num [balance]

/-! ## Cases -/

theorem not_tiny_tenth : ¬Tiny (1 / 10) := by norm_num [Tiny, abs_of_pos]

example : Usual 0 ∧ Usual (1 / 10) := ⟨.inl rfl, .inr not_tiny_tenth⟩

example : PMT (1 / 10) (2 : ℕ) 210 0 false = some (-121) := by
  unfold PMT payment adj
  rw [if_neg (by norm_num), if_neg not_tiny_tenth, Real.rpow_natCast]
  norm_num

example : IPMT (1 / 10) (2 : ℕ) (2 : ℕ) 210 0 false = some (-11) ∧ PPMT (1 / 10) (2 : ℕ) (2 : ℕ) 210 0 false = some (-110) := by
  have hp : payment (1 / 10) (2 : ℕ) 210 0 false = -121 := by
    unfold payment adj
    rw [if_neg not_tiny_tenth, Real.rpow_natCast]
    norm_num
  have h := ipmt_end (1 / 10) 210 0 2 1 (.inr not_tiny_tenth) (by omega) (-121) (by unfold PMT; rw [if_neg (by norm_num), hp])
  norm_num [balance] at h ⊢
  exact h

example : NPER (1 / 10) (-11) 10 0 false = some 1 := by
  unfold NPER adj
  rw [if_neg not_tiny_tenth]
  have : 0 < Real.log (11 / 10) := Real.log_pos (by norm_num)
  norm_num

example : NPER (1 / 10) (-(1 / 2)) 10 0 false = none ∧ 10 * (1 / 10) + -(1 / 2) * adj (1 / 10) false ≠ 0 := by
  unfold NPER adj
  rw [if_neg not_tiny_tenth]
  norm_num

end Verif.Fin

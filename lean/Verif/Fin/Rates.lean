import Verif.Fin.Loan

/-!
# Cumulated parts, rates, present values
-/

namespace Verif.Fin

/-! ## CUMIPMT and CUMPRINC -/

theorem cumRun_succ (rate pmt : ℝ) (start : ℕ) (due : Bool) (pv : ℝ) (n : ℕ) : cumRun rate pmt start due pv (n + 1) = (cumRun rate pmt start due pv n).step rate pmt start due (n + 1) := by
  unfold cumRun
  rw [List.range_succ, List.map_append, List.foldl_append]
  rfl

theorem cumRun_sum (rate pmt pv : ℝ) (start : ℕ) (due : Bool) (hs : 1 ≤ start) (n : ℕ) :
    (cumRun rate pmt start due pv n).interest + (cumRun rate pmt start due pv n).principal = (n + 1 - start : ℕ) * pmt := by
  induction n with
  | zero =>
    have : 0 + 1 - start = 0 := by omega
    simp [cumRun, this]
  | succ n ih =>
    rw [cumRun_succ]
    simp only [Cum.step]
    by_cases h : n + 1 ≥ start
    · rw [if_pos h, if_pos h]
      have e : n + 1 + 1 - start = (n + 1 - start) + 1 := by omega
      rw [e]
      push_cast
      linarith
    · rw [if_neg h, if_neg h, ih]
      have e1 : n + 1 - start = 0 := by omega
      have e2 : n + 1 + 1 - start = 0 := by omega
      rw [e1, e2]

theorem cumRun_principal (rate pmt pv : ℝ) (due : Bool) (n : ℕ) : (cumRun rate pmt 1 due pv n).principal = (cumRun rate pmt 1 due pv n).balance - pv := by
  induction n with
  | zero => simp [cumRun]
  | succ n ih =>
    rw [cumRun_succ]
    simp only [Cum.step]
    rw [if_pos (by omega), ih]
    ring

theorem payment_cum {rate : ℝ} (pv : ℝ) (n : ℕ) (h : ¬Tiny rate) : payment rate n pv 0 false = cumPayment rate pv n := by
  unfold payment cumPayment adj
  rw [if_neg h, Real.rpow_natCast]
  simp only [Bool.false_eq_true, if_false, mul_one, add_zero]
  congr 1
  ring

/-- C87.  CUMIPMT and CUMPRINC have a value exactly for a positive rate, number of periods and debt, and for periods in order within the life of the loan. -/
theorem cum_iff (rate pv : ℝ) (nper start stop : ℕ) (due : Bool) :
    ((CUMIPMT rate nper pv start stop due).isSome ↔ 0 < rate ∧ 0 < pv ∧ 1 ≤ start ∧ start ≤ stop ∧ stop ≤ nper) ∧
    ((CUMPRINC rate nper pv start stop due).isSome ↔ 0 < rate ∧ 0 < pv ∧ 1 ≤ start ∧ start ≤ stop ∧ stop ≤ nper) := by
  have h : ¬ cumBad rate pv nper start stop ↔ 0 < rate ∧ 0 < pv ∧ 1 ≤ start ∧ start ≤ stop ∧ stop ≤ nper := by
    unfold cumBad
    rw [not_or, not_or, not_or, not_or, not_or, not_le, not_le, not_le, not_lt, not_lt]
    constructor
    · rintro ⟨a, b, c, d, e, f⟩; exact ⟨a, c, d, e, by omega⟩
    · rintro ⟨a, c, d, e, f⟩; exact ⟨a, by omega, c, d, e, by omega⟩
  rw [← h]
  unfold CUMIPMT CUMPRINC
  constructor <;> by_cases hb : cumBad rate pv nper start stop <;> simp [hb]

/-- C87.  Interest and principal from one period to another add up to the payments at the end of periods, whatever the type. -/
theorem cum_sum (rate pv : ℝ) (nper start stop : ℕ) (due : Bool) (i q p : ℝ) (h : ¬Tiny rate) (hi : CUMIPMT rate nper pv start stop due = some i) (hq : CUMPRINC rate nper pv start stop due = some q)
    (hp : PMT rate nper pv 0 false = some p) : i + q = (stop + 1 - start : ℕ) * p := by
  unfold CUMIPMT at hi
  unfold CUMPRINC at hq
  split at hi
  · cases hi
  · rename_i hb
    rw [if_neg hb] at hq
    cases hi
    cases hq
    have hs : 1 ≤ start := by
      by_contra hc
      exact hb (by unfold cumBad; omega)
    unfold PMT at hp
    split at hp
    · cases hp
    · rw [payment_cum pv nper h] at hp
      cases hp
      exact cumRun_sum rate _ pv start due hs stop

/-- The balance in the loop: interest is added to what is paid back instead of taken from it. -/
theorem cumRun_balance {rate : ℝ} (hr : rate ≠ 0) (pmt pv : ℝ) (start n : ℕ) : (cumRun rate pmt start false pv n).balance = (pv - pmt / rate) * (1 - rate) ^ n + pmt / rate := by
  induction n with
  | zero => simp [cumRun]
  | succ n ih =>
    rw [cumRun_succ]
    simp only [Cum.step, Bool.false_eq_true, false_and, if_false]
    rw [ih, pow_succ]
    field_simp
    ring

/-- CUMPRINC over all periods is more than the loan, for every rate up to 100%, every loan and number of periods. -/
theorem cumprinc_wrong (rate pv : ℝ) (n : ℕ) (h0 : 0 < rate) (h1 : rate ≤ 1) (hpv : 0 < pv) (hn : 0 < n) : ∃ q, CUMPRINC rate n pv 1 n false = some q ∧ q < -pv := by
  refine ⟨_, if_neg (by unfold cumBad; rw [not_or, not_or, not_or]; exact ⟨by linarith, by omega, by linarith, by omega⟩), ?_⟩
  rw [cumRun_principal, cumRun_balance h0.ne']
  unfold cumPayment
  have hF : 1 < (1 + rate) ^ n := one_lt_pow₀ (by linarith) (by omega)
  have hG : (1 - rate) ^ n * (1 + rate) ^ n ≤ 1 := by
    rw [← mul_pow]
    exact pow_le_one₀ (by nlinarith) (by nlinarith)
  generalize (1 + rate) ^ n = F at *
  generalize (1 - rate) ^ n = G at *
  have e : (pv - -pv * rate * F / (F - 1) / rate) * G + -pv * rate * F / (F - 1) / rate = pv * ((2 * F - 1) * G - F) / (F - 1) := by
    have : F - 1 ≠ 0 := by linarith
    field_simp
    ring
  rw [e]
  have hneg : (2 * F - 1) * G - F < 0 := by
    have h2 : ((2 * F - 1) * G - F) * F < 0 := by nlinarith
    by_contra hc
    have := mul_nonneg (not_lt.mp hc) (by linarith : (0 : ℝ) ≤ F)
    linarith
  have : pv * ((2 * F - 1) * G - F) / (F - 1) < 0 := div_neg_of_neg_of_pos (mul_neg_of_pos_of_neg hpv hneg) (by linarith)
  linarith

/-- CUMIPMT of one period has the other sign than IPMT in the first period, and in the second it is less by twice the interest on the interest. -/
theorem cumipmt_wrong (rate pv : ℝ) (n : ℕ) (ht : ¬Tiny rate) (h0 : 0 < rate) (hpv : 0 < pv) (hn : 2 ≤ n) :
    ∃ i1 i2, IPMT rate (1 : ℕ) n pv 0 false = some i1 ∧ IPMT rate (2 : ℕ) n pv 0 false = some i2 ∧ CUMIPMT rate n pv 1 1 false = some (-i1) ∧ CUMIPMT rate n pv 2 2 false = some (-i2 - 2 * pv * rate ^ 2) := by
  have hu : Usual rate := .inr ht
  have e1 := ipmt_at rate pv 0 false 0 n hu (by omega)
  have e2 := ipmt_at rate pv 0 false 1 n hu (by omega)
  refine ⟨_, _, e1, e2, ?_, ?_⟩
  · unfold CUMIPMT
    rw [if_neg (by unfold cumBad; rw [not_or, not_or, not_or]; exact ⟨by linarith, by omega, by linarith, by omega⟩)]
    congr 1
    simp [cumRun, Cum.step, balance]
  · unfold CUMIPMT
    rw [if_neg (by unfold cumBad; rw [not_or, not_or, not_or]; exact ⟨by linarith, by omega, by linarith, by omega⟩)]
    congr 1
    rw [payment_cum pv n ht]
    simp [cumRun, Cum.step, balance, List.range_succ]
    ring

/-! ## Rates -/

/-- C87.  NOMINAL undoes EFFECT, and EFFECT undoes NOMINAL. -/
theorem nominal_effect (x e : ℝ) (n : ℕ) (h : EFFECT x n = some e) : NOMINAL e n = some x := by
  unfold EFFECT at h
  split at h
  · cases h
  · rename_i hb
    cases h
    rw [not_or, not_le, not_lt] at hb
    obtain ⟨hx, hn⟩ := hb
    have hn0 : (0 : ℝ) < n := by exact_mod_cast hn
    have hq : 0 < x / n := div_pos hx hn0
    have h1 : 1 < (1 + x / n) ^ n := one_lt_pow₀ (by linarith) (by omega)
    unfold NOMINAL
    rw [if_neg (by rw [not_or, not_le, not_lt]; exact ⟨by linarith, hn⟩)]
    congr 1
    rw [show 1 + ((1 + x / n) ^ n - 1) = (1 + x / n) ^ n by ring, ← Real.rpow_natCast, ← Real.rpow_mul (by linarith), mul_one_div_cancel hn0.ne', Real.rpow_one]
    field_simp
    ring

theorem effect_nominal (e x : ℝ) (n : ℕ) (h : NOMINAL e n = some x) : EFFECT x n = some e := by
  unfold NOMINAL at h
  split at h
  · cases h
  · rename_i hb
    cases h
    rw [not_or, not_le, not_lt] at hb
    obtain ⟨he, hn⟩ := hb
    have hn0 : (0 : ℝ) < n := by exact_mod_cast hn
    have h1 : 1 < (1 + e) ^ (1 / (n : ℝ)) := Real.one_lt_rpow (by linarith) (by positivity)
    unfold EFFECT
    rw [if_neg (by rw [not_or, not_le, not_lt]; exact ⟨mul_pos hn0 (by linarith), hn⟩)]
    congr 1
    rw [mul_div_cancel_left₀ _ hn0.ne', show 1 + ((1 + e) ^ (1 / (n : ℝ)) - 1) = (1 + e) ^ (1 / (n : ℝ)) by ring, ← Real.rpow_natCast, ← Real.rpow_mul (by linarith), one_div_mul_cancel hn0.ne', Real.rpow_one]
    ring

/-- C87.  A deposit grows to the future value at the rate RRI, and in the time PDURATION. -/
theorem rri_grows (nper pv fv r : ℝ) (h : RRI nper pv fv = some r) : pv * (1 + r) ^ nper = fv := by
  unfold RRI at h
  split at h
  · cases h
  · rename_i h1
    rw [not_or, not_le] at h1
    split at h
    · cases h
    · rename_i h2
      cases h
      rw [show 1 + ((fv / pv) ^ (1 / nper) - 1) = (fv / pv) ^ (1 / nper) by ring, ← Real.rpow_mul (not_lt.mp h2), one_div_mul_cancel h1.1.ne', Real.rpow_one, mul_div_cancel₀ _ h1.2]

theorem pduration_grows (rate pv fv t : ℝ) (h : PDURATION rate pv fv = some t) : pv * (1 + rate) ^ t = fv := by
  unfold PDURATION at h
  split at h
  · cases h
  · rename_i hb
    cases h
    rw [not_or, not_or, not_le, not_le, not_le] at hb
    obtain ⟨hr, hp, hf⟩ := hb
    have hl : 0 < Real.log (1 + rate) := Real.log_pos (by linarith)
    rw [Real.rpow_def_of_pos (by linarith), mul_div_cancel₀ _ hl.ne', Real.exp_sub, Real.exp_log hf, Real.exp_log hp, mul_div_cancel₀ _ hp.ne']

/-! ## NPV and ISPMT -/

theorem npvFrom_spec (rate : ℝ) (hr : 1 + rate ≠ 0) (vs : List ℝ) : ∀ p acc, npvFrom rate p vs acc = acc + NPV rate vs * (1 + rate) / (1 + rate) ^ p := by
  have key : ∀ (vs : List ℝ) p acc, npvFrom rate (p + 1) vs acc = acc + npvFrom rate p vs 0 / (1 + rate) ∧ ∀ acc, npvFrom rate p vs acc = acc + npvFrom rate p vs 0 := by
    intro vs
    induction vs with
    | nil => intro p acc; simp [npvFrom]
    | cons v vs ih =>
      intro p acc
      have hp : (1 + rate) ^ p ≠ 0 := pow_ne_zero _ hr
      have hp1 : (1 + rate) ^ (p + 1) ≠ 0 := pow_ne_zero _ hr
      constructor
      · simp only [npvFrom]
        rw [(ih (p + 1) (acc + v / (1 + rate) ^ (p + 1))).1, (ih (p + 1) 0).2 (0 + v / (1 + rate) ^ p), pow_succ]
        field_simp
        ring
      · intro acc
        simp only [npvFrom]
        rw [(ih (p + 1) 0).2 (acc + v / (1 + rate) ^ p), (ih (p + 1) 0).2 (0 + v / (1 + rate) ^ p)]
        ring
  intro p
  induction p with
  | zero =>
    intro acc
    rw [(key vs 0 acc).2, pow_zero, div_one, NPV, (key vs 0 0).1, zero_add, div_mul_cancel₀ _ hr]
  | succ p ih =>
    intro acc
    rw [(key vs p acc).1, ih 0, pow_succ]
    have hp : (1 + rate) ^ p ≠ 0 := pow_ne_zero _ hr
    field_simp
    ring

/-- C87.  NPV discounts each value by one period more than the one before. -/
theorem npv_cons (rate v : ℝ) (vs : List ℝ) (hr : 1 + rate ≠ 0) : NPV rate (v :: vs) = (v + NPV rate vs) / (1 + rate) := by
  rw [NPV, npvFrom, npvFrom_spec rate hr]
  field_simp
  ring

/-- C87.  The present value of equal payments is PV. -/
theorem npv_pv (rate pmt : ℝ) (n : ℕ) (ht : ¬Tiny rate) (hr : 0 < 1 + rate) : NPV rate (List.replicate n pmt) = PV rate n (-pmt) 0 false := by
  have h0 := ne_zero_of_not_tiny ht
  induction n with
  | zero => simp [NPV, npvFrom, PV, ht]
  | succ n ih =>
    rw [List.replicate_succ, npv_cons rate pmt _ hr.ne', ih]
    unfold PV adj
    rw [if_neg ht, if_neg ht, Real.rpow_natCast, Real.rpow_natCast, pow_succ]
    have hp : (1 + rate) ^ n ≠ 0 := pow_ne_zero _ hr.ne'
    have hr1 := hr.ne'
    simp only [Bool.false_eq_true, if_false]
    field_simp
    ring

/-- C87.  ISPMT is the interest on what is left of a loan paid back in equal parts. -/
theorem ispmt_left (rate pv : ℝ) (k n : ℕ) (hn : n ≠ 0) : ISPMT rate k n pv = some (-(rate * (pv - k * (pv / n)))) := by
  have hn0 : (n : ℝ) ≠ 0 := by exact_mod_cast hn
  unfold ISPMT
  rw [if_neg hn0]
  congr 1
  field_simp
  ring

/-! ## Cases -/

example : ∃ q, CUMPRINC (1 / 200) 360 300000 1 360 false = some q ∧ q < -300000 := cumprinc_wrong _ _ _ (by norm_num) (by norm_num) (by norm_num) (by omega)

example : ∃ i q p, CUMIPMT (1 / 10) 2 210 1 2 true = some i ∧ CUMPRINC (1 / 10) 2 210 1 2 true = some q ∧ PMT (1 / 10) (2 : ℕ) 210 0 false = some p ∧ p ≠ 0 := by
  have hb : ¬cumBad (1 / 10) 210 2 1 2 := by unfold cumBad; norm_num
  refine ⟨_, _, _, if_neg hb, if_neg hb, if_neg (by norm_num), ?_⟩
  rw [payment_cum _ _ not_tiny_tenth]
  unfold cumPayment
  norm_num

example : EFFECT (1 / 5) 2 = some (21 / 100) := by norm_num [EFFECT]

example : NPV (1 / 10) [11, 121] = 110 := by norm_num [NPV, npvFrom]

example : RRI 2 100 121 = some ((121 / 100) ^ (1 / 2 : ℝ) - 1) := by norm_num [RRI]

example : ∃ t, PDURATION (1 / 10) 100 200 = some t := ⟨_, if_neg (by norm_num)⟩

end Verif.Fin

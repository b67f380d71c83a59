import Verif.Solve.Irr

/-!
# RATE, MIRR, XNPV and XIRR
-/

namespace Verif.Solve

open Verif.Fin

/-! ## RATE -/

theorem rateF_fv {rate : ℝ} (nper pmt pv fv : ℝ) (due : Bool) (h : ¬Tiny rate) : rateF nper pmt pv fv due rate = fv - FV rate nper pmt pv due := by
  unfold rateF FV
  rw [if_neg h]
  ring

theorem hasDeriv_growth (nper r : ℝ) (hr : -1 < r) : HasDerivAt (fun x : ℝ => (1 + x) ^ nper) (nper * (1 + r) ^ (nper - 1)) r := by
  have := ((hasDerivAt_id r).const_add 1).rpow_const (p := nper) (.inl (by simp; linarith))
  simpa using this

theorem rate_deriv_end (nper pmt pv fv r : ℝ) (hr : -1 < r) (h0 : r ≠ 0) : HasDerivAt (rateF nper pmt pv fv false) (rateD nper pmt pv false r) r := by
  have hg := hasDeriv_growth nper r hr
  have h1 := (hg.const_mul pv).fun_add (((hg.sub_const 1).const_mul pmt).fun_div (hasDerivAt_id r) h0)
  have h2 := h1.add_const fv
  have e : rateF nper pmt pv fv false = fun x => pv * (1 + x) ^ nper + pmt * ((1 + x) ^ nper - 1) / id x + fv := by
    funext x
    simp [rateF, adj]
  rw [e]
  refine h2.congr_deriv ?_
  simp only [rateD, adj, Bool.false_eq_true, if_false, id_eq, mul_one]
  field_simp

/-- With payments at the beginning the derivative lacks a part. -/
theorem rate_deriv_due (nper pmt pv fv r : ℝ) (hr : -1 < r) (h0 : r ≠ 0) : HasDerivAt (rateF nper pmt pv fv true) (rateD nper pmt pv true r + pmt * ((1 + r) ^ nper - 1) / r) r := by
  have hg := hasDeriv_growth nper r hr
  have ha : HasDerivAt (fun x : ℝ => 1 + x) 1 r := (hasDerivAt_id r).const_add 1
  have h1 := (hg.const_mul pv).fun_add (((ha.const_mul pmt).fun_mul (hg.sub_const 1)).fun_div (hasDerivAt_id r) h0)
  have h2 := h1.add_const fv
  have e : rateF nper pmt pv fv true = fun x => pv * (1 + x) ^ nper + pmt * (1 + x) * ((1 + x) ^ nper - 1) / id x + fv := by
    funext x
    simp [rateF, adj]
  rw [e]
  refine h2.congr_deriv ?_
  simp only [rateD, adj, if_true, id_eq, mul_one]
  field_simp
  ring

theorem rateLoop_found (nper pmt pv fv : ℝ) (due : Bool) : ∀ (n : ℕ) (rate r : ℝ), -1 < rate → rateLoop nper pmt pv fv due n rate = some r →
    (Tiny r ∧ |pv + pmt * nper + fv| < 1 / 10 ^ 10) ∨ ∃ r0, -1 < r0 ∧ ¬Tiny r0 ∧ |r - r0| < 1 / 10 ^ 10 ∧ rateD nper pmt pv due r0 ≠ 0 ∧ rateF nper pmt pv fv due r0 = (r0 - r) * rateD nper pmt pv due r0
  | 0, _, _, _, h => by cases h
  | n + 1, rate, r, hr, h => by
    rw [rateLoop] at h
    split at h
    · rename_i ht
      split at h
      · rename_i hf
        cases h
        exact .inl ⟨ht, hf⟩
      · exact rateLoop_found nper pmt pv fv due n _ r (by norm_num) h
    · rename_i ht
      split at h
      · cases h
      · rename_i hd
        have hd0 : rateD nper pmt pv due rate ≠ 0 := by
          intro h0
          rw [h0, abs_zero] at hd
          exact hd (by norm_num)
        simp only at h
        split at h
        · rename_i hc
          cases h
          exact .inr ⟨rate, hr, ht, hc, hd0, by rw [sub_sub_cancel, div_mul_cancel₀ _ hd0]⟩
        · refine rateLoop_found nper pmt pv fv due n _ r ?_ h
          split
          · norm_num
          · rename_i hn
            linarith

/-- C88.  A rate that RATE gives leads to the future value, up to 1e-10 times the derivative: FV at a rate closer than 1e-10 differs from the future value asked for by this distance times the derivative. -/
theorem rate_end (nper pmt pv fv guess r : ℝ) (hg : -1 < guess) (h : RATE nper pmt pv fv false guess = some r) :
    (Tiny r ∧ |fv - FV 0 nper pmt pv false| < 1 / 10 ^ 10) ∨
      ∃ r0 d, -1 < r0 ∧ |r - r0| < 1 / 10 ^ 10 ∧ HasDerivAt (fun x => pv * (1 + x) ^ nper + pmt * ((1 + x) ^ nper - 1) / x + fv) d r0 ∧ d ≠ 0 ∧ fv - FV r0 nper pmt pv false = (r0 - r) * d := by
  rcases rateLoop_found nper pmt pv fv false 100 guess r hg h with ⟨h1, h2⟩ | ⟨r0, h1, h2, h3, h4, h5⟩
  · refine .inl ⟨h1, ?_⟩
    unfold FV
    rw [if_pos tiny_zero]
    rwa [show fv - (-pv - pmt * nper) = pv + pmt * nper + fv by ring]
  · refine .inr ⟨r0, _, h1, h3, ?_, h4, by rw [← rateF_fv nper pmt pv fv false h2]; exact h5⟩
    have := rate_deriv_end nper pmt pv fv r0 h1 (ne_zero_of_not_tiny h2)
    have e : rateF nper pmt pv fv false = fun x => pv * (1 + x) ^ nper + pmt * ((1 + x) ^ nper - 1) / x + fv := by
      funext x
      simp [rateF, adj]
    rwa [e] at this

/-- C88.  The same for payments at the beginning, but what it is multiplied with is less than the derivative by PMT times the growth over the rate. -/
theorem rate_due (nper pmt pv fv guess r : ℝ) (hg : -1 < guess) (h : RATE nper pmt pv fv true guess = some r) :
    (Tiny r ∧ |fv - FV 0 nper pmt pv true| < 1 / 10 ^ 10) ∨
      ∃ r0 d, -1 < r0 ∧ |r - r0| < 1 / 10 ^ 10 ∧ HasDerivAt (fun x => pv * (1 + x) ^ nper + pmt * (1 + x) * ((1 + x) ^ nper - 1) / x + fv) (d + pmt * ((1 + r0) ^ nper - 1) / r0) r0 ∧
        fv - FV r0 nper pmt pv true = (r0 - r) * d := by
  rcases rateLoop_found nper pmt pv fv true 100 guess r hg h with ⟨h1, h2⟩ | ⟨r0, h1, h2, h3, h4, h5⟩
  · refine .inl ⟨h1, ?_⟩
    unfold FV
    rw [if_pos tiny_zero]
    rwa [show fv - (-pv - pmt * nper) = pv + pmt * nper + fv by ring]
  · refine .inr ⟨r0, _, h1, h3, ?_, by rw [← rateF_fv nper pmt pv fv true h2]; exact h5⟩
    have := rate_deriv_due nper pmt pv fv r0 h1 (ne_zero_of_not_tiny h2)
    have e : rateF nper pmt pv fv true = fun x => pv * (1 + x) ^ nper + pmt * (1 + x) * ((1 + x) ^ nper - 1) / x + fv := by
      funext x
      simp [rateF, adj]
    rwa [e] at this

/-- A rate that solves the loan exactly is given back when it is the guess. -/
theorem rate_fixed (nper pmt pv rate : ℝ) (due : Bool) (ht : ¬Tiny rate) (hd : ¬|rateD nper pmt pv due rate| < 1 / 10 ^ 20) : RATE nper pmt pv (FV rate nper pmt pv due) due rate = some rate := by
  unfold RATE
  rw [rateLoop, if_neg ht, if_neg hd, rateF_fv nper pmt pv _ due ht, sub_self, zero_div, sub_zero]
  simp only [sub_self, abs_zero]
  rw [if_pos (by norm_num)]

/-! ## MIRR -/

theorem mirrSums_fst (f re : ℝ) (n : ℕ) : ∀ (cs : List ℝ) (i : ℕ) (acc : ℝ × ℝ), (mirrSums f re n i cs acc).1 = acc.1 + npvFrom f i (cs.map (min · 0)) 0
  | [], _, acc => by simp [mirrSums, npvFrom]
  | c :: cs, i, acc => by
    rw [mirrSums, mirrSums_fst, List.map_cons, npvFrom, npvFrom_acc f _ (i + 1) (0 + _)]
    by_cases h : c < 0
    · rw [if_pos h, min_eq_left h.le]
      ring
    · rw [if_neg h, min_eq_right (not_lt.mp h)]
      ring

theorem mirrSums_snd (f re : ℝ) (hre : 1 + re ≠ 0) (n : ℕ) : ∀ (cs : List ℝ) (i : ℕ) (acc : ℝ × ℝ), i + cs.length = n → (mirrSums f re n i cs acc).2 = acc.2 + npvFrom re i (cs.map (max · 0)) 0 * (1 + re) ^ (n - 1)
  | [], _, acc, _ => by simp [mirrSums, npvFrom]
  | c :: cs, i, acc, hn => by
    rw [List.length_cons] at hn
    rw [mirrSums, mirrSums_snd f re hre n cs (i + 1) _ (by omega), List.map_cons, npvFrom, npvFrom_acc re _ (i + 1) (0 + _)]
    by_cases h : c < 0
    · rw [if_pos h, max_eq_right h.le]
      ring
    · rw [if_neg h, max_eq_left (not_lt.mp h)]
      have hp : (1 + re) ^ i ≠ 0 := pow_ne_zero _ hre
      have e : (1 + re) ^ (n - 1) = (1 + re) ^ (n - 1 - i) * (1 + re) ^ i := by rw [← pow_add]; congr 1; omega
      rw [e]
      field_simp
      ring

/-- C88.  What is paid, discounted to the first period, grows at the rate MIRR to what comes back, compounded to the last. -/
theorem mirr_grows (flows : List ℝ) (f re r : ℝ) (hre : 1 + re ≠ 0) (h : MIRR flows f re = some r) :
    irrNpv (flows.map (min · 0)) f * (1 + r) ^ (flows.length - 1) = -(irrNpv (flows.map (max · 0)) re * (1 + re) ^ (flows.length - 1)) := by
  unfold MIRR at h
  split at h
  · cases h
  · rename_i hl
    simp only at h
    rw [mirrSums_fst, mirrSums_snd f re hre _ _ _ _ (by omega)] at h
    simp only [zero_add] at h
    unfold irrNpv
    generalize npvFrom f 0 (flows.map (min · 0)) 0 = P at *
    generalize npvFrom re 0 (flows.map (max · 0)) 0 * (1 + re) ^ (flows.length - 1) = F at *
    split at h
    · cases h
    · rename_i hb
      rw [not_or, not_le, not_le] at hb
      cases h
      have hq : 0 < -F / P := div_pos_of_neg_of_neg (by linarith) hb.1
      have hn : ((flows.length - 1 : ℕ) : ℝ) ≠ 0 := by exact_mod_cast (by omega : flows.length - 1 ≠ 0)
      rw [add_sub_cancel, ← Real.rpow_natCast, ← Real.rpow_mul hq.le, one_div_mul_cancel hn, Real.rpow_one, mul_div_cancel₀ _ hb.1.ne]

/-! ## XNPV and XIRR -/

theorem xnpvFrom_acc (r : ℝ) (d0 : ℤ) : ∀ (fs : List (ℝ × ℤ)) acc, xnpvFrom r d0 fs acc = acc + xnpvFrom r d0 fs 0
  | [], acc => by simp [xnpvFrom]
  | (v, d) :: fs, acc => by
    simp only [xnpvFrom]
    rw [xnpvFrom_acc r d0 fs (acc + _), xnpvFrom_acc r d0 fs (0 + _)]
    ring

theorem xderivFrom_acc (r : ℝ) (d0 : ℤ) : ∀ (fs : List (ℝ × ℤ)) acc, xderivFrom r d0 fs acc = acc + xderivFrom r d0 fs 0
  | [], acc => by simp [xderivFrom]
  | (v, d) :: fs, acc => by
    simp only [xderivFrom]
    rw [xderivFrom_acc r d0 fs (acc - _), xderivFrom_acc r d0 fs (0 - _)]
    ring

theorem xhasDeriv_from (r : ℝ) (d0 : ℤ) (hr : -1 < r) : ∀ fs : List (ℝ × ℤ), HasDerivAt (fun x => xnpvFrom x d0 fs 0) (xderivFrom r d0 fs 0) r
  | [] => by
    simp only [xnpvFrom, xderivFrom]
    exact hasDerivAt_const r 0
  | (v, d) :: fs => by
    have ih := xhasDeriv_from r d0 hr fs
    set y := ((d - d0 : ℤ) : ℝ) / 365 with hy
    have hpos : 0 < 1 + r := by linarith
    have hp : (1 + r) ^ y ≠ 0 := (Real.rpow_pos_of_pos hpos _).ne'
    have h2 := ((hasDerivAt_const r v).fun_div (hasDeriv_growth y r hr) hp).fun_add ih
    have e1 : (fun x => xnpvFrom x d0 ((v, d) :: fs) 0) = fun x => v / (1 + x) ^ y + xnpvFrom x d0 fs 0 := by
      funext x
      rw [xnpvFrom, xnpvFrom_acc, zero_add]
    rw [e1, xderivFrom, xderivFrom_acc, ← hy]
    refine h2.congr_deriv ?_
    congr 1
    rw [Real.rpow_add hpos, Real.rpow_sub hpos, Real.rpow_one]
    have := hpos.ne'
    field_simp
    ring

theorem xhasDeriv (fs : List (ℝ × ℤ)) (r : ℝ) (hr : -1 < r) : HasDerivAt (fun x => xnpv x fs) (xderiv r fs) r := by
  cases fs with
  | nil => exact hasDerivAt_const r 0
  | cons p fs => exact xhasDeriv_from r p.2 hr (p :: fs)

theorem xirrLoop_found (fs : List (ℝ × ℤ)) : ∀ (n : ℕ) (rate r : ℝ), -1 < rate → xirrLoop fs n rate = some r → ∃ r0, -1 < r0 ∧ |r - r0| < 1 / 10 ^ 10 ∧ xderiv r0 fs ≠ 0 ∧ xnpv r0 fs = (r0 - r) * xderiv r0 fs
  | 0, _, _, _, h => by cases h
  | n + 1, rate, r, hr, h => by
    rw [xirrLoop] at h
    split at h
    · cases h
    · rename_i hd
      have hd0 : xderiv rate fs ≠ 0 := by
        intro h0
        rw [h0, abs_zero] at hd
        exact hd (by norm_num)
      simp only at h
      split at h
      · rename_i hc
        cases h
        exact ⟨rate, hr, hc, hd0, by rw [sub_sub_cancel, div_mul_cancel₀ _ hd0]⟩
      · refine xirrLoop_found fs n _ r ?_ h
        split
        · norm_num
        · rename_i hn
          exact not_le.mp hn

/-- C88.  XNPV at a rate closer than 1e-10 to the result of XIRR is this distance times the derivative of XNPV. -/
theorem xirr_found (fs : List (ℝ × ℤ)) (guess r : ℝ) (hg : -1 < guess) (h : XIRR fs guess = some r) :
    ∃ r0 d x, -1 < r0 ∧ |r - r0| < 1 / 10 ^ 10 ∧ HasDerivAt (fun y => (XNPV y fs).getD 0) d r0 ∧ d ≠ 0 ∧ XNPV r0 fs = some x ∧ x = (r0 - r) * d := by
  unfold XIRR at h
  split at h
  · cases h
  · rename_i hl
    split at h
    · cases h
    · obtain ⟨r0, h1, h2, h3, h4⟩ := xirrLoop_found fs 100 guess r hg h
      have hne : fs.isEmpty = false := by
        cases fs with
        | nil => simp at hl
        | cons _ _ => rfl
      refine ⟨r0, _, _, h1, h2, ?_, h3, ?_, h4⟩
      · unfold XNPV
        simp only [hne, Bool.false_eq_true, if_false, Option.getD_some]
        exact xhasDeriv fs r0 h1
      · unfold XNPV
        rw [hne]
        simp

/-- C88.  XIRR gives a rate only for flows in both directions. -/
theorem xirr_signs (fs : List (ℝ × ℤ)) (guess r : ℝ) (h : XIRR fs guess = some r) : (∃ p ∈ fs, 0 < p.1) ∧ ∃ p ∈ fs, p.1 < 0 := by
  unfold XIRR at h
  split at h
  · cases h
  · split at h
    · cases h
    · rename_i hn
      exact ⟨by_contra fun hp => hn (Or.inl hp), by_contra fun hp => hn (Or.inr hp)⟩

theorem xnpv_yearly_from (r : ℝ) (hr : -1 < r) (d0 : ℤ) : ∀ (vs : List ℝ) (i : ℕ) acc, xnpvFrom r d0 ((vs.zipIdx i).map fun p => (p.1, d0 + 365 * p.2)) acc = npvFrom r i vs acc
  | [], _, _ => rfl
  | v :: vs, i, acc => by
    rw [List.zipIdx_cons, List.map_cons, xnpvFrom, npvFrom, xnpv_yearly_from r hr d0 vs (i + 1)]
    congr 3
    have : ((d0 + 365 * (i : ℤ) - d0 : ℤ) : ℝ) / 365 = (i : ℕ) := by push_cast; ring
    rw [this, Real.rpow_natCast]

/-- C88.  With dates 365 days apart XNPV is the first value and NPV of the others. -/
theorem xnpv_yearly (r : ℝ) (hr : -1 < r) (d0 : ℤ) (v : ℝ) (vs : List ℝ) : XNPV r (((v :: vs).zipIdx).map fun p => (p.1, d0 + 365 * p.2)) = some (v + NPV r vs) := by
  rw [← irrNpv_cons v vs r (by linarith)]
  unfold XNPV irrNpv
  rw [if_neg (by simp [List.zipIdx_cons])]
  congr 1
  rw [← xnpv_yearly_from r hr d0 (v :: vs) 0 0]
  simp [xnpv, List.zipIdx_cons]

/-- C88.  XNPV depends on the days since the first date only. -/
theorem xnpv_shift (r : ℝ) (k : ℤ) (fs : List (ℝ × ℤ)) : XNPV r (fs.map fun p => (p.1, p.2 + k)) = XNPV r fs := by
  have key : ∀ (fs : List (ℝ × ℤ)) d0 acc, xnpvFrom r (d0 + k) (fs.map fun p => (p.1, p.2 + k)) acc = xnpvFrom r d0 fs acc := by
    intro fs
    induction fs with
    | nil => intro _ _; rfl
    | cons p fs ih =>
      intro d0 acc
      rw [List.map_cons, xnpvFrom, xnpvFrom, ih, add_sub_add_right_eq_sub]
  unfold XNPV
  cases fs with
  | nil => rfl
  | cons p fs =>
    simp only [List.map_cons, List.isEmpty_cons, Bool.false_eq_true, if_false]
    congr 1
    exact key (p :: fs) p.2 0

/-! ## Cases -/

example : IRR [-100, 110] (1 / 10) = some (1 / 10) := by
  unfold IRR irrSolve
  rw [if_neg (by simp), irrNewton]
  norm_num [irrDeriv, derivFrom, irrNpv, npvFrom, tol, abs_of_neg, abs_of_pos]

example : (∀ c ∈ [(-100 : ℝ)], c ≤ 0) ∧ (∃ c ∈ [(-100 : ℝ)], c < 0) ∧ (∀ c ∈ [(50 : ℝ)], 0 ≤ c) := by norm_num

example : MIRR [-100, 0, 121] (1 / 10) (1 / 10) = some ((121 / 100) ^ (1 / 2 : ℝ) - 1) := by
  norm_num [MIRR, mirrSums]

example : XIRR [(-100, 0), (110, 365)] (1 / 10) = some (1 / 10) := by
  unfold XIRR
  rw [if_neg (by simp), if_neg (by simp), xirrLoop]
  have e : (1 + 1 / 10 : ℝ) ^ ((365 : ℝ) / 365 + 1) = 121 / 100 := by
    rw [show (365 : ℝ) / 365 + 1 = (2 : ℕ) by norm_num, Real.rpow_natCast]
    norm_num
  norm_num [xderiv, xderivFrom, xnpv, xnpvFrom, e, abs_of_neg, abs_of_pos] at *

end Verif.Solve

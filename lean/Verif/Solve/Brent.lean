import Verif.Solve.Model
import Mathlib.Topology.Order.IntermediateValue
import Mathlib.Topology.Algebra.Order.LiminfLimsup
import Mathlib.Tactic.Linarith
import Mathlib.Tactic.Ring
import Mathlib.Tactic.FieldSimp
import Mathlib.Tactic.NormNum
import Mathlib.Tactic.LinearCombination

/-!
# The bracket of Brent's method
-/

namespace Verif.Solve

/-- `x` is strictly between `a` and `b`. -/
def Between (a x b : ℝ) : Prop := ∃ t, 0 < t ∧ t < 1 ∧ x = a + t * (b - a)

theorem Between.mem {a x b lo hi : ℝ} (h : Between a x b) (ha : a ∈ Set.Icc lo hi) (hb : b ∈ Set.Icc lo hi) : x ∈ Set.Icc lo hi := by
  obtain ⟨t, t0, t1, rfl⟩ := h
  constructor
  · nlinarith [ha.1, hb.1]
  · nlinarith [ha.2, hb.2]

theorem eps_pos : 0 < eps := by unfold eps; positivity
theorem tol_pos : 0 < tol := by unfold tol; positivity

theorem delta_ge (s : Br) : eps ≤ s.delta := le_max_right _ _
theorem delta_pos (s : Br) : 0 < s.delta := lt_of_lt_of_le eps_pos (delta_ge s)

/-- At the head of the loop. -/
structure Inv (f : ℝ → ℝ) (lo hi : ℝ) (s : Br) : Prop where
  pre : s.fpre = f s.xpre
  cur : s.fcur = f s.xcur
  preMem : s.xpre ∈ Set.Icc lo hi
  curMem : s.xcur ∈ Set.Icc lo hi
  ne : s.fpre ≠ 0
  alt : s.fpre * s.fcur < 0 ∨ (s.fblk = f s.xblk ∧ s.xblk ∈ Set.Icc lo hi ∧ s.fpre * s.fblk < 0 ∧ Between s.xpre s.xcur s.xblk)

/-- After the contrapoint is set and the points are swapped. -/
structure Mid (f : ℝ → ℝ) (lo hi : ℝ) (s : Br) : Prop where
  pre : s.fpre = f s.xpre
  cur : s.fcur = f s.xcur
  blk : s.fblk = f s.xblk
  curMem : s.xcur ∈ Set.Icc lo hi
  blkMem : s.xblk ∈ Set.Icc lo hi
  sign : s.fcur = 0 ∨ s.fcur * s.fblk < 0
  alt : (s.xpre = s.xblk ∧ s.fpre = s.fblk) ∨ (s.fpre * s.fblk < 0 ∧ Between s.xpre s.xcur s.xblk)

theorem mul_neg_trans {a b c : ℝ} (h : a * c < 0) (hb : b ≠ 0) (hab : ¬a * b < 0) : b * c < 0 := by
  have hab := not_lt.mp hab
  rcases mul_neg_iff.mp h with ⟨ha, hc⟩ | ⟨ha, hc⟩
  · exact mul_neg_of_pos_of_neg (lt_of_le_of_ne (by by_contra hn; nlinarith [mul_neg_of_pos_of_neg ha (not_le.mp hn)]) hb.symm) hc
  · exact mul_neg_of_neg_of_pos (lt_of_le_of_ne (by by_contra hn; nlinarith [mul_neg_of_neg_of_pos ha (not_le.mp hn)]) hb) hc

theorem Inv.mid {f : ℝ → ℝ} {lo hi : ℝ} {s : Br} (h : Inv f lo hi s) : Mid f lo hi s.reset.swap := by
  have hr : Mid f lo hi s.reset := by
    unfold Br.reset
    by_cases hs : s.fpre * s.fcur < 0
    · rw [if_pos hs]
      exact ⟨h.pre, h.cur, h.pre, h.curMem, h.preMem, .inr (by simp only; linarith [mul_comm s.fpre s.fcur]), .inl ⟨rfl, rfl⟩⟩
    · rw [if_neg hs]
      obtain ⟨hb, hm, hn, hbt⟩ := h.alt.resolve_left hs
      refine ⟨h.pre, h.cur, hb, h.curMem, hm, ?_, .inr ⟨hn, hbt⟩⟩
      by_cases hc : s.fcur = 0
      · exact .inl hc
      · exact .inr (mul_neg_trans hn hc hs)
  unfold Br.swap
  split
  · rename_i hlt
    have hc : s.reset.fcur ≠ 0 := by
      intro h0
      rw [h0, abs_zero] at hlt
      exact absurd hlt (not_lt.mpr (abs_nonneg _))
    exact ⟨hr.cur, hr.blk, hr.cur, hr.blkMem, hr.curMem, .inr (by have := hr.sign.resolve_left hc; simp only; linarith [mul_comm s.reset.fcur s.reset.fblk]), .inl ⟨rfl, rfl⟩⟩
  · exact hr

/-- The step tried goes from the point towards the contrapoint. -/
theorem stry_dir {f : ℝ → ℝ} {lo hi : ℝ} {s : Br} (h : Mid f lo hi s) (hc : s.fcur ≠ 0) (hd : s.delta ≤ |s.sbis|) (hf : |s.fcur| < |s.fpre|) : ∃ t, 0 < t ∧ s.stry = t * (s.xblk - s.xcur) := by
  have hs := h.sign.resolve_left hc
  have hD : s.xblk - s.xcur ≠ 0 := by
    intro h0
    unfold Br.sbis at hd
    rw [h0, zero_mul, abs_zero] at hd
    exact absurd (delta_pos s) (not_lt.mpr hd)
  obtain ⟨b, hb⟩ : ∃ b, s.fblk = b * s.fcur := ⟨s.fblk / s.fcur, (div_mul_cancel₀ _ hc).symm⟩
  have hb0 : b < 0 := by
    rw [hb] at hs
    have : 0 < s.fcur * s.fcur := mul_self_pos.mpr hc
    by_contra hn
    nlinarith [mul_nonneg (not_lt.mp hn) this.le]
  rcases h.alt with ⟨e1, e2⟩ | ⟨hp, u, u0, u1, hu⟩
  · unfold Br.stry
    rw [e1, e2, sub_self, abs_zero, if_pos eps_pos, hb]
    refine ⟨1 / (1 - b), by apply one_div_pos.mpr; linarith, ?_⟩
    have h1 : 1 - b ≠ 0 := by linarith
    have h2 : s.fcur - b * s.fcur ≠ 0 := by
      rw [show s.fcur - b * s.fcur = (1 - b) * s.fcur by ring]
      exact mul_ne_zero h1 hc
    rw [div_eq_iff h2]
    field_simp
    ring
  · obtain ⟨p, hpp⟩ : ∃ p, s.fpre = p * s.fcur := ⟨s.fpre / s.fcur, (div_mul_cancel₀ _ hc).symm⟩
    have hp0 : 0 < p := by
      rw [hpp, hb] at hp
      have : 0 < s.fcur * s.fcur := mul_self_pos.mpr hc
      by_contra hn
      have := mul_nonneg (mul_nonneg_of_nonpos_of_nonpos (not_lt.mp hn) hb0.le) this.le
      nlinarith
    have hp1 : 1 < p := by
      rw [hpp, abs_mul, abs_of_pos hp0] at hf
      by_contra hn
      have := mul_le_mul_of_nonneg_right (not_lt.mp hn) (abs_nonneg s.fcur)
      linarith
    -- the previous point is behind
    have hv : s.xpre = s.xcur - u / (1 - u) * (s.xblk - s.xcur) := by
      have : 1 - u ≠ 0 := by linarith
      rw [hu]
      field_simp
      ring
    set v := u / (1 - u) with hvd
    have v0 : 0 < v := div_pos u0 (by linarith)
    have hfar : ¬|s.xpre - s.xblk| < eps := by
      rw [hv, show s.xcur - v * (s.xblk - s.xcur) - s.xblk = -((1 + v) * (s.xblk - s.xcur)) by ring, abs_neg, abs_mul, abs_of_pos (by linarith)]
      unfold Br.sbis at hd
      rw [abs_mul, abs_of_pos (by norm_num : (0 : ℝ) < 1 / 2)] at hd
      have := delta_ge s
      have := mul_nonneg v0.le (abs_nonneg (s.xblk - s.xcur))
      have := abs_nonneg (s.xblk - s.xcur)
      nlinarith
    unfold Br.stry
    rw [if_neg hfar, hpp, hb, hv]
    generalize s.xblk - s.xcur = D at *
    have a1 : 1 - b ≠ 0 := by linarith
    have a2 : p - 1 ≠ 0 := by linarith
    have a3 : p - b ≠ 0 := by linarith
    have v1 := v0.ne'
    refine ⟨(v * (b * (b - 1)) + p * (p - 1)) / ((1 - b) * (p - 1) * (p - b)), div_pos (by nlinarith [mul_pos v0 (mul_pos_of_neg_of_neg hb0 (by linarith : b - 1 < 0)), mul_pos hp0 (by linarith : 0 < p - 1)]) (mul_pos (mul_pos (by linarith) (by linarith)) (by linarith)), ?_⟩
    simp only
    have e1 : (p * s.fcur - s.fcur) / (s.xcur - v * D - s.xcur) = -((p - 1) * s.fcur / (v * D)) := by
      rw [show s.xcur - v * D - s.xcur = -(v * D) by ring, div_neg]
      ring
    have e2 : (b * s.fcur - s.fcur) / D = -((1 - b) * s.fcur / D) := by ring
    rw [e1, e2]
    generalize s.fcur = c at *
    have e3 : b * c - p * c = -((p - b) * c) := by ring
    rw [e3, div_eq_iff]
    · field_simp
      ring
    · refine mul_ne_zero (mul_ne_zero (neg_ne_zero.mpr ?_) (neg_ne_zero.mpr ?_)) (neg_ne_zero.mpr (mul_ne_zero a3 hc))
      · exact div_ne_zero (mul_ne_zero a1 hc) hD
      · exact div_ne_zero (mul_ne_zero a2 hc) (mul_ne_zero v1 hD)

theorem move_between {f : ℝ → ℝ} {lo hi : ℝ} {s : Br} (h : Mid f lo hi s) (hc : s.fcur ≠ 0) (hd : s.delta ≤ |s.sbis|) : Between s.xcur s.move s.xblk := by
  have hδ := delta_pos s
  have hD : s.xblk - s.xcur ≠ 0 := by
    intro h0
    unfold Br.sbis at hd
    rw [h0, zero_mul, abs_zero] at hd
    exact absurd hδ (not_lt.mpr hd)
  have hbis : |s.sbis| = |s.xblk - s.xcur| / 2 := by
    unfold Br.sbis
    rw [abs_mul, abs_of_pos (by norm_num : (0 : ℝ) < 1 / 2)]
    ring
  unfold Br.move
  split
  · have hsb : Between s.xcur (s.xcur + s.sbis) s.xblk := ⟨1 / 2, by norm_num, by norm_num, by unfold Br.sbis; ring⟩
    have hst : s.steps.2 = s.sbis ∨ (s.steps.2 = s.stry ∧ |s.fcur| < |s.fpre| ∧ 2 * |s.stry| < 3 * |s.sbis| - s.delta) := by
      unfold Br.steps
      split
      · rename_i h1
        split
        · rename_i h2
          exact .inr ⟨rfl, h1.2, lt_of_lt_of_le h2 (min_le_right _ _)⟩
        · exact .inl rfl
      · exact .inl rfl
    rcases hst with e | ⟨e, h1, h2⟩
    · rw [e]
      exact hsb
    · rw [e]
      obtain ⟨t, t0, ht⟩ := stry_dir h hc hd h1
      refine ⟨t, t0, ?_, by rw [ht]⟩
      rw [ht, abs_mul, abs_of_pos t0, hbis] at h2
      have hD' : 0 < |s.xblk - s.xcur| := abs_pos.mpr hD
      by_contra hn
      have := mul_le_mul_of_nonneg_right (not_lt.mp hn) hD'.le
      linarith
  · have hD' : 0 < |s.xblk - s.xcur| := abs_pos.mpr hD
    rw [hbis] at hd
    refine ⟨s.delta / |s.xblk - s.xcur|, div_pos hδ hD', (div_lt_one hD').mpr (by linarith), ?_⟩
    congr 1
    unfold Br.sbis
    split
    · rename_i hp
      have : 0 < s.xblk - s.xcur := by linarith
      rw [abs_of_pos this, div_mul_cancel₀ _ this.ne']
    · rename_i hp
      have : s.xblk - s.xcur < 0 := lt_of_le_of_ne (by linarith) hD
      rw [abs_of_neg this, div_neg, neg_mul, div_mul_cancel₀ _ hD]

theorem Mid.next {f : ℝ → ℝ} {lo hi : ℝ} {s : Br} (h : Mid f lo hi s) (hc : s.fcur ≠ 0) (hd : s.delta ≤ |s.sbis|) : Inv f lo hi (s.next f) := by
  have hb := move_between h hc hd
  exact ⟨h.cur, rfl, h.curMem, hb.mem h.curMem h.blkMem, hc, .inr ⟨h.blk, h.blkMem, h.sign.resolve_left hc, hb⟩⟩

theorem root_between {f : ℝ → ℝ} {a b : ℝ} (hf : ContinuousOn f (Set.uIcc a b)) (h : f a * f b < 0) : ∃ z ∈ Set.uIcc a b, f z = 0 := by
  have := intermediate_value_uIcc hf
  apply this
  rw [Set.mem_uIcc]
  rcases mul_neg_iff.mp h with ⟨h1, h2⟩ | ⟨h1, h2⟩
  · exact .inr ⟨h2.le, h1.le⟩
  · exact .inl ⟨h1.le, h2.le⟩

/-- Whatever the function, a number found has a root closer than twice the tolerance, if the function is continuous between the ends. -/
theorem brent_found {f : ℝ → ℝ} {lo hi : ℝ} (hf : ContinuousOn f (Set.Icc lo hi)) : ∀ (n : ℕ) (s : Br), Inv f lo hi s → (brent f n s).val ∈ Set.Icc lo hi ∧
    ∀ x, brent f n s = .found x → ∃ z ∈ Set.Icc lo hi, f z = 0 ∧ |z - x| < 2 * max (eps * |x| + 1 / 2 * tol) eps
  | 0, s, h => ⟨h.curMem, fun x hx => by cases hx⟩
  | n + 1, s, h => by
    have hm := h.mid
    rw [brent]
    by_cases hr : s.reset.swap.fcur = 0 ∨ |s.reset.swap.sbis| < s.reset.swap.delta
    · rw [if_pos hr]
      refine ⟨hm.curMem, fun x hx => ?_⟩
      injection hx with hx
      subst hx
      change ∃ z ∈ Set.Icc lo hi, f z = 0 ∧ |z - s.reset.swap.xcur| < 2 * s.reset.swap.delta
      have hδ := delta_pos s.reset.swap
      by_cases hc : s.reset.swap.fcur = 0
      · exact ⟨_, hm.curMem, by rw [← hm.cur, hc], by rw [sub_self, abs_zero]; linarith⟩
      · have hb := hr.resolve_left hc
        have hs := hm.sign.resolve_left hc
        rw [hm.cur, hm.blk] at hs
        have hsub : Set.uIcc s.reset.swap.xcur s.reset.swap.xblk ⊆ Set.Icc lo hi := Set.OrdConnected.uIcc_subset inferInstance hm.curMem hm.blkMem
        obtain ⟨z, hz, h0⟩ := root_between (hf.mono hsub) hs
        refine ⟨z, hsub hz, h0, ?_⟩
        have hle := Set.abs_sub_left_of_mem_uIcc hz
        unfold Br.sbis at hb
        rw [abs_mul, abs_of_pos (by norm_num : (0 : ℝ) < 1 / 2)] at hb
        linarith
    · rw [if_neg hr]
      rw [not_or, not_lt] at hr
      exact brent_found hf n _ (hm.next hr.1 hr.2)

theorem bracketed_found {f : ℝ → ℝ} {lo hi : ℝ} (hf : ContinuousOn f (Set.Icc lo hi)) (hlt : lo ≤ hi) (hs : f lo * f hi ≤ 0) : (bracketed f lo hi).val ∈ Set.Icc lo hi ∧
    ∀ x, bracketed f lo hi = .found x → ∃ z ∈ Set.Icc lo hi, f z = 0 ∧ |z - x| < 2 * max (eps * |x| + 1 / 2 * tol) eps := by
  have hz : ∀ x : ℝ, |x - x| < 2 * max (eps * |x| + 1 / 2 * tol) eps := by
    intro x
    rw [sub_self, abs_zero]
    have := lt_of_lt_of_le eps_pos (le_max_right (eps * |x| + 1 / 2 * tol) eps)
    linarith
  unfold bracketed
  by_cases h1 : f lo = 0
  · rw [if_pos h1]
    refine ⟨⟨le_rfl, hlt⟩, fun x hx => ?_⟩
    cases hx
    exact ⟨lo, ⟨le_rfl, hlt⟩, h1, hz lo⟩
  · rw [if_neg h1]
    by_cases h2 : f hi = 0
    · rw [if_pos h2]
      refine ⟨⟨hlt, le_rfl⟩, fun x hx => ?_⟩
      cases hx
      exact ⟨hi, ⟨hlt, le_rfl⟩, h2, hz hi⟩
    · rw [if_neg h2]
      exact brent_found hf _ _ ⟨rfl, rfl, ⟨le_rfl, hlt⟩, ⟨hlt, le_rfl⟩, h1, .inl (lt_of_le_of_ne hs (mul_ne_zero h1 h2))⟩

end Verif.Solve

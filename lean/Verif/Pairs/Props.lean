import Verif.Pairs.Model
import Mathlib.Tactic.Ring
import Mathlib.Tactic.FieldSimp
import Mathlib.Tactic.Linarith
import Mathlib.Tactic.Positivity
import Mathlib.Tactic.NormNum
import Mathlib.Tactic.ByContra

/-!
# C100: the regression line is the best line, and correlation lies between -1 and 1
-/
namespace Verif.Pairs

/-! ### Sums -/

theorem shift_xy (a b : Rat) : ∀ y x : List Rat, y.length = x.length →
    ((y.zip x).map fun p => (p.2 - a) * (p.1 - b)).sum =
      ((y.zip x).map fun p => p.2 * p.1).sum - a * y.sum - b * x.sum + x.length * (a * b)
  | [], [], _ => by simp
  | [], _ :: _, h => by simp at h
  | _ :: _, [], h => by simp at h
  | u :: y, v :: x, h => by
    have ih := shift_xy a b y x (by simpa using h)
    simp only [List.zip_cons_cons, List.map_cons, List.sum_cons, ih, List.length_cons, Nat.cast_add, Nat.cast_one]
    ring

theorem shift_x2 (a : Rat) : ∀ x : List Rat, (x.map fun v => (v - a) * (v - a)).sum =
      (x.map fun v => v * v).sum - 2 * a * x.sum + x.length * (a * a)
  | [] => by simp
  | v :: x => by
    simp only [List.map_cons, List.sum_cons, shift_x2 a x, List.length_cons, Nat.cast_add, Nat.cast_one]
    ring

theorem resid_sums (m b : Rat) : ∀ y x : List Rat, y.length = x.length →
    ssResid y x m b = (y.map fun v => v * v).sum - 2 * m * ((y.zip x).map fun p => p.2 * p.1).sum - 2 * b * y.sum +
      m * m * (x.map fun v => v * v).sum + 2 * m * b * x.sum + x.length * (b * b)
  | [], [], _ => by simp [ssResid]
  | [], _ :: _, h => by simp at h
  | _ :: _, [], h => by simp at h
  | u :: y, v :: x, h => by
    have ih := resid_sums m b y x (by simpa using h)
    simp only [ssResid] at ih ⊢
    simp only [List.zip_cons_cons, List.map_cons, List.sum_cons, ih, List.length_cons, Nat.cast_add, Nat.cast_one]
    ring

/-- The residuals of any line, by the centred sums. -/
theorem resid_centred (y x : List Rat) (hl : y.length = x.length) (hx : x ≠ []) (m b : Rat) :
    ssResid y x m b = sum2 y - 2 * m * sumXY y x + m * m * sum2 x +
      x.length * ((mean y - m * mean x - b) * (mean y - m * mean x - b)) := by
  have hn : (x.length : Rat) ≠ 0 := by
    simpa using hx
  rw [resid_sums m b y x hl]
  unfold sum2 sumXY
  rw [shift_xy _ _ y x hl, shift_x2, shift_x2]
  unfold mean
  rw [hl]
  generalize (x.length : Rat) = n at *
  field_simp
  ring

theorem sum_sq_nonneg (l : List Rat) (f : Rat → Rat) : 0 ≤ (l.map fun a => f a * f a).sum := by
  induction l with
  | nil => simp
  | cons a l ih =>
    simp only [List.map_cons, List.sum_cons]
    nlinarith [mul_self_nonneg (f a)]

theorem sum2_nonneg (x : List Rat) : 0 ≤ sum2 x := sum_sq_nonneg x fun a => a - mean x

theorem resid_nonneg (y x : List Rat) (m b : Rat) : 0 ≤ ssResid y x m b := by
  unfold ssResid
  induction y.zip x with
  | nil => simp
  | cons a l ih =>
    simp only [List.map_cons, List.sum_cons]
    nlinarith [mul_self_nonneg (a.1 - (m * a.2 + b))]

theorem resid_zero (y x : List Rat) (m b : Rat) : ssResid y x m b = 0 ↔ ∀ p ∈ y.zip x, p.1 = m * p.2 + b := by
  unfold ssResid
  induction y.zip x with
  | nil => simp
  | cons a l ih =>
    have h1 : 0 ≤ (l.map fun p => (p.1 - (m * p.2 + b)) * (p.1 - (m * p.2 + b))).sum := by
      clear ih
      induction l with
      | nil => simp
      | cons a l ih =>
        simp only [List.map_cons, List.sum_cons]
        nlinarith [mul_self_nonneg (a.1 - (m * a.2 + b))]
    simp only [List.map_cons, List.sum_cons, List.mem_cons, forall_eq_or_imp, ← ih]
    constructor
    · intro h
      have h2 := mul_self_nonneg (a.1 - (m * a.2 + b))
      have h3 : (a.1 - (m * a.2 + b)) * (a.1 - (m * a.2 + b)) = 0 := by linarith
      exact ⟨by linarith [mul_self_eq_zero.1 h3], by linarith⟩
    · rintro ⟨h2, h3⟩
      rw [h2, h3]
      ring

theorem sum2_zero (x : List Rat) : sum2 x = 0 ↔ ∀ a ∈ x, a = mean x := by
  unfold sum2
  generalize mean x = c
  induction x with
  | nil => simp
  | cons a l ih =>
    have h1 := sum_sq_nonneg l fun a => a - c
    simp only [List.map_cons, List.sum_cons, List.mem_cons, forall_eq_or_imp, ← ih]
    constructor
    · intro h
      have h2 := mul_self_nonneg (a - c)
      have h3 : (a - c) * (a - c) = 0 := by linarith
      exact ⟨by linarith [mul_self_eq_zero.1 h3], by linarith⟩
    · rintro ⟨h2, h3⟩
      rw [h2, h3]
      ring

theorem sumXY_comm : ∀ y x : List Rat, sumXY y x = sumXY x y := by
  intro y x
  unfold sumXY
  generalize mean y = a
  generalize mean x = b
  induction y generalizing x with
  | nil => simp
  | cons u y ih =>
    cases x with
    | nil => simp
    | cons v x =>
      simp only [List.zip_cons_cons, List.map_cons, List.sum_cons, ih]
      ring

/-! ### The line -/

/-- The sum of the squared vertical distances of the points from the line `m x + b`: what a fit is to make small. -/
def distance (y x : List Rat) (m b : Rat) : Rat := ((y.zip x).map fun p => (p.1 - (m * p.2 + b)) ^ 2).sum

theorem distance_eq (y x : List Rat) (m b : Rat) : distance y x m b = ssResid y x m b := by
  unfold distance ssResid
  congr 2
  funext p
  ring

theorem resid_best (y x : List Rat) (hl : y.length = x.length) (hx : x ≠ []) (h2 : sum2 x ≠ 0) (m b : Rat) :
    ssResid y x m b = (sum2 y - sumXY y x * sumXY y x / sum2 x) + sum2 x * (m - sumXY y x / sum2 x) ^ 2 +
      x.length * (mean y - m * mean x - b) ^ 2 := by
  rw [resid_centred y x hl hx]
  field_simp
  ring

/-- **SLOPE and INTERCEPT give the line of least squares**, and no other line is as near. -/
theorem least_squares (y x : List Rat) (hl : y.length = x.length) (hx : x ≠ []) (m b : Rat)
    (hm : slope y x = .ok m) (hb : intercept y x = .ok b) (m' b' : Rat) :
    distance y x m b ≤ distance y x m' b' ∧ (distance y x m' b' ≤ distance y x m b → m' = m ∧ b' = b) := by
  unfold slope at hm
  unfold intercept at hb
  by_cases h2 : sum2 x = 0
  · rw [if_pos h2] at hm; cases hm
  rw [if_neg h2] at hm hb
  injection hm with hm
  injection hb with hb
  subst hm
  subst hb
  rw [distance_eq, distance_eq, resid_best y x hl hx h2, resid_best y x hl hx h2]
  have hn : (0 : Rat) < x.length := by
    have : 0 < x.length := List.length_pos_iff.2 hx
    exact_mod_cast this
  have hs : 0 < sum2 x := lt_of_le_of_ne (sum2_nonneg x) (Ne.symm h2)
  have e0 : mean y - sumXY y x / sum2 x * mean x - (mean y - sumXY y x / sum2 x * mean x) = 0 := by ring
  rw [e0]
  generalize sumXY y x / sum2 x = s at *
  have p1 : 0 ≤ sum2 x * (m' - s) ^ 2 := mul_nonneg hs.le (sq_nonneg _)
  have p2 : 0 ≤ (x.length : Rat) * (mean y - m' * mean x - b') ^ 2 := mul_nonneg hn.le (sq_nonneg _)
  refine ⟨by ring_nf at p1 p2 ⊢; linarith, fun h => ?_⟩
  have q1 : sum2 x * (m' - s) ^ 2 = 0 := by ring_nf at p1 p2 h ⊢; linarith
  have q2 : (x.length : Rat) * (mean y - m' * mean x - b') ^ 2 = 0 := by ring_nf at p1 p2 h ⊢; linarith
  have r1 : m' - s = 0 := by
    rcases mul_eq_zero.1 q1 with h | h
    · exact absurd h h2
    · exact pow_eq_zero_iff (two_ne_zero) |>.1 h
  have r2 : mean y - m' * mean x - b' = 0 := by
    rcases mul_eq_zero.1 q2 with h | h
    · exact absurd h hn.ne'
    · exact pow_eq_zero_iff (two_ne_zero) |>.1 h
  have : m' = s := by linarith
  subst this
  exact ⟨rfl, by linarith⟩

/-- **They fail exactly if all x are the same** (then no line is best), with `#DIV/0!`. -/
theorem slope_fails (y x : List Rat) :
    ((∃ m, slope y x = .ok m) ↔ ∃ a ∈ x, a ≠ mean x) ∧
    ((∃ m, intercept y x = .ok m) ↔ ∃ a ∈ x, a ≠ mean x) ∧
    (∀ e, slope y x = .error e ∨ intercept y x = .error e → e = .div) := by
  have h : sum2 x ≠ 0 ↔ ∃ a ∈ x, a ≠ mean x := by
    rw [ne_eq, sum2_zero]; push Not; rfl
  unfold slope intercept
  by_cases h2 : sum2 x = 0
  · rw [if_pos h2, if_pos h2]
    have : ¬ ∃ a ∈ x, a ≠ mean x := fun hh => h.2 hh h2
    refine ⟨⟨fun ⟨m, hm⟩ => (by cases hm), fun hh => absurd hh this⟩,
      ⟨fun ⟨m, hm⟩ => (by cases hm), fun hh => absurd hh this⟩, ?_⟩
    rintro e (he | he) <;> · injection he with he; exact he.symm
  · rw [if_neg h2, if_neg h2]
    refine ⟨⟨fun _ => h.1 h2, fun _ => ⟨_, rfl⟩⟩, ⟨fun _ => h.1 h2, fun _ => ⟨_, rfl⟩⟩, ?_⟩
    rintro e (he | he) <;> cases he

/-- The line through points that lie on one line is this line. -/
theorem exact_line (y x : List Rat) (hl : y.length = x.length) (m b : Rat) (hv : ∃ a ∈ x, a ≠ mean x)
    (h : ∀ p ∈ y.zip x, p.1 = m * p.2 + b) : slope y x = .ok m ∧ intercept y x = .ok b := by
  obtain ⟨⟨-, f1⟩, ⟨-, f2⟩, -⟩ := slope_fails y x
  obtain ⟨s, hs⟩ := f1 hv
  obtain ⟨t, ht⟩ := f2 hv
  have hx : x ≠ [] := by
    obtain ⟨a, ha, -⟩ := hv
    exact List.ne_nil_of_mem ha
  have := (least_squares y x hl hx s t hs ht m b).2 (by
    rw [distance_eq y x m b, (resid_zero y x m b).2 h, distance_eq]
    exact resid_nonneg y x s t)
  rw [hs, ht, this.1, this.2]
  exact ⟨rfl, rfl⟩

/-! ### Correlation -/

/-- Cauchy's inequality for the centred sums. -/
theorem cauchy (y x : List Rat) (hl : y.length = x.length) : sumXY y x * sumXY y x ≤ sum2 x * sum2 y := by
  by_cases hx : x = []
  · subst hx
    simp [sumXY, sum2]
  by_cases h2 : sum2 x = 0
  · have hxy : sumXY y x = 0 := by
      have hm := (sum2_zero x).1 h2
      unfold sumXY
      apply List.sum_eq_zero
      intro a ha
      obtain ⟨p, hp, rfl⟩ := List.mem_map.1 ha
      have := hm p.2 (List.of_mem_zip hp).2
      rw [sub_eq_zero.2 this, zero_mul]
    rw [hxy, h2]
    simp
  · have hs : 0 < sum2 x := lt_of_le_of_ne (sum2_nonneg x) (Ne.symm h2)
    have h0 := resid_nonneg y x (sumXY y x / sum2 x) (mean y - sumXY y x / sum2 x * mean x)
    rw [resid_best y x hl hx h2] at h0
    have h1 : 0 ≤ sum2 y - sumXY y x * sumXY y x / sum2 x := by
      ring_nf at h0 ⊢; linarith
    have h3 : sumXY y x * sumXY y x / sum2 x ≤ sum2 y := by linarith
    rw [div_le_iff₀ hs] at h3
    linarith

theorem root_zero (q : Rat) (hq : 0 ≤ q) : √((q : Rat) : ℝ) = 0 ↔ q = 0 := by
  rw [Real.sqrt_eq_zero (by exact_mod_cast hq)]
  exact_mod_cast Iff.rfl

theorem prod_nonneg (y x : List Rat) : 0 ≤ sum2 x * sum2 y := mul_nonneg (sum2_nonneg x) (sum2_nonneg y)

/-- **CORREL lies between -1 and 1.** -/
theorem correl_bounds (y x : List Rat) (hl : y.length = x.length) (r : ℝ) (h : correl y x = .ok r) :
    -1 ≤ r ∧ r ≤ 1 := by
  unfold correl at h
  split at h
  · cases h
  next hd =>
  injection h with h
  subst h
  have hpos : 0 < √((sum2 x * sum2 y : Rat) : ℝ) := lt_of_le_of_ne (Real.sqrt_nonneg _) (Ne.symm hd)
  have hc : |((sumXY y x : Rat) : ℝ)| ≤ √((sum2 x * sum2 y : Rat) : ℝ) := by
    apply Real.abs_le_sqrt
    rw [sq]
    exact_mod_cast cauchy y x hl
  have := abs_le.1 hc
  constructor
  · rw [le_div_iff₀ hpos]; linarith [this.1]
  · rw [div_le_one hpos]; exact this.2

/-- **RSQ is the square of CORREL**, and so between 0 and 1; both fail alike. -/
theorem rsq_square (y x : List Rat) (hl : y.length = x.length) :
    (∀ r, correl y x = .ok r → ∃ q, rsq y x = .ok q ∧ (q : ℝ) = r ^ 2 ∧ 0 ≤ q ∧ q ≤ 1) ∧
    (∀ e, correl y x = .error e ↔ rsq y x = .error e) := by
  have hz := root_zero (sum2 x * sum2 y) (prod_nonneg y x)
  unfold correl rsq
  by_cases h : sum2 x * sum2 y = 0
  · rw [if_pos (hz.2 h), if_pos h]
    refine ⟨fun r hr => (by cases hr), fun e => ?_⟩
    constructor <;> (intro h; injection h with h; rw [h])
  · rw [if_neg (fun hh => h (hz.1 hh)), if_neg h]
    have hp : 0 < sum2 x * sum2 y := lt_of_le_of_ne (prod_nonneg y x) (Ne.symm h)
    refine ⟨fun r hr => ⟨_, rfl, ?_, ?_, ?_⟩, fun e => ⟨fun hh => (by cases hh), fun hh => (by cases hh)⟩⟩
    · injection hr with hr
      rw [← hr, div_pow, Real.sq_sqrt (by exact_mod_cast hp.le)]
      push_cast
      ring
    · exact div_nonneg (mul_self_nonneg _) hp.le
    · rw [div_le_one hp]; exact cauchy y x hl

/-- **CORREL, RSQ and the covariances do not depend on which list comes first.** -/
theorem symmetric (y x : List Rat) (hl : y.length = x.length) :
    correl y x = correl x y ∧ rsq y x = rsq x y ∧ covP y x = covP x y ∧ covS y x = covS x y := by
  unfold correl rsq covP covS
  rw [sumXY_comm y x, mul_comm (sum2 x) (sum2 y), hl]
  exact ⟨rfl, rfl, rfl, rfl⟩

/-- **RSQ is 1 exactly if all points lie on the line** (of SLOPE and INTERCEPT, hence on some line). -/
theorem rsq_one (y x : List Rat) (hl : y.length = x.length) (q : Rat) (h : rsq y x = .ok q) :
    q = 1 ↔ ∃ m b, ∀ p ∈ y.zip x, p.1 = m * p.2 + b := by
  unfold rsq at h
  split at h
  · cases h
  next hd =>
  injection h with h
  subst h
  have hx2 : sum2 x ≠ 0 := fun e => hd (by rw [e, zero_mul])
  have hx : x ≠ [] := by rintro rfl; exact hx2 (by simp [sum2])
  rw [div_eq_one_iff_eq hd]
  constructor
  · intro h
    refine ⟨sumXY y x / sum2 x, mean y - sumXY y x / sum2 x * mean x, (resid_zero y x _ _).1 ?_⟩
    rw [resid_best y x hl hx hx2, h]
    field_simp
    ring
  · rintro ⟨m, b, hmb⟩
    have h0 := (resid_zero y x m b).2 hmb
    rw [resid_best y x hl hx hx2] at h0
    have hs : 0 < sum2 x := lt_of_le_of_ne (sum2_nonneg x) (Ne.symm hx2)
    have p1 : 0 ≤ sum2 x * (m - sumXY y x / sum2 x) ^ 2 := mul_nonneg hs.le (sq_nonneg _)
    have p2 : 0 ≤ (x.length : Rat) * (mean y - m * mean x - b) ^ 2 :=
      mul_nonneg (by exact_mod_cast Nat.zero_le _) (sq_nonneg _)
    have hc := cauchy y x hl
    have p3 : sumXY y x * sumXY y x / sum2 x ≤ sum2 y := by
      rw [div_le_iff₀ hs]; linarith
    have : sum2 y = sumXY y x * sumXY y x / sum2 x := by linarith
    rw [eq_div_iff hx2] at this
    linarith

theorem mean_affine (a b : Rat) (y : List Rat) (hy : y ≠ []) : mean (y.map fun v => a * v + b) = a * mean y + b := by
  have hs : (y.map fun v => a * v + b).sum = a * y.sum + y.length * b := by
    clear hy
    induction y with
    | nil => simp
    | cons v y ih =>
      simp only [List.map_cons, List.sum_cons, ih, List.length_cons, Nat.cast_add, Nat.cast_one]
      ring
  have hn : (y.length : Rat) ≠ 0 := by simpa using hy
  unfold mean
  rw [hs, List.length_map]
  field_simp

/-- **CORREL is blind to scale and origin**: with `a y + b` for `y` it is the same where `a` is positive, and changes
its sign where `a` is negative. -/
theorem correl_affine (y x : List Rat) (hy : y ≠ []) (a b : Rat) (ha : a ≠ 0) (r : ℝ)
    (h : correl y x = .ok r) :
    correl (y.map fun v => a * v + b) x = .ok (if 0 < a then r else -r) := by
  have h1 : sumXY (y.map fun v => a * v + b) x = a * sumXY y x := by
    unfold sumXY
    rw [mean_affine a b y hy]
    generalize mean y = c
    generalize mean x = d
    clear hy h
    induction y generalizing x with
    | nil => simp
    | cons u y ih =>
      cases x with
      | nil => simp
      | cons v x =>
        simp only [List.map_cons, List.zip_cons_cons, List.sum_cons, ih]
        ring
  have h2 : sum2 (y.map fun v => a * v + b) = a * a * sum2 y := by
    unfold sum2
    rw [mean_affine a b y hy]
    generalize mean y = c
    clear hy h h1
    induction y with
    | nil => simp
    | cons u y ih =>
      simp only [List.map_cons, List.sum_cons, ih]
      ring
  unfold correl at h ⊢
  split at h
  · cases h
  next hd =>
  injection h with h
  subst h
  have h3 : √((sum2 x * sum2 (y.map fun v => a * v + b) : Rat) : ℝ) = |(a : ℝ)| * √((sum2 x * sum2 y : Rat) : ℝ) := by
    rw [h2]
    have : ((sum2 x * (a * a * sum2 y) : Rat) : ℝ) = (a : ℝ) ^ 2 * ((sum2 x * sum2 y : Rat) : ℝ) := by
      push_cast; ring
    rw [this, Real.sqrt_mul (sq_nonneg _), Real.sqrt_sq_eq_abs]
  have ha' : (a : ℝ) ≠ 0 := by exact_mod_cast ha
  rw [h3, if_neg (mul_ne_zero (abs_ne_zero.2 ha') hd), h1]
  congr 1
  push_cast
  by_cases hp : 0 < a
  · have : (0 : ℝ) < a := by exact_mod_cast hp
    rw [if_pos hp, abs_of_pos this]
    field_simp
  · have : (a : ℝ) < 0 := by
      have : a < 0 := lt_of_le_of_ne (not_lt.1 hp) ha
      exact_mod_cast this
    rw [if_neg hp, abs_of_neg this]
    field_simp

/-- **COVARIANCE.P is the mean of the products less the product of the means**; COVARIANCE.S times `n - 1` is
COVARIANCE.P times `n`; the covariance of a list with itself is its variance. -/
theorem covariance (y x : List Rat) (hl : y.length = x.length) (hx : x ≠ []) (p : Rat) (hp : covP y x = .ok p) :
    p = ((y.zip x).map fun q => q.2 * q.1).sum / x.length - mean y * mean x ∧
    (∀ s, covS y x = .ok s → s * ((x.length : Rat) - 1) = p * x.length) ∧
    (y = x → p = (x.map fun v => (v - mean x) ^ 2).sum / x.length) := by
  have hn : (x.length : Rat) ≠ 0 := by simpa using hx
  unfold covP at hp
  injection hp with hp
  subst hp
  refine ⟨?_, fun s hs => ?_, ?_⟩
  · unfold sumXY
    rw [shift_xy _ _ y x hl]
    unfold mean
    rw [hl]
    field_simp
    ring
  · unfold covS at hs
    split at hs
    · cases hs
    next h2 =>
    injection hs with hs
    subst hs
    have h1 : ((x.length - 1 : Nat) : Rat) = (x.length : Rat) - 1 := by
      rw [Nat.cast_sub (by omega)]; simp
    have h3 : (x.length : Rat) - 1 ≠ 0 := by
      have : (2 : Rat) ≤ x.length := by exact_mod_cast Nat.le_of_not_lt h2
      intro h
      linarith
    rw [h1]
    field_simp
  · rintro rfl
    congr 1
    unfold sumXY
    generalize mean y = c
    clear hx hn hl
    induction y with
    | nil => simp
    | cons v y ih =>
      simp only [List.zip_cons_cons, List.map_cons, List.sum_cons, ih]
      ring

/-! ### STEYX, FORECAST, LINEST, TREND -/

/-- **STEYX is the root of the residuals of the best line over `n - 2`**; exactly computed the branch for a negative
sum is never taken. -/
theorem steyx_spec (y x : List Rat) (hl : y.length = x.length) (m b : Rat) (hm : slope y x = .ok m)
    (hb : intercept y x = .ok b) :
    (x.length < 3 → steyx y x = .error .div) ∧
    (3 ≤ x.length → ∃ r, steyx y x = .ok r ∧ 0 ≤ r ∧ r ^ 2 * ((x.length : ℝ) - 2) = (distance y x m b : ℝ)) := by
  unfold slope at hm
  unfold intercept at hb
  by_cases h2 : sum2 x = 0
  · rw [if_pos h2] at hm; cases hm
  rw [if_neg h2] at hm hb
  injection hm with hm
  injection hb with hb
  subst hm
  subst hb
  refine ⟨fun h => by unfold steyx; rw [if_pos h], fun h => ?_⟩
  have hx : x ≠ [] := by rintro rfl; simp at h
  have hd : distance y x (sumXY y x / sum2 x) (mean y - sumXY y x / sum2 x * mean x) =
      sum2 y - sumXY y x * sumXY y x / sum2 x := by
    rw [distance_eq, resid_best y x hl hx h2]
    ring
  have h0 := resid_nonneg y x (sumXY y x / sum2 x) (mean y - sumXY y x / sum2 x * mean x)
  rw [← distance_eq, hd] at h0
  rw [hd]
  unfold steyx
  rw [if_neg (by omega), if_neg h2, if_neg (by linarith)]
  have hn : (0 : Rat) < (x.length : Rat) - 2 := by
    have : (3 : Rat) ≤ x.length := by exact_mod_cast h
    linarith
  refine ⟨_, rfl, Real.sqrt_nonneg _, ?_⟩
  rw [Real.sq_sqrt (by exact_mod_cast div_nonneg h0 hn.le)]
  have : ((x.length : ℝ) - 2) = (((x.length : Rat) - 2 : Rat) : ℝ) := by push_cast; ring
  rw [this, ← Rat.cast_mul, div_mul_cancel₀ _ hn.ne']

/-- **FORECAST is the point on the line of SLOPE and INTERCEPT**; at the mean of x it is the mean of y. -/
theorem forecast_spec (q : Rat) (y x : List Cell) (ys xs : List Rat) (hp : paired y x = .ok (ys, xs)) (m b : Rat)
    (hm : slope ys xs = .ok m) (hb : intercept ys xs = .ok b) :
    forecast (.ok q) y x = .ok (m * q + b) ∧ forecast (.ok (mean xs)) y x = .ok (mean ys) := by
  unfold slope at hm
  unfold intercept at hb
  by_cases h2 : sum2 xs = 0
  · rw [if_pos h2] at hm; cases hm
  rw [if_neg h2] at hm hb
  injection hm with hm
  injection hb with hb
  subst hm
  subst hb
  unfold paired at hp
  cases hy : numbers y with
  | error e => rw [hy] at hp; cases hp
  | ok ys' =>
    cases hx : numbers x with
    | error e => rw [hy, hx] at hp; cases hp
    | ok xs' =>
      rw [hy, hx] at hp
      simp only at hp
      split at hp
      · cases hp
      next hl =>
      split at hp
      · cases hp
      next hn =>
      injection hp with hp
      injection hp with e1 e2
      subst e1 e2
      simp only [forecast, hy, hx]
      rw [if_neg hl, if_neg hn, if_neg h2, if_neg hl, if_neg hn, if_neg h2]
      constructor <;> (congr 1; ring)

/-- **LINEST and TREND use the line of SLOPE and INTERCEPT**, or without a constant the best line through the origin. -/
theorem line_spec (y x : List Rat) (hl : y.length = x.length) :
    (∀ m b, line true y x = .ok (m, b) ↔ slope y x = .ok m ∧ intercept y x = .ok b) ∧
    (∀ m b, line false y x = .ok (m, b) → b = 0 ∧ ∀ m', distance y x m 0 ≤ distance y x m' 0) := by
  constructor
  · intro m b
    unfold line slope intercept
    by_cases h2 : sum2 x = 0
    · simp [h2]
    · simp [h2]
  · intro m b h
    unfold line at h
    simp only [Bool.false_eq_true, if_false] at h
    split at h
    · cases h
    next h2 =>
    injection h with h
    injection h with h1 h3
    subst h1 h3
    refine ⟨rfl, fun m' => ?_⟩
    rw [distance_eq, distance_eq, resid_sums _ _ y x hl, resid_sums _ _ y x hl]
    have hs : 0 < (x.map fun a => a * a).sum := lt_of_le_of_ne (sum_sq_nonneg x id) (Ne.symm h2)
    generalize (x.map fun a => a * a).sum = S at *
    generalize ((y.zip x).map fun p => p.2 * p.1).sum = T
    have p1 : 0 ≤ S * (m' - T / S) ^ 2 := mul_nonneg hs.le (sq_nonneg _)
    have e : S * (m' - T / S) ^ 2 = m' * m' * S - 2 * m' * T + T * T / S := by field_simp; ring
    have e2 : T / S * (T / S) * S = T * T / S := by field_simp
    have e3 : 2 * (T / S) * T = 2 * (T * T / S) := by ring
    rw [e2, e3]
    linarith

/-- **R² of LINEST is that of RSQ** where there is one, and between 0 and 1 with a constant. -/
theorem linest_r2 (y x : List Rat) (hl : y.length = x.length) (m b : Rat) (h : line true y x = .ok (m, b)) :
    (0 ≤ linestR2 y x m b ∧ linestR2 y x m b ≤ 1) ∧ ∀ q, rsq y x = .ok q → linestR2 y x m b = q := by
  unfold line at h
  simp only [if_true] at h
  split at h
  · cases h
  next h2 =>
  injection h with h
  injection h with h1 h3
  subst h1 h3
  have hx : x ≠ [] := by rintro rfl; exact h2 (by simp [sum2])
  have hr : ssResid y x (sumXY y x / sum2 x) (mean y - sumXY y x / sum2 x * mean x) =
      sum2 y - sumXY y x * sumXY y x / sum2 x := by
    rw [resid_best y x hl hx h2]; ring
  have hs : 0 < sum2 x := lt_of_le_of_ne (sum2_nonneg x) (Ne.symm h2)
  have h0 := resid_nonneg y x (sumXY y x / sum2 x) (mean y - sumXY y x / sum2 x * mean x)
  unfold linestR2
  rw [hr] at h0 ⊢
  by_cases hy : sum2 y = 0
  · rw [if_pos hy]
    refine ⟨⟨by norm_num, le_refl _⟩, fun q hq => ?_⟩
    unfold rsq at hq
    rw [hy, mul_zero, if_pos rfl] at hq
    cases hq
  · have hyp : 0 < sum2 y := lt_of_le_of_ne (sum2_nonneg y) (Ne.symm hy)
    rw [if_neg hy]
    have hnn : 0 ≤ sumXY y x * sumXY y x / sum2 x := div_nonneg (mul_self_nonneg _) hs.le
    refine ⟨⟨?_, ?_⟩, fun q hq => ?_⟩
    · have : (sum2 y - sumXY y x * sumXY y x / sum2 x) / sum2 y ≤ 1 := by rw [div_le_one hyp]; linarith
      linarith
    · have : 0 ≤ (sum2 y - sumXY y x * sumXY y x / sum2 x) / sum2 y := div_nonneg h0 hyp.le
      linarith
    · unfold rsq at hq
      rw [if_neg (mul_ne_zero h2 hy)] at hq
      injection hq with hq
      rw [← hq]
      field_simp
      ring

/-- **TREND is FORECAST at each new x**, on the line of LINEST. -/
theorem trend_spec (y x new : List Rat) (hl : y.length = x.length) (hy : y ≠ []) (hn : new ≠ []) (c : Bool) (m b : Rat)
    (h : line c y x = .ok (m, b)) : trend c y x new = .ok [new.map fun q => m * q + b] := by
  unfold trend
  rw [if_neg hy, if_neg (by simp [hl]), if_neg hn, h]

end Verif.Pairs

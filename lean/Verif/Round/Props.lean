import Verif.Round.Model
import Mathlib.Tactic.Linarith
import Mathlib.Tactic.Ring
import Mathlib.Tactic.FieldSimp
import Mathlib.Tactic.NormNum

/-!
# Rounding to digits and multiples
-/

namespace Verif.Round

set_option exponentiation.threshold 2000

/-! ## Whole numbers -/

theorem rd_spec (q : ℚ) : |(rd q : ℚ) - q| ≤ 1 / 2 ∧ (|(rd q : ℚ) - q| = 1 / 2 → |q| < |(rd q : ℚ)|) := by
  unfold rd
  split
  · rename_i h
    have h1 := Int.floor_le (q + 1 / 2)
    have h2 := Int.lt_floor_add_one (q + 1 / 2)
    constructor
    · rw [abs_le]
      constructor <;> linarith
    · intro h3
      rcases abs_eq (by norm_num : (0 : ℚ) ≤ 1 / 2) |>.mp h3 with h4 | h4
      · rw [abs_of_nonneg h, abs_of_nonneg (by linarith)]
        linarith
      · linarith
  · rename_i h
    have h := not_le.mp h
    have h1 := Int.le_ceil (q - 1 / 2)
    have h2 := Int.ceil_lt_add_one (q - 1 / 2)
    constructor
    · rw [abs_le]
      constructor <;> linarith
    · intro h3
      rcases abs_eq (by norm_num : (0 : ℚ) ≤ 1 / 2) |>.mp h3 with h4 | h4
      · linarith
      · rw [abs_of_neg h, abs_of_neg (by linarith)]
        linarith

theorem tr_spec (q : ℚ) : |(tr q : ℚ)| ≤ |q| ∧ |q| < |(tr q : ℚ)| + 1 ∧ 0 ≤ (tr q : ℚ) * q := by
  unfold tr
  split
  · rename_i h
    have h1 := Int.floor_le q
    have h2 := Int.lt_floor_add_one q
    have h3 : (0 : ℚ) ≤ ⌊q⌋ := by exact_mod_cast Int.floor_nonneg.mpr h
    rw [abs_of_nonneg h, abs_of_nonneg h3]
    exact ⟨h1, h2, mul_nonneg h3 h⟩
  · rename_i h
    have h := not_le.mp h
    have h1 := Int.le_ceil q
    have h2 := Int.ceil_lt_add_one q
    have h3 : ((⌈q⌉ : ℤ) : ℚ) ≤ 0 := by exact_mod_cast Int.ceil_le.mpr (by push_cast; exact h.le)
    rw [abs_of_neg h, abs_of_nonpos h3]
    exact ⟨by linarith, by linarith, mul_nonneg_of_nonpos_of_nonpos h3 h.le⟩

theorem up_spec (q : ℚ) : |q| ≤ |(up q : ℚ)| ∧ |(up q : ℚ)| < |q| + 1 ∧ 0 ≤ (up q : ℚ) * q := by
  unfold up
  split
  · rename_i h
    have h1 := Int.le_ceil q
    have h2 := Int.ceil_lt_add_one q
    rw [abs_of_pos h, abs_of_pos (by linarith)]
    exact ⟨h1, h2, mul_nonneg (by linarith) h.le⟩
  · rename_i h
    have h := not_lt.mp h
    have h1 := Int.floor_le q
    have h2 := Int.lt_floor_add_one q
    rw [abs_of_nonpos h, abs_of_nonpos (by linarith)]
    exact ⟨by linarith, by linarith, mul_nonneg_of_nonpos_of_nonpos (by linarith) h⟩

/-! ## Digits -/

theorem of_fin {q : ℚ} (h : |q| < 2 ^ 1024) : X.of q = .fin q := by
  rw [abs_lt] at h
  unfold X.of
  rw [if_neg (not_le.mpr h.2), if_neg (not_le.mpr h.1)]

theorem ten_lt {k : ℕ} (h : k ≤ 308) : (10 : ℚ) ^ k < 2 ^ 1024 := by
  have h1 : (10 : ℚ) ^ k ≤ 10 ^ 308 := pow_le_pow_right₀ (by norm_num) h
  have h2 : (10 : ℚ) ^ 308 < 2 ^ 1024 := by norm_num
  exact lt_of_le_of_lt h1 h2

/-- As long as nothing overflows, a number is scaled, rounded and scaled back. -/
theorem scaled_fin (g : ℚ → ℤ) (hg : ∀ q, |(g q : ℚ)| ≤ |q| + 1) (n : ℚ) (d : ℤ) (hd : |d| ≤ 308) (hn : |n| + 10 ^ (-d) < 2 ^ 1024 * min 1 ((10 : ℚ) ^ (-d))) :
    scaled g n d = .fin (g (n / 10 ^ (-d)) * 10 ^ (-d)) := by
  unfold scaled
  simp only
  rcases le_or_gt 0 d with h | h
  · obtain ⟨k, rfl⟩ := Int.eq_ofNat_of_zero_le h
    have hk : k ≤ 308 := by rw [abs_of_nonneg h] at hd; omega
    have hp : (0 : ℚ) < 10 ^ k := by positivity
    have hp1 : (1 : ℚ) ≤ 10 ^ k := one_le_pow₀ (by norm_num)
    have hp2 := ten_lt hk
    have e : (10 : ℚ) ^ (-(k : ℤ)) = (10 ^ k)⁻¹ := by rw [zpow_neg, zpow_natCast]
    rw [e] at hn ⊢
    rw [min_eq_right (inv_le_one_of_one_le₀ hp1)] at hn
    have hn' : |n| * 10 ^ k + 1 < 2 ^ 1024 := by
      have := mul_lt_mul_of_pos_right hn hp
      rw [add_mul, inv_mul_cancel₀ hp.ne', mul_assoc, inv_mul_cancel₀ hp.ne', mul_one] at this
      exact this
    have hb1 : |n * 10 ^ k| < 2 ^ 1024 := by
      rw [abs_mul, abs_of_pos hp]
      linarith
    have hb2 : |(g (n * 10 ^ k) : ℚ)| < 2 ^ 1024 := by
      have := hg (n * 10 ^ k)
      rw [abs_mul, abs_of_pos hp] at this
      linarith
    have hb3 : |(g (n * 10 ^ k) : ℚ) / 10 ^ k| < 2 ^ 1024 := by
      rw [abs_div, abs_of_pos hp]
      exact lt_of_le_of_lt (div_le_self (abs_nonneg _) hp1) hb2
    rw [if_pos h, Int.natAbs_natCast, of_fin (by rw [abs_of_pos hp]; exact hp2)]
    simp only [X.mul]
    rw [of_fin hb1]
    simp only [X.map]
    rw [of_fin hb2]
    simp only [X.div]
    rw [if_neg hp.ne', of_fin hb3, div_inv_eq_mul, div_eq_mul_inv]
  · obtain ⟨k, hk⟩ := Int.eq_ofNat_of_zero_le (by omega : 0 ≤ -d)
    have hk' : k ≤ 308 := by rw [abs_of_neg h] at hd; omega
    have hp : (0 : ℚ) < 10 ^ k := by positivity
    have hp1 : (1 : ℚ) ≤ 10 ^ k := one_le_pow₀ (by norm_num)
    have hp2 := ten_lt hk'
    rw [hk, zpow_natCast] at hn ⊢
    rw [min_eq_left hp1, mul_one] at hn
    have hb1 : |n / 10 ^ k| < 2 ^ 1024 := by
      rw [abs_div, abs_of_pos hp]
      have := div_le_self (abs_nonneg n) hp1
      linarith
    have hgn : |(g (n / 10 ^ k) : ℚ)| * 10 ^ k ≤ |n| + 10 ^ k := by
      have := mul_le_mul_of_nonneg_right (hg (n / 10 ^ k)) hp.le
      rw [abs_div, abs_of_pos hp, add_mul, div_mul_cancel₀ _ hp.ne', one_mul] at this
      exact this
    have hb3 : |(g (n / 10 ^ k) : ℚ) * 10 ^ k| < 2 ^ 1024 := by
      rw [abs_mul, abs_of_pos hp]
      linarith
    have hb2 : |(g (n / 10 ^ k) : ℚ)| < 2 ^ 1024 := by
      have := le_mul_of_one_le_right (abs_nonneg (g (n / 10 ^ k) : ℚ)) hp1
      linarith
    rw [if_neg (by omega), show d.natAbs = k by omega, of_fin (by rw [abs_of_pos hp]; exact hp2)]
    simp only [X.div]
    rw [if_neg hp.ne', of_fin hb1]
    simp only [X.map]
    rw [of_fin hb2]
    simp only [X.mul]
    rw [of_fin hb3]

theorem ulp_pos (d : ℤ) : (0 : ℚ) < 10 ^ (-d) := zpow_pos (by norm_num) _

/-- C89.  ROUND gives the multiple of the last digit that is nearest, away from 0 when there are two. -/
theorem round_spec (n : ℚ) (d : ℤ) (hd : |d| ≤ 308) (hn : |n| + 10 ^ (-d) < 2 ^ 1024 * min 1 ((10 : ℚ) ^ (-d))) :
    ∃ m, ROUND n d = .fin m ∧ Mult m (10 ^ (-d)) ∧ |m - n| ≤ 10 ^ (-d) / 2 ∧ (|m - n| = 10 ^ (-d) / 2 → |n| < |m|) := by
  have hu := ulp_pos d
  refine ⟨_, scaled_fin rd (fun q => ?_) n d hd hn, ⟨_, rfl⟩, ?_, ?_⟩
  · have := (rd_spec q).1
    have := abs_sub_abs_le_abs_sub (rd q : ℚ) q
    linarith
  all_goals
    generalize (10 : ℚ) ^ (-d) = u at *
    have h := rd_spec (n / u)
    generalize rd (n / u) = z at *
    have e : |(z : ℚ) * u - n| = |(z : ℚ) - n / u| * u := by
      rw [← abs_of_pos hu, ← abs_mul, abs_of_pos hu, sub_mul, div_mul_cancel₀ _ hu.ne']
    rw [e]
  · have := mul_le_mul_of_nonneg_right h.1 hu.le
    linarith
  · intro h3
    have h4 := h.2 (mul_right_cancel₀ hu.ne' (by linarith))
    rw [abs_div, abs_of_pos hu, div_lt_iff₀ hu] at h4
    rwa [abs_mul, abs_of_pos hu]

/-- There is only one such number. -/
theorem nearest_unique {n u a b : ℚ} (hu : 0 < u) (ha : Mult a u) (hb : Mult b u) (ha1 : |a - n| ≤ u / 2) (hb1 : |b - n| ≤ u / 2) (ha2 : |a - n| = u / 2 → |n| < |a|) (hb2 : |b - n| = u / 2 → |n| < |b|) : a = b := by
  obtain ⟨i, rfl⟩ := ha
  obtain ⟨j, rfl⟩ := hb
  rw [abs_le] at ha1 hb1
  have key : ∀ i j : ℤ, i < j → -(u / 2) ≤ (i : ℚ) * u - n → (j : ℚ) * u - n ≤ u / 2 → j = i + 1 ∧ (i : ℚ) * u - n = -(u / 2) ∧ (j : ℚ) * u - n = u / 2 := by
    intro i j hij h1 h2
    have h3 : ((j : ℚ) - i) * u ≤ 1 * u := by linarith
    have h4 := le_of_mul_le_mul_right h3 hu
    have h5 : j = i + 1 := by
      have : (j : ℚ) ≤ ((i + 1 : ℤ) : ℚ) := by push_cast; linarith
      have := Int.cast_le.mp this
      omega
    subst h5
    push_cast at *
    refine ⟨rfl, by linarith, by linarith⟩
  have fin : ∀ i j : ℤ, i < j → (|(i : ℚ) * u - n| = u / 2 → |n| < |(i : ℚ) * u|) → (|(j : ℚ) * u - n| = u / 2 → |n| < |(j : ℚ) * u|) → -(u / 2) ≤ (i : ℚ) * u - n → (j : ℚ) * u - n ≤ u / 2 → False := by
    intro i j hij c1 c2 h1 h2
    obtain ⟨e1, e2, e3⟩ := key i j hij h1 h2
    have d1 := c1 (by rw [e2, abs_neg, abs_of_pos (by linarith)])
    have d2 := c2 (by rw [e3, abs_of_pos (by linarith)])
    subst e1
    push_cast at *
    rw [show (i : ℚ) * u = n - u / 2 by linarith] at d1
    rw [show ((i : ℚ) + 1) * u = n + u / 2 by linarith] at d2
    have hodd : n = ((i : ℚ) + 1 / 2) * u := by linarith
    rcases le_or_gt 0 i with hi | hi
    · have : (0 : ℚ) ≤ i := by exact_mod_cast hi
      have hn0 : 0 ≤ n - u / 2 := by rw [hodd]; nlinarith
      rw [abs_of_nonneg hn0, abs_of_nonneg (by linarith)] at d1
      linarith
    · have : (i : ℚ) + 1 ≤ 0 := by exact_mod_cast (by omega : i + 1 ≤ 0)
      have hn0 : n + u / 2 ≤ 0 := by rw [hodd]; nlinarith
      rw [abs_of_nonpos hn0, abs_of_nonpos (by linarith)] at d2
      linarith
  rcases lt_trichotomy i j with h | h | h
  · exact (fin i j h ha2 hb2 ha1.1 hb1.2).elim
  · rw [h]
  · exact (fin j i h hb2 ha2 hb1.1 ha1.2).elim

/-- C89.  ROUNDDOWN and TRUNC give the multiple of the last digit next to the number towards 0 ... -/
theorem rounddown_spec (n : ℚ) (d : ℤ) (hd : |d| ≤ 308) (hn : |n| + 10 ^ (-d) < 2 ^ 1024 * min 1 ((10 : ℚ) ^ (-d))) :
    ∃ m, ROUNDDOWN n d = .fin m ∧ TRUNC n d = .fin m ∧ Mult m (10 ^ (-d)) ∧ |m| ≤ |n| ∧ |n| < |m| + 10 ^ (-d) ∧ 0 ≤ m * n := by
  have hu := ulp_pos d
  have hs := scaled_fin tr (fun q => by linarith [(tr_spec q).1]) n d hd hn
  refine ⟨_, hs, hs, ⟨_, rfl⟩, ?_⟩
  clear hs
  generalize (10 : ℚ) ^ (-d) = u at *
  obtain ⟨h1, h2, h3⟩ := tr_spec (n / u)
  generalize tr (n / u) = z at *
  rw [abs_div, abs_of_pos hu] at h1 h2
  rw [abs_mul, abs_of_pos hu]
  refine ⟨(le_div_iff₀ hu).mp h1, ?_, ?_⟩
  · have := (div_lt_iff₀ hu).mp h2
    linarith
  · have := mul_nonneg h3 (mul_pos hu hu).le
    rw [show (z : ℚ) * (n / u) * (u * u) = z * u * n by field_simp] at this
    exact this

/-- ... and ROUNDUP the one away from 0. -/
theorem roundup_spec (n : ℚ) (d : ℤ) (hd : |d| ≤ 308) (hn : |n| + 10 ^ (-d) < 2 ^ 1024 * min 1 ((10 : ℚ) ^ (-d))) :
    ∃ m, ROUNDUP n d = .fin m ∧ Mult m (10 ^ (-d)) ∧ |n| ≤ |m| ∧ |m| < |n| + 10 ^ (-d) ∧ 0 ≤ m * n := by
  have hu := ulp_pos d
  refine ⟨_, scaled_fin up (fun q => (up_spec q).2.1.le) n d hd hn, ⟨_, rfl⟩, ?_⟩
  generalize (10 : ℚ) ^ (-d) = u at *
  obtain ⟨h1, h2, h3⟩ := up_spec (n / u)
  generalize up (n / u) = z at *
  rw [abs_div, abs_of_pos hu] at h1 h2
  rw [abs_mul, abs_of_pos hu]
  refine ⟨(div_le_iff₀ hu).mp h1, ?_, ?_⟩
  · have := mul_lt_mul_of_pos_right h2 hu
    rw [add_mul, div_mul_cancel₀ _ hu.ne', one_mul] at this
    exact this
  · have := mul_nonneg h3 (mul_pos hu hu).le
    rw [show (z : ℚ) * (n / u) * (u * u) = z * u * n by field_simp] at this
    exact this

example : |(2 : ℤ)| ≤ 308 ∧ |(5 / 2 : ℚ)| + 10 ^ (-(2 : ℤ)) < 2 ^ 1024 * min 1 ((10 : ℚ) ^ (-(2 : ℤ))) := by
  norm_num

/-- C89.  With so many digits that the scale overflows, no number is left: every number rounded to 309 digits or more, before or after the decimal point, is not a number. -/
theorem round_nan (n : ℚ) (d : ℤ) (hd : 309 ≤ |d|) : ROUND n d = .nan ∧ ROUNDDOWN n d = .nan ∧ ROUNDUP n d = .nan ∧ TRUNC n d = .nan := by
  have hp : (2 : ℚ) ^ 1024 ≤ 10 ^ d.natAbs := by
    rw [Int.abs_eq_natAbs] at hd
    have h1 : (10 : ℚ) ^ 309 ≤ 10 ^ d.natAbs := pow_le_pow_right₀ (by norm_num) (by omega)
    have h2 : (2 : ℚ) ^ 1024 ≤ 10 ^ 309 := by norm_num
    exact h2.trans h1
  have hf : X.of (10 ^ d.natAbs) = .inf true := if_pos hp
  have key : ∀ g : ℚ → ℤ, g 0 = 0 → scaled g n d = .nan := by
    intro g hg
    unfold scaled
    simp only
    rw [hf]
    split
    · simp only [X.mul]
      split <;> simp [X.map, X.div]
    · simp only [X.div, X.map, hg]
      rw [of_fin (by norm_num)]
      simp [X.mul]
  have h1 : rd 0 = 0 := by norm_num [rd]
  have h2 : tr 0 = 0 := by norm_num [tr]
  have h3 : up 0 = 0 := by norm_num [up]
  exact ⟨key _ h1, key _ h2, key _ h3, key _ h2⟩

/-- Already 308 digits of 5 are too many. -/
theorem round_inf : ROUND 5 308 = .inf true := by
  unfold ROUND scaled
  have hf : X.of (10 ^ (308 : ℤ).natAbs) = .fin (10 ^ 308) := of_fin (by norm_num)
  simp only [hf, ge_iff_le]
  rw [if_pos (by norm_num)]
  simp only [X.mul]
  have : X.of (5 * 10 ^ 308) = .inf true := if_pos (by norm_num)
  rw [this]
  simp [X.map, X.div]

/-! ## MOD and QUOTIENT -/

theorem rem_spec {x y : ℚ} (hy : y ≠ 0) : |rem x y| < |y| ∧ 0 ≤ rem x y * x := by
  have h := tr_spec (x / y)
  unfold rem
  have e : x - y * (tr (x / y) : ℚ) = y * (x / y - tr (x / y)) := by rw [mul_sub, mul_div_cancel₀ _ hy]
  have hq : x = y * (x / y) := (mul_div_cancel₀ _ hy).symm
  generalize hqd : x / y = q at *
  generalize tr q = z at *
  obtain ⟨h1, h2, h3⟩ := h
  have hlt : |q - z| < 1 ∧ 0 ≤ (q - z) * q := by
    rcases le_total 0 q with hq0 | hq0
    · have hz : (0 : ℚ) ≤ z := by
        by_contra hn
        have hn := not_le.mp hn
        rcases eq_or_lt_of_le hq0 with h | h
        · rw [← h, abs_zero] at h1
          have := abs_nonneg (z : ℚ)
          rw [abs_of_neg hn] at h1
          linarith
        · have := mul_neg_of_neg_of_pos hn h
          linarith
      rw [abs_of_nonneg hq0, abs_of_nonneg hz] at h1 h2
      exact ⟨by rw [abs_of_nonneg (by linarith)]; linarith, mul_nonneg (by linarith) hq0⟩
    · have hz : (z : ℚ) ≤ 0 := by
        by_contra hn
        have hn := not_le.mp hn
        rcases eq_or_lt_of_le hq0 with h | h
        · rw [h, abs_zero, abs_of_pos hn] at h1
          linarith
        · have := mul_neg_of_pos_of_neg hn h
          linarith
      rw [abs_of_nonpos hq0, abs_of_nonpos hz] at h1 h2
      exact ⟨by rw [abs_of_nonpos (by linarith)]; linarith, mul_nonneg_of_nonpos_of_nonpos (by linarith) hq0⟩
  rw [e]
  constructor
  · rw [abs_mul]
    have := mul_lt_mul_of_pos_left hlt.1 (abs_pos.mpr hy)
    linarith
  · rw [hq]
    have := mul_nonneg (mul_self_nonneg y) hlt.2
    linarith

/-- C89.  MOD and INT divide with rest: the rest has the sign of the divisor and is smaller. -/
theorem mod_spec (x y : ℚ) (hy : y ≠ 0) : ∃ r, MOD x y = some r ∧ x = y * INT (x / y) + r ∧ |r| < |y| ∧ 0 ≤ r * y := by
  have hr := rem_spec (x := x) hy
  set r0 := rem x y with hr0
  have hx : x = y * tr (x / y) + r0 := by rw [hr0]; unfold rem; ring
  have uniq : ∀ (r : ℚ) (k : ℤ), x = y * k + r → |r| < |y| → 0 ≤ r * y → (INT (x / y) : ℤ) = k := by
    intro r k h1 h2 h3
    unfold INT
    rw [Int.floor_eq_iff]
    have e : x / y = k + r / y := by rw [h1, add_div, mul_div_cancel_left₀ _ hy]
    have hn : 0 ≤ r / y := by
      rcases lt_or_gt_of_ne hy with h | h
      · exact div_nonneg_of_nonpos (by by_contra hc; nlinarith [mul_neg_of_pos_of_neg (not_le.mp hc) h]) h.le
      · exact div_nonneg (by by_contra hc; nlinarith [mul_neg_of_neg_of_pos (not_le.mp hc) h]) h.le
    have hl : r / y < 1 := by
      have : |r / y| < 1 := by rw [abs_div, div_lt_one (abs_pos.mpr hy)]; exact h2
      exact lt_of_le_of_lt (le_abs_self _) this
    rw [e]
    constructor <;> linarith
  have fin : ∀ (r : ℚ) (k : ℤ), x = y * k + r → |r| < |y| → 0 ≤ r * y → x = y * INT (x / y) + r ∧ |r| < |y| ∧ 0 ≤ r * y := by
    intro r k h1 h2 h3
    rw [uniq r k h1 h2 h3]
    exact ⟨h1, h2, h3⟩
  unfold MOD
  rw [if_neg hy, ← hr0]
  refine ⟨_, rfl, ?_⟩
  split
  · rename_i h0
    exact fin 0 (tr (x / y)) (by rw [← h0]; exact hx) (by rw [abs_zero]; exact abs_pos.mpr hy) (by rw [zero_mul])
  · split
    · rename_i h1
      refine fin _ (tr (x / y) - 1) (by push_cast; linarith) ?_ ?_
      · rcases h1 with ⟨h2, h3⟩ | ⟨h2, h3⟩
        · have := hr.1
          rw [abs_of_pos h2, abs_of_neg h3] at this
          rw [abs_of_pos h2, abs_of_nonneg (by linarith)]
          linarith
        · have := hr.1
          rw [abs_of_neg h2, abs_of_pos h3] at this
          rw [abs_of_neg h2, abs_of_nonpos (by linarith)]
          linarith
      · rcases h1 with ⟨h2, h3⟩ | ⟨h2, h3⟩
        · have := hr.1
          rw [abs_of_pos h2, abs_of_neg h3] at this
          exact mul_nonneg (by linarith) h2.le
        · have := hr.1
          rw [abs_of_neg h2, abs_of_pos h3] at this
          exact mul_nonneg_of_nonpos_of_nonpos (by linarith) h2.le
    · rename_i h1
      refine fin _ (tr (x / y)) hx hr.1 ?_
      rw [not_or, not_and, not_and, not_lt, not_lt] at h1
      rcases lt_or_gt_of_ne hy with h | h
      · exact mul_nonneg_of_nonpos_of_nonpos (h1.2 h) h.le
      · exact mul_nonneg (h1.1 h) h.le

/-- C89.  QUOTIENT divides with a rest that has the sign of the dividend. -/
theorem quotient_spec (x y : ℚ) (hy : y ≠ 0) : ∃ k, QUOTIENT x y = some k ∧ |x - y * k| < |y| ∧ 0 ≤ (x - y * k) * x :=
  ⟨_, if_neg hy, rem_spec hy⟩

theorem mod_error (x y : ℚ) : MOD x y = none ↔ y = 0 := by
  unfold MOD
  split <;> simp_all

/-! ## Multiples -/

theorem ceil_mult (n : ℚ) {s : ℚ} (hs : 0 < s) : Mult (⌈n / s⌉ * s) s ∧ n ≤ ⌈n / s⌉ * s ∧ ⌈n / s⌉ * s < n + s := by
  refine ⟨⟨_, rfl⟩, (div_le_iff₀ hs).mp (Int.le_ceil _), ?_⟩
  have := mul_lt_mul_of_pos_right (Int.ceil_lt_add_one (n / s)) hs
  rw [add_mul, div_mul_cancel₀ _ hs.ne', one_mul] at this
  exact this

theorem floor_mult (n : ℚ) {s : ℚ} (hs : 0 < s) : Mult (⌊n / s⌋ * s) s ∧ ⌊n / s⌋ * s ≤ n ∧ n < ⌊n / s⌋ * s + s := by
  refine ⟨⟨_, rfl⟩, (le_div_iff₀ hs).mp (Int.floor_le _), ?_⟩
  have := mul_lt_mul_of_pos_right (Int.lt_floor_add_one (n / s)) hs
  rw [add_mul, div_mul_cancel₀ _ hs.ne', one_mul] at this
  exact this

theorem sig_abs (sig : ℚ) : (if sig < 0 then |sig| else sig) = |sig| := by
  split
  · rfl
  · rename_i h
    rw [abs_of_nonneg (not_lt.mp h)]

/-- C89.  CEILING gives the least multiple that is not below the number; CEILING.PRECISE, ISO.CEILING and CEILING.MATH without a mode agree with it. -/
theorem ceiling_spec (n sig : ℚ) (hs : sig ≠ 0) : ∃ m, CEILING n sig = some m ∧ CEILINGPRECISE n sig = m ∧ CEILINGMATH n sig = m ∧ Mult m |sig| ∧ n ≤ m ∧ m < n + |sig| := by
  refine ⟨⌈n / |sig|⌉ * |sig|, ?_, if_neg hs, ?_, ceil_mult n (abs_pos.mpr hs)⟩
  · unfold CEILING
    rw [if_neg hs, sig_abs]
  · unfold CEILINGMATH
    simp [hs]

/-- C89.  FLOOR gives the greatest multiple that is not above the number, and so do the variants. -/
theorem floor_spec (n sig : ℚ) (hs : sig ≠ 0) : ∃ m, FLOOR n sig = some m ∧ FLOORPRECISE n sig = m ∧ FLOORMATH n sig = m ∧ Mult m |sig| ∧ m ≤ n ∧ n < m + |sig| := by
  refine ⟨⌊n / |sig|⌋ * |sig|, ?_, if_neg hs, ?_, floor_mult n (abs_pos.mpr hs)⟩
  · unfold FLOOR
    rw [if_neg hs, sig_abs]
  · unfold FLOORMATH
    simp [hs]

/-- C89.  With a mode, CEILING.MATH rounds away from 0 and FLOOR.MATH towards 0. -/
theorem math_mode (n sig : ℚ) (hs : sig ≠ 0) : Mult (CEILINGMATH n sig true) |sig| ∧ |n| ≤ |CEILINGMATH n sig true| ∧ |CEILINGMATH n sig true| < |n| + |sig| ∧
    Mult (FLOORMATH n sig true) |sig| ∧ |FLOORMATH n sig true| ≤ |n| ∧ |n| < |FLOORMATH n sig true| + |sig| := by
  have hp := abs_pos.mpr hs
  obtain ⟨c0, c1, c2⟩ := ceil_mult n hp
  obtain ⟨f0, f1, f2⟩ := floor_mult n hp
  unfold CEILINGMATH FLOORMATH
  simp only [hs, if_false, if_true]
  by_cases hn : n ≥ 0
  · rw [if_pos hn, if_pos hn]
    have hf : (0 : ℚ) ≤ ⌊n / |sig|⌋ * |sig| := mul_nonneg (by exact_mod_cast Int.floor_nonneg.mpr (div_nonneg hn hp.le)) hp.le
    rw [abs_of_nonneg hn, abs_of_nonneg (by linarith : (0 : ℚ) ≤ ⌈n / |sig|⌉ * |sig|), abs_of_nonneg hf]
    exact ⟨c0, c1, c2, f0, f1, f2⟩
  · rw [if_neg hn, if_neg hn]
    have hn := not_le.mp hn
    have hc : (⌈n / |sig|⌉ * |sig| : ℚ) ≤ 0 := mul_nonpos_of_nonpos_of_nonneg (by exact_mod_cast Int.ceil_le.mpr (by push_cast; exact div_nonpos_of_nonpos_of_nonneg hn.le hp.le)) hp.le
    rw [abs_of_neg hn, abs_of_nonpos (by linarith : (⌊n / |sig|⌋ * |sig| : ℚ) ≤ 0), abs_of_nonpos hc]
    exact ⟨f0, by linarith, by linarith, c0, by linarith, by linarith⟩

/-- C89.  MROUND gives a multiple that is nearest, up to a millionth of a millionth of the multiple, or #NUM! for numbers of different signs. -/
theorem mround_spec (n s : ℚ) (hs : s ≠ 0) : (0 ≤ n * s → ∃ m, MROUND n s = some m ∧ Mult m |s| ∧ |m - n| ≤ (1 / 2 + 1 / 10 ^ 12) * |s|) ∧ (n * s < 0 → MROUND n s = none) := by
  have hp := abs_pos.mpr hs
  unfold MROUND
  simp only [hs, if_false]
  constructor
  · intro h
    have hsg : ¬(n ≠ 0 ∧ (if n < 0 then (-1 : ℚ) else 1) ≠ (if s < 0 then -1 else 1)) := by
      rintro ⟨h0, h1⟩
      apply h1
      rcases lt_or_gt_of_ne hs with h2 | h2
      · rw [if_pos h2, if_pos]
        rcases lt_or_gt_of_ne h0 with h3 | h3
        · exact h3
        · have := mul_neg_of_pos_of_neg h3 h2
          linarith
      · rw [if_neg (not_lt.mpr h2.le : ¬s < 0), if_neg]
        intro h3
        have := mul_neg_of_neg_of_pos h3 h2
        linarith
    rw [if_neg hsg]
    refine ⟨_, rfl, ?_, ?_⟩
    · by_cases hn : n < 0
      · exact ⟨-⌊|n| / |s| + 1 / 2 + 1 / 10 ^ 12⌋, by rw [if_pos hn]; push_cast; ring⟩
      · exact ⟨⌊|n| / |s| + 1 / 2 + 1 / 10 ^ 12⌋, by rw [if_neg hn]; ring⟩
    · have h1 := mul_le_mul_of_nonneg_right (Int.floor_le (|n| / |s| + 1 / 2 + 1 / 10 ^ 12)) hp.le
      have h2 := mul_lt_mul_of_pos_right (Int.lt_floor_add_one (|n| / |s| + 1 / 2 + 1 / 10 ^ 12)) hp
      have e : |n| / |s| * |s| = |n| := div_mul_cancel₀ _ hp.ne'
      generalize ((⌊|n| / |s| + 1 / 2 + 1 / 10 ^ 12⌋ : ℤ) : ℚ) = z at *
      rw [add_mul, add_mul, e] at h1 h2
      rw [add_mul] at h2
      have hc : (0 : ℚ) < 1 / 10 ^ 12 := by norm_num
      have hcs := mul_pos hc hp
      split
      · rename_i hn
        rw [abs_of_neg hn] at h1 h2
        rw [abs_le]
        constructor <;> linarith
      · rename_i hn
        rw [abs_of_nonneg (not_lt.mp hn)] at h1 h2
        rw [abs_le]
        constructor <;> linarith
  · intro h
    rw [if_pos]
    refine ⟨by rintro rfl; simp at h, ?_⟩
    rcases mul_neg_iff.mp h with ⟨h1, h2⟩ | ⟨h1, h2⟩
    · rw [if_neg (by linarith), if_pos h2]
      norm_num
    · rw [if_pos h1, if_neg (by linarith)]
      norm_num

/-! ## Even and odd -/

theorem toI64_small {z : ℤ} (h : z ≤ 2 ^ 62) : toI64 z = z := min_eq_left (by omega)

/-- C89.  EVEN gives the next even number away from 0 ... -/
theorem even_spec (checks : Bool) (n : ℚ) (hn : |n| ≤ 2 ^ 62) : ∃ k : ℤ, EVEN checks n = some ((2 * k : ℤ) : ℚ) ∧ |n| ≤ |((2 * k : ℤ) : ℚ)| ∧ |((2 * k : ℤ) : ℚ)| < |n| + 2 ∧ 0 ≤ ((2 * k : ℤ) : ℚ) * n := by
  unfold EVEN
  split
  · rename_i h0
    exact ⟨0, by simp, by simp [h0], by simp [h0], by simp [h0]⟩
  · rename_i h0
    have hc : ⌈|n|⌉ ≤ 2 ^ 62 := Int.ceil_le.mpr (by push_cast; exact hn)
    have h1 := Int.le_ceil |n|
    have h2 := Int.ceil_lt_add_one |n|
    have hpos : 0 < |n| := abs_pos.mpr h0
    simp only
    rw [toI64_small hc]
    generalize ⌈|n|⌉ = v at *
    have hv : ∃ w : ℤ, (if v % 2 ≠ 0 then incI64 checks v else some v) = some (2 * w) ∧ v ≤ 2 * w ∧ 2 * w ≤ v + 1 := by
      split
      · rename_i ho
        refine ⟨(v + 1) / 2, ?_, by omega, by omega⟩
        unfold incI64
        rw [if_neg (by omega)]
        congr 1
        omega
      · exact ⟨v / 2, by congr 1; omega, by omega, by omega⟩
    obtain ⟨w, e, w1, w2⟩ := hv
    rw [e, Option.map_some]
    have w1' : (v : ℚ) ≤ ((2 * w : ℤ) : ℚ) := by exact_mod_cast w1
    have w2' : ((2 * w : ℤ) : ℚ) ≤ v + 1 := by exact_mod_cast w2
    by_cases hneg : n < 0
    · refine ⟨-w, by rw [if_pos hneg]; push_cast; ring_nf, ?_, ?_, ?_⟩
      · rw [show ((2 * -w : ℤ) : ℚ) = -((2 * w : ℤ) : ℚ) by push_cast; ring, abs_neg, abs_of_pos (by linarith : (0 : ℚ) < ((2 * w : ℤ) : ℚ))]
        linarith
      · rw [show ((2 * -w : ℤ) : ℚ) = -((2 * w : ℤ) : ℚ) by push_cast; ring, abs_neg, abs_of_pos (by linarith : (0 : ℚ) < ((2 * w : ℤ) : ℚ))]
        linarith
      · rw [show ((2 * -w : ℤ) : ℚ) = -((2 * w : ℤ) : ℚ) by push_cast; ring]
        exact mul_nonneg_of_nonpos_of_nonpos (by linarith) hneg.le
    · refine ⟨w, by rw [if_neg hneg, one_mul], ?_, ?_, ?_⟩
      · rw [abs_of_pos (by linarith : (0 : ℚ) < ((2 * w : ℤ) : ℚ))]
        linarith
      · rw [abs_of_pos (by linarith : (0 : ℚ) < ((2 * w : ℤ) : ℚ))]
        linarith
      · exact mul_nonneg (by linarith) (not_lt.mp hneg)

/-- ... and ODD the next odd number. -/
theorem odd_spec (checks : Bool) (n : ℚ) (hn : |n| ≤ 2 ^ 62) : ∃ k : ℤ, ODD checks n = some ((2 * k + 1 : ℤ) : ℚ) ∧ |n| ≤ |((2 * k + 1 : ℤ) : ℚ)| ∧ |((2 * k + 1 : ℤ) : ℚ)| < |n| + 2 ∧ 0 ≤ ((2 * k + 1 : ℤ) : ℚ) * n := by
  unfold ODD
  have hc : ⌈|n|⌉ ≤ 2 ^ 62 := Int.ceil_le.mpr (by push_cast; exact hn)
  have h1 := Int.le_ceil |n|
  have h2 := Int.ceil_lt_add_one |n|
  have hz : 0 ≤ |n| := abs_nonneg n
  have hc0 : 0 ≤ ⌈|n|⌉ := Int.ceil_nonneg hz
  simp only
  rw [toI64_small hc]
  generalize ⌈|n|⌉ = v at *
  have hv : ∃ w : ℤ, (if v % 2 = 0 then incI64 checks v else some v) = some (2 * w + 1) ∧ v ≤ 2 * w + 1 ∧ 2 * w + 1 ≤ v + 1 := by
    split
    · rename_i ho
      refine ⟨v / 2, ?_, by omega, by omega⟩
      unfold incI64
      rw [if_neg (by omega)]
      congr 1
      omega
    · exact ⟨v / 2, by congr 1; omega, by omega, by omega⟩
  obtain ⟨w, e, w1, w2⟩ := hv
  rw [e, Option.map_some]
  have w0 : (0 : ℚ) < ((2 * w + 1 : ℤ) : ℚ) := by exact_mod_cast (by omega : 0 < 2 * w + 1)
  have w1' : (v : ℚ) ≤ ((2 * w + 1 : ℤ) : ℚ) := by exact_mod_cast w1
  have w2' : ((2 * w + 1 : ℤ) : ℚ) ≤ v + 1 := by exact_mod_cast w2
  by_cases hneg : n < 0
  · have e2 : ((2 * (-w - 1) + 1 : ℤ) : ℚ) = -((2 * w + 1 : ℤ) : ℚ) := by push_cast; ring
    refine ⟨-w - 1, by rw [if_pos hneg, e2, neg_one_mul], ?_, ?_, ?_⟩
    · rw [e2, abs_neg, abs_of_pos w0]
      linarith
    · rw [e2, abs_neg, abs_of_pos w0]
      linarith
    · rw [e2]
      exact mul_nonneg_of_nonpos_of_nonpos (by linarith) hneg.le
  · refine ⟨w, by rw [if_neg hneg, one_mul], ?_, ?_, ?_⟩
    · rw [abs_of_pos w0]
      linarith
    · rw [abs_of_pos w0]
      linarith
    · exact mul_nonneg w0.le (not_lt.mp hneg)

/-- C89.  EVEN of 1E19 is negative in release builds and panics in debug builds; ODD of it is smaller than the number. -/
theorem even_wrong : EVEN false (10 ^ 19) = some (-2 ^ 63) ∧ EVEN true (10 ^ 19) = none ∧ ∃ m, ODD false (10 ^ 19) = some m ∧ m < 10 ^ 19 := by
  have hc : ⌈|(10 ^ 19 : ℚ)|⌉ = 10 ^ 19 := by
    rw [abs_of_pos (by norm_num)]
    norm_num
  refine ⟨?_, ?_, ?_⟩
  · unfold EVEN
    rw [if_neg (by norm_num)]
    simp only [hc]
    norm_num [toI64, incI64]
  · unfold EVEN
    rw [if_neg (by norm_num)]
    simp only [hc]
    norm_num [toI64, incI64]
  · unfold ODD
    simp only [hc]
    norm_num [toI64, incI64]

end Verif.Round

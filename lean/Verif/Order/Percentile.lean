import Verif.Order.Nth
import Mathlib.Tactic.FieldSimp

/-!
# LARGE, SMALL, MEDIAN, PERCENTILE and QUARTILE
-/

namespace Verif.Order

/-- C86.  SMALL gives the number at place `k`, and #NUM! if there is no such place. -/
theorem small_spec (sel : Select) (nums : List ℚ) (k : Int) :
    (1 ≤ k ∧ k ≤ nums.length → ∃ v, small sel nums k = .val v ∧ IsNth nums (k - 1).toNat v) ∧ (¬(1 ≤ k ∧ k ≤ nums.length) → small sel nums k = .num) := by
  constructor
  · rintro ⟨h1, h2⟩
    have hne : nums ≠ [] := by rintro rfl; simp at h2; omega
    refine ⟨nth nums (k - 1).toNat, ?_, nth_isNth (by omega)⟩
    have e : k.toNat - 1 = (k - 1).toNat := by omega
    unfold small
    rw [if_neg (by omega), if_neg (by rintro (h | h); exact hne h; omega), e, select_nth sel (by omega)]
  · intro h
    unfold small
    split
    · rfl
    · rw [if_pos (by right; omega)]

/-- The result of SMALL in terms of places. -/
theorem small_eq (sel : Select) {nums : List ℚ} {k : Nat} (hk : k < nums.length) : small sel nums (k + 1) = .val (nth nums k) := by
  obtain ⟨v, hv, hn⟩ := (small_spec sel nums (k + 1)).1 ⟨by omega, by omega⟩
  rw [hv]
  have e : ((k : Int) + 1 - 1).toNat = k := by omega
  rw [e] at hn
  rw [isNth_unique hn (nth_isNth hk)]

/-- C86.  LARGE counts from the other end: it is SMALL at the place `n + 1 - k`. -/
theorem large_small (sel : Select) (nums : List ℚ) (k : Int) : large sel nums k = small sel nums (nums.length + 1 - k) := by
  unfold large small
  by_cases h1 : k < 1
  · rw [if_pos h1]
    split
    · rfl
    · rw [if_pos (by right; omega)]
  · rw [if_neg h1]
    by_cases h2 : nums = [] ∨ k.toNat > nums.length
    · rw [if_pos h2]
      split
      · rfl
      · rename_i h3
        rcases h2 with rfl | h2
        · simp
        · omega
    · rw [if_neg h2]
      push Not at h2
      rw [if_neg (by omega), if_neg (by rintro (h | h); exact h2.1 h; omega)]
      congr 2
      omega

/-- C86.  LARGE gives the number of which fewer than `k` are larger and at least `k` are not smaller. -/
theorem large_spec (sel : Select) (nums : List ℚ) (k : Int) (h1 : 1 ≤ k) (h2 : k ≤ nums.length) :
    ∃ v ∈ nums, large sel nums k = .val v ∧ (nums.countP (fun x => decide (v < x)) : Int) < k ∧ k ≤ nums.countP (fun x => decide (v ≤ x)) := by
  rw [large_small]
  obtain ⟨v, hv, hm, hlt, hle⟩ := (small_spec sel nums (nums.length + 1 - k)).1 ⟨by omega, by omega⟩
  refine ⟨v, hm, hv, ?_, ?_⟩
  · have := nums.length_eq_countP_add_countP (p := fun x => decide (x ≤ v))
    have e : nums.countP (fun a => ¬decide (a ≤ v) = true) = nums.countP (fun x => decide (v < x)) := by
      congr 1
      funext x
      simp
    omega
  · have := nums.length_eq_countP_add_countP (p := fun x => decide (x < v))
    have e : nums.countP (fun a => ¬decide (a < v) = true) = nums.countP (fun x => decide (v ≤ x)) := by
      congr 1
      funext x
      simp
    omega

/-- C86.  SMALL is monotone in the place. -/
theorem small_mono (sel : Select) (nums : List ℚ) {j k : Int} {v w : ℚ} (hjk : j ≤ k) (hv : small sel nums j = .val v) (hw : small sel nums k = .val w) : v ≤ w := by
  have hr : ∀ {k : Int} {v : ℚ}, small sel nums k = .val v → 1 ≤ k ∧ k ≤ nums.length := by
    intro k v h
    by_contra hne
    rw [(small_spec sel nums k).2 hne] at h
    cases h
  have hj := hr hv
  have hk := hr hw
  have e1 := small_eq sel (nums := nums) (k := (j - 1).toNat) (by omega)
  have e2 := small_eq sel (nums := nums) (k := (k - 1).toNat) (by omega)
  rw [show ((j - 1).toNat : Int) + 1 = j by omega, hv] at e1
  rw [show ((k - 1).toNat : Int) + 1 = k by omega, hw] at e2
  cases e1
  cases e2
  exact nth_mono (by omega) (by omega)

theorem inc_rank {n : Nat} {p : ℚ} (hn : 0 < n) (h0 : 0 ≤ p) (h1 : p ≤ 1) : 0 ≤ p * ((n : ℚ) - 1) ∧ p * ((n : ℚ) - 1) ≤ (n : ℚ) - 1 := by
  have : (1 : ℚ) ≤ n := by exact_mod_cast hn
  constructor
  · exact mul_nonneg h0 (by linarith)
  · nlinarith

theorem percentileInc_eq (sel : Select) {nums : List ℚ} {p : ℚ} (hne : nums ≠ []) (h0 : 0 ≤ p) (h1 : p ≤ 1) : percentileInc sel nums p = .val (interp nums (p * ((nums.length : ℚ) - 1))) := by
  have hpos : 0 < nums.length := List.length_pos_iff.mpr hne
  obtain ⟨r0, r1⟩ := inc_rank hpos h0 h1
  unfold percentileInc
  rw [if_neg hne, if_neg (by simp [h0, h1])]
  by_cases hone : nums.length = 1
  · rw [if_pos hone]
    obtain ⟨x, rfl⟩ := List.length_eq_one_iff.mp hone
    have := nth_mem (l := [x]) (k := 0) (by simp)
    simp only [List.mem_singleton] at this
    simp [interp, this]
  · rw [if_neg hone]
    simp only
    generalize p * ((nums.length : ℚ) - 1) = r at *
    split
    · rename_i he
      have hlt := floor_lt_of r0 r1
      rw [select_nth sel hlt]
      have e1 := Nat.floor_le r0
      have e2 := Nat.le_ceil r
      have e3 : r = (⌊r⌋₊ : ℚ) := by rw [← he] at e2; linarith
      conv_rhs => rw [e3]
      rw [interp_nat]
    · rename_i he
      have hk : ⌊r⌋₊ + 1 < nums.length := by
        have hlt := floor_lt_of r0 r1
        by_contra hge
        have h2 : nums.length = ⌊r⌋₊ + 1 := by omega
        have h3 : (nums.length : ℚ) = ⌊r⌋₊ + 1 := by exact_mod_cast h2
        have h4 := Nat.floor_le r0
        have h5 : r = (⌊r⌋₊ : ℚ) := by linarith
        apply he
        conv_rhs => rw [h5]
        rw [Nat.ceil_natCast]
      rw [select_adjacent sel hk]
      rfl

/-- C86.  PERCENTILE.INC for `p = (k + f) / (n - 1)` lies on the line between places `k + 1` and `k + 2`. -/
theorem percentile_inc_linear (sel : Select) (nums : List ℚ) (k : Nat) (f v w : ℚ) (h0 : 0 ≤ f) (h1 : f < 1) (hv : small sel nums (k + 1) = .val v) (hw : small sel nums (k + 2) = .val w) :
    percentileInc sel nums ((k + f) / ((nums.length : ℚ) - 1)) = .val ((1 - f) * v + f * w) := by
  have hk : k + 1 < nums.length := by
    by_contra hge
    rw [(small_spec sel nums (k + 2)).2 (by omega)] at hw
    cases hw
  have e1 := small_eq sel (nums := nums) (k := k) (by omega)
  have e2 := small_eq sel (nums := nums) (k := k + 1) hk
  rw [hv] at e1
  rw [show (((k + 1 : Nat) : Int) + 1) = (k : Int) + 2 by push_cast; ring, hw] at e2
  cases e1
  cases e2
  have hn : (k : ℚ) + 1 + 1 ≤ nums.length := by exact_mod_cast hk
  have hpos : (0 : ℚ) < (nums.length : ℚ) - 1 := by have : (0 : ℚ) ≤ k := Nat.cast_nonneg k; linarith
  have hk0 : (0 : ℚ) ≤ k := Nat.cast_nonneg k
  rw [percentileInc_eq sel (by rintro rfl; simp at hk) (div_nonneg (by linarith) hpos.le) ((div_le_one hpos).mpr (by linarith)), div_mul_cancel₀ _ hpos.ne', interp_add _ _ h0 h1]
  congr 1
  ring

/-- C86.  The last place is PERCENTILE.INC of 1, the first of 0. -/
theorem percentile_inc_ends (sel : Select) (nums : List ℚ) (hne : nums ≠ []) :
    (∃ v ∈ nums, percentileInc sel nums 0 = .val v ∧ ∀ x ∈ nums, v ≤ x) ∧ ∃ w ∈ nums, percentileInc sel nums 1 = .val w ∧ ∀ x ∈ nums, x ≤ w := by
  have hpos : 0 < nums.length := List.length_pos_iff.mpr hne
  refine ⟨⟨nth nums 0, nth_mem hpos, ?_, fun x hx => nth_first hx⟩, nth nums (nums.length - 1), nth_mem (by omega), ?_, fun x hx => nth_last hx⟩
  · rw [percentileInc_eq sel hne le_rfl (by norm_num), zero_mul]
    have := interp_nat nums 0
    rw [Nat.cast_zero] at this
    rw [this]
  · rw [percentileInc_eq sel hne (by norm_num) le_rfl, one_mul]
    have := interp_nat nums (nums.length - 1)
    rw [Nat.cast_sub (by omega), Nat.cast_one] at this
    rw [this]

/-- C86.  PERCENTILE.INC is a number exactly for `0 ≤ p ≤ 1` and some numbers. -/
theorem percentile_inc_error (sel : Select) (nums : List ℚ) (p : ℚ) : percentileInc sel nums p = .num ↔ nums = [] ∨ p < 0 ∨ 1 < p := by
  constructor
  · intro h
    by_contra hc
    push Not at hc
    rw [percentileInc_eq sel hc.1 hc.2.1 hc.2.2] at h
    cases h
  · rintro (h | h | h)
    · unfold percentileInc; rw [if_pos h]
    · unfold percentileInc; split
      · rfl
      · rw [if_pos (by rintro ⟨h1, _⟩; linarith)]
    · unfold percentileInc; split
      · rfl
      · rw [if_pos (by rintro ⟨_, h1⟩; linarith)]

/-- C86.  PERCENTILE.INC is monotone in `p`. -/
theorem percentile_inc_mono (sel : Select) (nums : List ℚ) {p q v w : ℚ} (hpq : p ≤ q) (hv : percentileInc sel nums p = .val v) (hw : percentileInc sel nums q = .val w) : v ≤ w := by
  have hr : ∀ {p v : ℚ}, percentileInc sel nums p = .val v → nums ≠ [] ∧ 0 ≤ p ∧ p ≤ 1 := by
    intro p v h
    have := (percentile_inc_error sel nums p).not.mp (by rw [h]; simp)
    push Not at this
    exact this
  obtain ⟨hne, p0, p1⟩ := hr hv
  obtain ⟨_, q0, q1⟩ := hr hw
  rw [percentileInc_eq sel hne p0 p1] at hv
  rw [percentileInc_eq sel hne q0 q1] at hw
  cases hv
  cases hw
  have hpos : 0 < nums.length := List.length_pos_iff.mpr hne
  have h1 : (1 : ℚ) ≤ nums.length := by exact_mod_cast hpos
  exact interp_mono (inc_rank hpos p0 p1).1 (mul_le_mul_of_nonneg_right hpq (by linarith)) (inc_rank hpos q0 q1).2

theorem percentileExc_eq (sel : Select) {nums : List ℚ} {p : ℚ} (h1 : 1 ≤ p * ((nums.length : ℚ) + 1)) (h2 : p * ((nums.length : ℚ) + 1) ≤ nums.length) :
    percentileExc sel nums p = .val (interp nums (p * ((nums.length : ℚ) + 1) - 1)) := by
  have hn0 : (0 : ℚ) ≤ nums.length := Nat.cast_nonneg _
  have hne : nums ≠ [] := by
    rintro rfl
    simp at h1 h2
    linarith
  have p0 : 0 < p := by
    by_contra h
    have : p * ((nums.length : ℚ) + 1) ≤ 0 := mul_nonpos_of_nonpos_of_nonneg (by linarith) (by linarith)
    linarith
  have p1 : p < 1 := by
    by_contra h
    have : 1 * ((nums.length : ℚ) + 1) ≤ p * ((nums.length : ℚ) + 1) := mul_le_mul_of_nonneg_right (by linarith) (by linarith)
    linarith
  unfold percentileExc
  rw [if_neg hne, if_neg (by rintro (h | h | h) <;> [exact h ⟨p0.le, p1.le⟩; linarith; linarith])]
  simp only
  generalize p * ((nums.length : ℚ) + 1) = r at *
  rw [if_neg (by rintro (h | h) <;> linarith)]
  have hfl : ⌊r⌋₊ - 1 = ⌊r - 1⌋₊ := (Nat.floor_sub_one r).symm
  have hf1 : 1 ≤ ⌊r⌋₊ := Nat.le_floor (by exact_mod_cast h1)
  have hlt := floor_lt_of (r := r - 1) (n := nums.length) (by linarith) (by linarith)
  rw [hfl]
  split
  · rename_i he
    rw [select_nth sel hlt]
    have e1 := Nat.floor_le (show 0 ≤ r by linarith)
    have e2 := Nat.le_ceil r
    have e3 : r = (⌊r⌋₊ : ℚ) := by rw [← he] at e2; linarith
    have e4 : r - 1 = ((⌊r⌋₊ - 1 : Nat) : ℚ) := by rw [Nat.cast_sub hf1]; push_cast; linarith
    conv_rhs => rw [e4]
    rw [interp_nat, hfl]
  · rename_i he
    have hk : ⌊r - 1⌋₊ + 1 < nums.length := by
      by_contra hge
      have h2 : nums.length = ⌊r⌋₊ := by omega
      have h3 : (nums.length : ℚ) = ⌊r⌋₊ := by exact_mod_cast h2
      have h4 := Nat.floor_le (show 0 ≤ r by linarith)
      have h5 : r = (⌊r⌋₊ : ℚ) := by linarith
      apply he
      conv_rhs => rw [h5]
      rw [Nat.ceil_natCast]
    rw [select_adjacent sel hk]
    have e5 : (⌊r - 1⌋₊ : ℚ) = (⌊r⌋₊ : ℚ) - 1 := by rw [← hfl, Nat.cast_sub hf1]; push_cast; ring
    simp only [interp, e5]
    congr 1
    ring

/-- C86.  PERCENTILE.EXC is a number exactly for `1 / (n + 1) ≤ p ≤ n / (n + 1)`. -/
theorem percentile_exc_error (sel : Select) (nums : List ℚ) (p : ℚ) : percentileExc sel nums p = .num ↔ p < 1 / ((nums.length : ℚ) + 1) ∨ nums.length / ((nums.length : ℚ) + 1) < p := by
  have hn0 : (0 : ℚ) < (nums.length : ℚ) + 1 := by have : (0 : ℚ) ≤ nums.length := Nat.cast_nonneg _; linarith
  rw [lt_div_iff₀ hn0, div_lt_iff₀ hn0]
  constructor
  · intro h
    by_contra hc
    push Not at hc
    rw [percentileExc_eq sel hc.1 hc.2] at h
    cases h
  · intro h
    unfold percentileExc
    split
    · rfl
    · split
      · rfl
      · rw [if_pos h]

/-- C86.  PERCENTILE.EXC is PERCENTILE.INC on another scale: `n + 1` steps instead of `n - 1`. -/
theorem percentile_exc_inc (sel : Select) (nums : List ℚ) (p : ℚ) (hn : 2 ≤ nums.length) (h1 : 1 / ((nums.length : ℚ) + 1) ≤ p) (h2 : p ≤ nums.length / ((nums.length : ℚ) + 1)) :
    percentileExc sel nums p = percentileInc sel nums ((p * ((nums.length : ℚ) + 1) - 1) / ((nums.length : ℚ) - 1)) := by
  have hn2 : (2 : ℚ) ≤ nums.length := by exact_mod_cast hn
  have hn0 : (0 : ℚ) < (nums.length : ℚ) + 1 := by linarith
  rw [div_le_iff₀ hn0] at h1
  rw [le_div_iff₀ hn0] at h2
  have hpos : (0 : ℚ) < (nums.length : ℚ) - 1 := by linarith
  rw [percentileExc_eq sel h1 h2, percentileInc_eq sel (by rintro rfl; simp at hn) (div_nonneg (by linarith) hpos.le) ((div_le_one hpos).mpr (by linarith)), div_mul_cancel₀ _ hpos.ne']

/-- C86.  QUARTILE.INC is PERCENTILE.INC of quarters. -/
theorem quartile_inc_percentile (sel : Select) (nums : List ℚ) (q : Int) (h0 : 0 ≤ q) (h4 : q ≤ 4) : quartileInc sel nums q = percentileInc sel nums (q / 4) := by
  unfold quartileInc
  rw [if_neg (by simp; omega)]
  by_cases hne : nums = []
  · rw [if_pos hne, ((percentile_inc_error sel nums _).mpr (.inl hne))]
  · rw [if_neg hne]
    have hpos : 0 < nums.length := List.length_pos_iff.mpr hne
    rcases (by omega : q = 0 ∨ q = 1 ∨ q = 2 ∨ q = 3 ∨ q = 4) with rfl | rfl | rfl | rfl | rfl
    · rw [if_pos rfl, select_nth sel hpos, percentileInc_eq sel hne (by norm_num) (by norm_num)]
      have := interp_nat nums 0
      rw [Nat.cast_zero] at this
      simp [this]
    · norm_num
    · norm_num
    · norm_num
    · rw [if_neg (by decide), if_pos rfl, select_nth sel (by omega), percentileInc_eq sel hne (by norm_num) (by norm_num)]
      have := interp_nat nums (nums.length - 1)
      rw [Nat.cast_sub (by omega), Nat.cast_one] at this
      rw [← this]
      norm_num

/-- C86.  QUARTILE.EXC is PERCENTILE.EXC of quarters, for two numbers or more; of one number PERCENTILE.EXC has a middle and QUARTILE.EXC is #NUM!. -/
theorem quartile_exc_percentile (sel : Select) (nums : List ℚ) (q : Int) (h1 : 1 ≤ q) (h3 : q ≤ 3) (hn : 2 ≤ nums.length) : quartileExc sel nums q = percentileExc sel nums (q / 4) := by
  unfold quartileExc
  rw [if_neg (by simp; omega), if_neg (by omega)]
  rcases (by omega : q = 1 ∨ q = 2 ∨ q = 3) with rfl | rfl | rfl <;> norm_num

theorem median_eq (sel : Select) {nums : List ℚ} (hne : nums ≠ []) : median sel nums = .val (interp nums (((nums.length : ℚ) - 1) / 2)) := by
  have hpos : 0 < nums.length := List.length_pos_iff.mpr hne
  unfold median
  rw [if_neg hne]
  simp only
  split
  · rename_i h
    rw [select_nth sel (by omega)]
    have e : ((nums.length : ℚ) - 1) / 2 = ((nums.length / 2 : Nat) : ℚ) := by
      have h2 : nums.length = 2 * (nums.length / 2) + 1 := by omega
      have h3 : (nums.length : ℚ) = 2 * ((nums.length / 2 : Nat) : ℚ) + 1 := by exact_mod_cast h2
      linarith
    rw [e, interp_nat]
  · rename_i h
    rw [select_adjacent sel (by omega)]
    have e : ((nums.length : ℚ) - 1) / 2 = ((nums.length / 2 - 1 : Nat) : ℚ) + 1 / 2 := by
      have h2 : nums.length = 2 * (nums.length / 2 - 1) + 2 := by omega
      have h3 : (nums.length : ℚ) = 2 * ((nums.length / 2 - 1 : Nat) : ℚ) + 2 := by exact_mod_cast h2
      linarith
    rw [e, interp_add _ _ (by norm_num) (by norm_num)]
    congr 1
    ring

/-- C86.  MEDIAN, PERCENTILE.INC and .EXC of a half and the second quartile agree. -/
theorem median_agrees (sel : Select) (nums : List ℚ) : median sel nums = percentileInc sel nums (1 / 2) ∧ median sel nums = quartileInc sel nums 2 ∧ (nums ≠ [] → median sel nums = percentileExc sel nums (1 / 2)) := by
  have h1 : median sel nums = percentileInc sel nums (1 / 2) := by
    by_cases hne : nums = []
    · rw [((percentile_inc_error sel nums _).mpr (.inl hne))]
      unfold median
      rw [if_pos hne]
    · rw [median_eq sel hne, percentileInc_eq sel hne (by norm_num) (by norm_num)]
      congr 2
      ring
  refine ⟨h1, ?_, fun hne => ?_⟩
  · rw [quartile_inc_percentile sel nums 2 (by decide) (by decide), h1]
    norm_num
  · have hpos : 0 < nums.length := List.length_pos_iff.mpr hne
    have h1 : (1 : ℚ) ≤ nums.length := by exact_mod_cast hpos
    rw [median_eq sel hne, percentileExc_eq sel (by linarith) (by linarith)]
    congr 2
    ring

/-- C86.  At least half of the numbers are not larger than the median, and at least half not smaller. -/
theorem median_half (sel : Select) (nums : List ℚ) (m : ℚ) (h : median sel nums = .val m) :
    nums.length ≤ 2 * nums.countP (fun x => decide (x ≤ m)) ∧ nums.length ≤ 2 * nums.countP (fun x => decide (m ≤ x)) := by
  have hne : nums ≠ [] := by
    rintro rfl
    cases h
  have hpos : 0 < nums.length := List.length_pos_iff.mpr hne
  have le_count : ∀ k, k < nums.length → nth nums k ≤ m → k + 1 ≤ nums.countP (fun x => decide (x ≤ m)) := by
    intro k hk hle
    have h1 := (nth_isNth hk).2.2
    have h2 : nums.countP (fun x => decide (x ≤ nth nums k)) ≤ nums.countP (fun x => decide (x ≤ m)) := by
      apply List.countP_mono_left
      intro x _ hx
      simp only [decide_eq_true_eq] at hx ⊢
      linarith
    omega
  have ge_count : ∀ k, k < nums.length → m ≤ nth nums k → nums.length - k ≤ nums.countP (fun x => decide (m ≤ x)) := by
    intro k hk hle
    have h1 := (nth_isNth hk).2.1
    have h3 := nums.length_eq_countP_add_countP (p := fun x => decide (x < nth nums k))
    have e : nums.countP (fun a => ¬decide (a < nth nums k) = true) ≤ nums.countP (fun x => decide (m ≤ x)) := by
      apply List.countP_mono_left
      intro x _ hx
      simp only [decide_eq_true_eq, not_lt] at hx ⊢
      linarith
    omega
  rw [median_eq sel hne] at h
  cases h
  have h1 : (1 : ℚ) ≤ nums.length := by exact_mod_cast hpos
  have r0 : (0 : ℚ) ≤ ((nums.length : ℚ) - 1) / 2 := by linarith
  have r1 : ((nums.length : ℚ) - 1) / 2 ≤ (nums.length : ℚ) - 1 := by linarith
  obtain ⟨i1, i2, i3⟩ := interp_le r0 r1
  have hlt := floor_lt_of r0 r1
  have f0 := Nat.floor_le r0
  have f1 := Nat.lt_floor_add_one (((nums.length : ℚ) - 1) / 2)
  have g1 : nums.length ≤ 2 * (⌊((nums.length : ℚ) - 1) / 2⌋₊ + 1) := by
    have : (nums.length : ℚ) < 2 * ((⌊((nums.length : ℚ) - 1) / 2⌋₊ : ℚ) + 1) + 1 := by linarith
    have : nums.length < 2 * (⌊((nums.length : ℚ) - 1) / 2⌋₊ + 1) + 1 := by exact_mod_cast this
    omega
  have g2 : 2 * ⌊((nums.length : ℚ) - 1) / 2⌋₊ + 1 ≤ nums.length := by
    have : 2 * (⌊((nums.length : ℚ) - 1) / 2⌋₊ : ℚ) + 1 ≤ nums.length := by linarith
    exact_mod_cast this
  constructor
  · have := le_count _ hlt i1
    omega
  · by_cases hw : 2 * ⌊((nums.length : ℚ) - 1) / 2⌋₊ + 1 = nums.length
    · have hq : 2 * (⌊((nums.length : ℚ) - 1) / 2⌋₊ : ℚ) + 1 = nums.length := by exact_mod_cast hw
      have e : interp nums (((nums.length : ℚ) - 1) / 2) = nth nums ⌊((nums.length : ℚ) - 1) / 2⌋₊ := by
        have e0 : ((nums.length : ℚ) - 1) / 2 = (⌊((nums.length : ℚ) - 1) / 2⌋₊ : ℚ) := by linarith
        conv_lhs => rw [e0]
        exact interp_nat _ _
      have := ge_count _ hlt (le_of_eq e)
      omega
    · have := ge_count _ (by omega) (i2 (by omega))
      omega

/-- C86.  None of these functions depends on the order of the numbers or on how the selection works. -/
theorem order_perm (sel sel' : Select) {nums nums' : List ℚ} (h : nums.Perm nums') (k : Int) (p : ℚ) :
    small sel nums k = small sel' nums' k ∧ large sel nums k = large sel' nums' k ∧ median sel nums = median sel' nums' ∧ percentileInc sel nums p = percentileInc sel' nums' p ∧
    percentileExc sel nums p = percentileExc sel' nums' p ∧ quartileInc sel nums k = quartileInc sel' nums' k ∧ quartileExc sel nums k = quartileExc sel' nums' k := by
  have hl := h.length_eq
  have hnil : nums = [] ↔ nums' = [] := by rw [← List.length_eq_zero_iff, ← List.length_eq_zero_iff, hl]
  have hs : ∀ k, small sel nums k = small sel' nums' k := by
    intro k
    by_cases hk : 1 ≤ k ∧ k ≤ nums.length
    · obtain ⟨v, hv, hn⟩ := (small_spec sel nums k).1 hk
      obtain ⟨w, hw, hn'⟩ := (small_spec sel' nums' k).1 (hl ▸ hk)
      rw [hv, hw, isNth_unique hn (hn'.perm h.symm)]
    · rw [(small_spec sel nums k).2 hk, (small_spec sel' nums' k).2 (hl ▸ hk)]
  have hinc : ∀ p, percentileInc sel nums p = percentileInc sel' nums' p := by
    intro p
    by_cases hp : nums = [] ∨ p < 0 ∨ 1 < p
    · rw [(percentile_inc_error sel nums p).mpr hp, (percentile_inc_error sel' nums' p).mpr (by rw [← hnil]; exact hp)]
    · have hp' := hp
      push Not at hp'
      rw [percentileInc_eq sel hp'.1 hp'.2.1 hp'.2.2, percentileInc_eq sel' (fun hc => hp'.1 (hnil.mpr hc)) hp'.2.1 hp'.2.2, interp_perm h, hl]
  have hexc : ∀ p, percentileExc sel nums p = percentileExc sel' nums' p := by
    intro p
    by_cases hp : p < 1 / ((nums.length : ℚ) + 1) ∨ nums.length / ((nums.length : ℚ) + 1) < p
    · rw [(percentile_exc_error sel nums p).mpr hp, (percentile_exc_error sel' nums' p).mpr (hl ▸ hp)]
    · push Not at hp
      have hn0 : (0 : ℚ) < (nums.length : ℚ) + 1 := by have : (0 : ℚ) ≤ nums.length := Nat.cast_nonneg _; linarith
      rw [div_le_iff₀ hn0, le_div_iff₀ hn0] at hp
      rw [percentileExc_eq sel hp.1 hp.2, percentileExc_eq sel' (hl ▸ hp.1) (hl ▸ hp.2), interp_perm h, hl]
  have hm : median sel nums = median sel' nums' := by rw [(median_agrees sel nums).1, (median_agrees sel' nums').1, hinc]
  refine ⟨hs k, ?_, hm, hinc p, hexc p, ?_, ?_⟩
  · rw [large_small, large_small, hl]
    exact hs _
  · by_cases hk : 0 ≤ k ∧ k ≤ 4
    · rw [quartile_inc_percentile sel nums k hk.1 hk.2, quartile_inc_percentile sel' nums' k hk.1 hk.2, hinc]
    · unfold quartileInc
      rw [if_pos hk, if_pos hk]
  · unfold quartileExc
    rw [hl, hexc]

/-! ## Cases -/

/-- A selection exists: sort and split. -/
def sortSelect : Select where
  run l k := ((ascending l).take k, nth l k, (ascending l).drop (k + 1))
  perm l k hk := by
    have hk' : k < (ascending l).length := by rw [ascending_length]; exact hk
    have e : nth l k = (ascending l)[k] := by simp [nth, hk']
    simp only [e]
    rw [← List.drop_eq_getElem_cons hk', List.take_append_drop]
    exact ascending_perm l
  place l k hk := by simp [ascending_length, Nat.le_of_lt hk]
  before l k hk := by
    have hk' : k < (ascending l).length := by rw [ascending_length]; exact hk
    have hs := ascending_sorted l
    have e : nth l k = (ascending l)[k] := by simp [nth, hk']
    have es : ascending l = (ascending l).take k ++ (ascending l)[k] :: (ascending l).drop (k + 1) := by
      rw [← List.drop_eq_getElem_cons hk', List.take_append_drop]
    rw [es, List.pairwise_append, List.pairwise_cons] at hs
    intro x hx
    simp only [e]
    exact hs.2.2 x hx _ (List.mem_cons_self ..)
  after l k hk := by
    have hk' : k < (ascending l).length := by rw [ascending_length]; exact hk
    have hs := ascending_sorted l
    have e : nth l k = (ascending l)[k] := by simp [nth, hk']
    have es : ascending l = (ascending l).take k ++ (ascending l)[k] :: (ascending l).drop (k + 1) := by
      rw [← List.drop_eq_getElem_cons hk', List.take_append_drop]
    rw [es, List.pairwise_append, List.pairwise_cons] at hs
    intro x hx
    simp only [e]
    exact hs.2.1.1 x hx

example : small sortSelect [5, 3, 9, 3] 2 = .val 3 ∧ large sortSelect [5, 3, 9, 3] 2 = .val 5 ∧ small sortSelect [5, 3] 3 = .num := by decide +kernel
example : median sortSelect [5, 3, 9, 4] = .val (9 / 2) ∧ median sortSelect [5, 3, 9] = .val 5 ∧ median sortSelect [] = .num := by decide +kernel
example : percentileInc sortSelect [1, 2, 3, 4, 5] (3 / 10) = .val (11 / 5) ∧ percentileExc sortSelect [1, 2, 3, 4, 5] (1 / 4) = .val (3 / 2) ∧ percentileExc sortSelect [1, 2, 3, 4, 5] (1 / 10) = .num := by decide +kernel
example : quartileInc sortSelect [1, 2, 4, 7, 8, 9, 10, 12] 1 = .val (7 / 2) ∧ quartileExc sortSelect [1, 2, 4, 7, 8, 9, 10, 12] 3 = .val (39 / 4) := by decide +kernel
example : [(5 : ℚ), 3, 9].Perm [9, 3, 5] := by decide +kernel

end Verif.Order
